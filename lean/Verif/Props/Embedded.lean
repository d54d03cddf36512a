import Verif.Props.Declares
import Verif.Props.Stuff

/-! C79: from the declarations of a program to what its embedded file system contains. -/

namespace Verif
namespace Props

open Mem Pack Spec
open Disk (Node)
open Disk.Node (tree WF)
open Parser (File Decl GoTool)

/-- The package `c` is the root of its module, whose directory, at the elements `m`, contains the tree `root`; no other
module is in it, and its names have no special meaning to `Parse`. -/
structure OwnModule (E : Env) (c : Info) (disk : Node) (m : List Str) (root : Node) : Prop where
  mne : m ≠ []
  plain : Plain m
  dir : c.dir = GoPath.mk m
  moduleDir : c.module.dir = GoPath.mk m
  found : disk.find m = some root
  isDir : root.isDir = true
  one : OneModule E c.module m [] root
  clear : ∀ cs k, (cs, k) ∈ tree root → Clear c (GoPath.mk cs)
  pkg : ∃ j, E.pkgInfo c.module.path = .ok j

/-- The declaration names the path `/a/b`, given by its elements, in the module of `c`. -/
structure OwnDecl (E : Env) (c : Info) (m : List Str) (d : Decl) (rel : List Str) : Prop where
  value : d.value = GoPath.mk rel
  plain : Plain rel
  clear : Clear c (GoPath.mk rel)
  module : d.file.here.module = c.module
  path : d.file.path = ⟨c.module.path, GoPath.mk rel⟩
  abs : d.file.abs = GoPath.mk (m ++ rel)
  parse : E.parse d.file.here (relName rel) = .ok d.file.path

/-- This is what a call written with such a path declares, wherever in the module it is. -/
theorem ownDecl_of_call {E : Env} {c : Info} {m rel : List Str} (hm : Plain m) (hdir : c.module.dir = GoPath.mk m)
    {abs : Str} {d : Decl} (hf : FileFor E abs d.value d.file) (hv : d.value = GoPath.mk rel) (hp : Plain rel)
    (hc : Clear c (GoPath.mk rel)) {i : Info} (hi : E.dirInfo (GoPath.dir abs) = .ok i) (him : i.module = c.module)
    (hl : ParseLaws E i) (hic : Clear i (GoPath.mk rel)) : OwnDecl E c m d rel := by
  have hpr : E.parse i d.value = .ok ⟨c.module.path, GoPath.mk rel⟩ := by
    rw [hv, ← him]
    by_cases h : rel = []
    · subst h
      have := hl.rooted (GoPath.mk []) (GoPath.rooted_mk []) (by decide) (by rw [GoPath.clean_mk (by simp [GoPath.Good])]; exact hic)
      rw [this, GoPath.clean_mk (by simp [GoPath.Good])]
    · have := parse_relName hl hp hic
      rwa [relName, if_neg h] at this
  have hfile : d.file = ⟨GoPath.mk (m ++ rel), ⟨c.module.path, GoPath.mk rel⟩, i⟩ := by
    generalize d.file = f at hf
    cases hf with
    | @own info pt h1 h2 h3 =>
      rw [hi] at h1; cases h1
      rw [hpr] at h2; cases h2
      rw [him, hdir, GoPath.join2_mk hm.good hp.good]
    | @foreign info pt info' h1 h2 h3 h4 =>
      rw [hi] at h1; cases h1
      rw [hpr] at h2; cases h2
      exact absurd (by rw [him]) h3
  refine ⟨hv, hp, hc, by rw [hfile]; exact him, by rw [hfile], by rw [hfile], ?_⟩
  rw [hfile]
  show E.parse i (relName rel) = .ok ⟨c.module.path, GoPath.mk rel⟩
  rw [← him]
  exact parse_relName hl hp hic

/-- The program creates the path when it runs. -/
def Creates (ds : List Decl) (x : Str) : Prop := ∃ d ∈ ds, (d.kind = .mkdirAll ∨ d.kind = .create) ∧ d.value = x

/-- The declaration names something to be read. -/
def Names (d : Decl) : Prop := d.kind ≠ .mkdirAll ∧ d.kind ≠ .create

theorem decls_split {E : Env} {G : GoTool} {disk : Node} {c : Info} {includes : List Str} {ds : List Decl}
    (h : Parser.decls E G disk c includes = .ok ds) :
    ∃ cr nm, ds = cr ++ nm ∧ (∀ d ∈ cr, d.kind = .mkdirAll ∨ d.kind = .create) ∧ ∀ d ∈ nm, Names d := by
  unfold Parser.decls at h
  split at h
  · rename_i m hm
    cases h
    have hk := Parser.kindsOk_parse hm
    refine ⟨_, _, ordered_split m, ?_, ?_⟩
    · intro d hd
      rcases List.mem_append.mp hd with h | h
      · exact Or.inl (hk _ d h)
      · exact Or.inr (hk _ d h)
    · intro d hd
      obtain ⟨k, hkm, hd⟩ := List.mem_flatMap.mp hd
      have := hk k d hd
      unfold Names
      simp only [List.mem_cons, List.not_mem_nil, or_false] at hkm
      rw [this]
      rcases hkm with rfl | rfl | rfl | rfl | rfl <;> decide
  · cases h
  · cases h

theorem choose_places {P : Place → Prop} : ∀ {ds : List Decl}, (∀ d ∈ ds, ∃ p : Place, p.decl = d ∧ P p) →
    ∃ ps : List Place, ps.map (·.decl) = ds ∧ ∀ p ∈ ps, P p
  | [], _ => ⟨[], rfl, by simp⟩
  | d :: ds, h => by
    obtain ⟨p, hp, hP⟩ := h d (by simp)
    obtain ⟨ps, h1, h2⟩ := choose_places (ds := ds) fun x hx => h x (by simp [hx])
    exact ⟨p :: ps, by simp [hp, h1], by
      intro q hq
      rcases List.mem_cons.mp hq with rfl | hq
      · exact hP
      · exact h2 q hq⟩

theorem mem_tree_sub {root : Node} (hw : WF root) {rel : List Str} {n : Node} (hn : root.find rel = some n) {cs : List Str}
    {k : Node} : (cs, k) ∈ tree n ↔ (rel ++ cs, k) ∈ tree root := by
  rw [Disk.mem_tree_iff _ _ _ (Disk.find_wf _ hw hn), Disk.mem_tree_iff _ _ _ hw, Disk.find_append, hn]

/-- A part of a module is a part of one module. -/
theorem OneModule.sub {E : Env} {mod : Module} {m : List Str} {root : Node} (h : OneModule E mod m [] root) (hw : WF root)
    {rel : List Str} {n : Node} (hn : root.find rel = some n) : OneModule E mod m rel n where
  dirs := by
    intro cs k hck hk
    obtain ⟨i, h1, h2, h3, h4⟩ := h.dirs (rel ++ cs) k ((mem_tree_sub hw hn).mp hck) hk
    refine ⟨i, by simpa [List.append_assoc] using h1, h2, h3, ?_⟩
    intro cs' k' hck'
    simpa using h4 (rel ++ cs') k' ((mem_tree_sub hw hn).mp hck')
  plain := by
    intro cs k hck
    simpa using h.plain (rel ++ cs) k ((mem_tree_sub hw hn).mp hck)

theorem relName_clear {c : Info} {m : List Str} (hd : c.dir = GoPath.mk m) {cs : List Str}
    (h : Clear c (GoPath.mk cs)) : ¬ GoPath.mk m <+: relName cs := by
  unfold relName
  split
  · intro hp
    have := List.prefix_nil.mp hp
    simp [GoPath.mk] at this
  · rcases h with h | h
    · rw [hd] at h; simp [GoPath.mk] at h
    · rwa [← hd]

theorem find_parent {root : Node} {cs : List Str} {w : Str} {n : Node} (h : root.find (cs ++ [w]) = some n) :
    ∃ k, root.find cs = some k ∧ k.isDir = true := by
  rw [Disk.find_append] at h
  cases hk : root.find cs with
  | none => rw [hk] at h; cases h
  | some k =>
    refine ⟨k, rfl, ?_⟩
    rw [hk] at h
    cases k with
    | file d b => simp [Disk.Node.find] at h
    | dir d kids => rfl

/-- **C79** for a package that is the root of its module, if all declarations name paths in it by their plain form (missing:
other modules and packages that are not the root of their module, for which it is false, see C44; other ways to write
paths; and creating the empty path). If everything the declarations name is on disk or created by the program, packaging succeeds. In the
embedded file system, each declared path that the program does not create opens with the details and bytes it has on
disk, unless its name on disk ends in `.tmp`, and so does everything below it; nothing else is there; and directories
know the package the Go tool named for the module path. -/
theorem C79_program_partial {E : Env} (hs : NoSkip E) (hz : GzipLaw E) {G : GoTool} {S : Setup} (hsort : Sorts S.sort)
    (hH : Serial.HereLaw S.here id) {ord : AMap Str Serial.EFile → List (Str × Serial.EFile)}
    (hord : Serial.Visits ord) (now : Int) {c : Info} (hl : ParseLaws E c) (ho : InfoOk c) (hw : S.disk.WF)
    (hnode : NodeOk S.disk) {m : List Str} {root : Node} (hmod : OwnModule E c S.disk m root)
    (htext : ∀ cs k, (cs, k) ∈ tree root → Serial.DetailsOk S.zone k.details ∧ Utf8.Valid (GoPath.mk cs))
    (hc : Serial.InfoText c) (htool : ∀ her, FromTool E her → Serial.InfoText her)
    {includes : List Str} {ds : List Decl} (hds : Parser.decls E G S.disk c includes = .ok ds)
    (hown : ∀ d ∈ ds, Names d → ∃ rel, OwnDecl E c m d rel ∧
      ((d.kind ≠ .walk ∧ Creates ds d.value) ∨ (root.find rel).isSome))
    (hnil0 : ¬ Creates ds []) :
    ∃ b w, blob E S c ds = .ok b ∧ Serial.unmarshalEmbed E S.here ord now b = .ok w ∧ Start c w ∧
      (∀ d ∈ ds, Names d → ¬ Creates ds d.value → Kept d.file → ∀ rel, d.value = GoPath.mk rel →
        Plain rel → ∀ cs k, root.find (rel ++ cs) = some k →
        openView E w (GoPath.mk (rel ++ cs)) = .ok (k.details, k.data)) ∧
      (∀ q, Stored w q → ∃ d ∈ ds, Names d ∧ ∃ rel cs k, d.value = GoPath.mk rel ∧ root.find (rel ++ cs) = some k ∧
        q = ⟨c.module.path, GoPath.mk (rel ++ cs)⟩) ∧
      (∀ q f d, lookup w q = some f → f.info = some d → d.isDir = true → E.pkgInfo q.pkg = .ok f.here) := by
  have hwr : WF root := Disk.find_wf _ hw hmod.found
  obtain ⟨cr, nm, rfl, hcr, hnm⟩ := decls_split hds
  have hcreates : ∀ x, (cr.any fun c => c.value = x) = true ↔ Creates (cr ++ nm) x := by
    intro x
    simp only [List.any_eq_true, decide_eq_true_eq]
    constructor
    · rintro ⟨d, h1, h2⟩; exact ⟨d, List.mem_append_left _ h1, hcr d h1, h2⟩
    · rintro ⟨d, h1, h2, h3⟩
      rcases List.mem_append.mp h1 with h | h
      · exact ⟨d, h, h3⟩
      · have := hnm d h
        rcases h2 with h2 | h2
        · exact absurd h2 this.1
        · exact absurd h2 this.2
  have hfindm : ∀ cs, S.disk.find (m ++ cs) = root.find cs := by
    intro cs; rw [Disk.find_append, hmod.found]
  -- the place of each declaration
  obtain ⟨ps, hps, hP⟩ := choose_places (ds := nm)
    (P := fun p => Names p.decl ∧ p.mdir = m ∧ OwnDecl E c m p.decl p.rel ∧
      (root.find p.rel = some p.node ∨ (p.Made (fun x => cr.any fun c => c.value = x) ∧ root.find p.rel = none ∧
        tree p.node = [([], p.node)]))) (by
    intro d hd
    obtain ⟨rel, h1, h2⟩ := hown d (List.mem_append_right _ hd) (hnm d hd)
    cases hf : root.find rel with
    | some n => exact ⟨⟨d, m, rel, n⟩, rfl, hnm d hd, rfl, h1, Or.inl hf⟩
    | none =>
      refine ⟨⟨d, m, rel, .file ⟨[], 0, 0, 0, false⟩ []⟩, rfl, hnm d hd, rfl, h1, Or.inr ⟨?_, hf, tree_file⟩⟩
      rcases h2 with h2 | h2
      · exact ⟨h2.1, (hcreates _).mpr h2.2⟩
      · rw [hf] at h2; cases h2)
  have hok : ∀ p ∈ ps, p.Ok E S.disk fun x => cr.any fun c => c.value = x := by
    intro p hp
    obtain ⟨h1, h2, h3, h4⟩ := hP p hp
    refine ⟨h1.1, h1.2, fun hnot => ?_⟩
    have hfind : root.find p.rel = some p.node := by
      rcases h4 with h4 | h4
      · exact h4
      · exact absurd h4.1 hnot
    refine ⟨by rw [h2]; exact hmod.mne, by rw [h2, GoPath.good_append]; exact ⟨hmod.plain.good, h3.plain.good⟩,
      by rw [h2, h3.module]; exact hmod.moduleDir, by rw [h3.path, h3.module], by rw [h2]; exact h3.abs,
      by rw [h2, hfindm]; exact hfind, ?_, fun _ _ => h3.parse⟩
    intro _
    rw [h2, h3.module]
    exact hmod.one.sub hwr hfind
  have hclash : NoClash ps := by
    intro p hp x hx q hq
    rw [(hP q hq).2.1]
    obtain ⟨h1, h2, h3, h4⟩ := hP p hp
    rcases hx with rfl | ⟨cs, k, es, hck, hes, rfl⟩
    · rw [h3.value]
      rcases h3.clear with h | h
      · rw [hmod.dir] at h; simp [GoPath.mk] at h
      · rwa [← hmod.dir]
    · apply relName_clear hmod.dir
      rcases h4 with h4 | ⟨_, _, h4⟩
      · obtain ⟨ts, rfl⟩ := hes
        have hf := (Disk.mem_tree_iff _ _ _ (Disk.find_wf _ hwr h4)).mp hck
        rw [Disk.find_append] at hf
        cases hes : p.node.find es with
        | none => rw [hes] at hf; cases hf
        | some k' =>
          refine hmod.clear (p.rel ++ es) k' ?_
          rw [Disk.mem_tree_iff _ _ _ hwr, Disk.find_append, h4]
          exact hes
      · rw [h4] at hck
        simp only [List.mem_singleton, Prod.mk.injEq] at hck
        obtain ⟨rfl, _⟩ := hck
        rw [List.prefix_nil.mp hes, List.append_nil]
        exact h3.clear
  obtain ⟨fs, hf, hnd, _, hfrom, hall⟩ := C78_listed_partial hw hsort hcr hok hclash
  rw [hps] at hf
  -- what the declarations stand for is in the module
  have hin : ∀ p ∈ ps, ∀ x ∈ p.stands (fun x => cr.any fun c => c.value = x), ∃ cs k, root.find (p.rel ++ cs) = some k ∧
      x = (GoPath.mk (m ++ (p.rel ++ cs)), ⟨c.module.path, GoPath.mk (p.rel ++ cs)⟩) := by
    intro p hp x hx
    obtain ⟨h1, h2, h3, h4⟩ := hP p hp
    unfold Place.stands at hx
    split at hx
    · cases hx
    · rename_i hnot
      have hfind : root.find p.rel = some p.node := by
        rcases h4 with h4 | h4
        · exact h4
        · exact absurd h4.1 hnot
      split at hx
      · simp only [List.mem_singleton] at hx
        exact ⟨[], p.node, by simpa using hfind, by rw [hx, h2, h3.module]; simp⟩
      · unfold listing at hx
        obtain ⟨e, he, rfl⟩ := List.mem_map.mp hx
        have he := (List.mem_filter.mp he).1
        refine ⟨e.1, e.2, ?_, by rw [h2, h3.module]; simp⟩
        exact (Disk.mem_tree_iff _ _ _ hwr).mp ((mem_tree_sub hwr hfind).mp he)
  have hownfile : ∀ (f : File) (r : List Str) (k : Node), f.abs = GoPath.mk (m ++ r) → f.path = ⟨c.module.path, GoPath.mk r⟩ →
      root.find r = some k → OwnFile E c S.disk f r k ∧ TextTree S.zone r k := by
    intro f r k h1 h2 h3
    have hpl : ∀ cs n, k.find cs = some n → (r ++ cs, n) ∈ tree root := by
      intro cs n hcn
      rw [Disk.mem_tree_iff _ _ _ hwr, Disk.find_append, h3]
      exact hcn
    have hr : Plain r := by
      simpa using hmod.one.plain r k ((Disk.mem_tree_iff _ _ _ hwr).mpr h3)
    refine ⟨⟨h2, ?_, ?_, ?_, Disk.find_wf _ hwr h3, ?_, ?_, hmod.pkg, ?_⟩, ?_⟩
    · unfold Parser.osStat
      rw [h1, GoPath.elems_mk (by rw [GoPath.good_append]; exact ⟨hmod.plain.good, hr.good⟩), hfindm]
      exact h3
    · show f.abs = _
      rw [h1, hmod.dir, GoPath.join2_mk hmod.plain.good hr.good]
    · rw [hmod.dir]; simp [GoPath.mk]
    · intro cs n hcn
      simpa using hmod.one.plain (r ++ cs) n (hpl cs n hcn)
    · intro cs n hcn
      exact hmod.clear (r ++ cs) n (hpl cs n hcn)
    · show ∃ j, E.dirInfo (if k.isDir = true then f.abs else GoPath.dir f.abs) = .ok j
      cases hd : k.isDir with
      | true =>
        obtain ⟨i, h4, _⟩ := hmod.one.dirs r k ((Disk.mem_tree_iff _ _ _ hwr).mpr h3) hd
        exact ⟨i, by simpa [h1] using h4⟩
      | false =>
        rcases List.eq_nil_or_concat r with rfl | ⟨r', w, rfl⟩
        · have : root = k := by simpa [Disk.Node.find] using h3
          rw [← this, hmod.isDir] at hd; cases hd
        · rw [List.concat_eq_append] at h3 h1 hr
          obtain ⟨k', h4, h5⟩ := find_parent h3
          obtain ⟨i, h6, _⟩ := hmod.one.dirs r' k' ((Disk.mem_tree_iff _ _ _ hwr).mpr h4) h5
          refine ⟨i, ?_⟩
          have hg : GoPath.Good (m ++ r' ++ [w]) := by
            rw [List.append_assoc, GoPath.good_append]; exact ⟨hmod.plain.good, hr.good⟩
          simp only [Bool.false_eq_true, if_false]
          rw [h1, ← List.append_assoc, GoPath.dir_mk_snoc (GoPath.good_append.mp hg).1 (by
            have := (GoPath.good_append.mp hg).2; exact this w (by simp))]
          simpa using h6
    · intro cs n hcn
      exact htext _ _ (hpl cs n hcn)
  obtain ⟨b, w, hb, hu, hstart, _, hbelow, honly, hher⟩ := C44_own_files_partial hs hz hH hord now hl ho hnode hf (by
    intro f hff _
    obtain ⟨p, hp, hx⟩ := hfrom f hff
    obtain ⟨cs, k, h1, h2⟩ := hin p hp _ hx
    cases f with
    | mk a pt her =>
      simp only [Prod.mk.injEq] at h2
      exact ⟨_, k, hownfile _ _ k h2.1 h2.2 h1⟩) hc htool
  refine ⟨b, w, hb, hu, hstart, ?_, ?_, hher⟩
  · intro d hd hnames hnc htmp rel hv hprel cs k hk
    have hdn : d ∈ nm := by
      rcases List.mem_append.mp hd with h | h
      · have := hcr d h
        rcases this with h | h
        · exact absurd h hnames.1
        · exact absurd h hnames.2
      · exact h
    rw [← hps] at hdn
    obtain ⟨p, hp, rfl⟩ := List.mem_map.mp hdn
    obtain ⟨h1, h2, h3, h4⟩ := hP p hp
    have hrel : p.rel = rel := by
      apply GoPath.mk_injective h3.plain.good (b := rel) hprel.good
      rw [← h3.value, hv]
    subst hrel
    have hnot : ¬ p.Made (fun x => cr.any fun c => c.value = x) := fun hm => hnc ((hcreates _).mp hm.2)
    have hfind : root.find p.rel = some p.node := by
      rcases h4 with h4 | h4
      · exact h4
      · exact absurd h4.1 hnot
    have hroot : (GoPath.mk (m ++ p.rel), (⟨c.module.path, GoPath.mk p.rel⟩ : Path)) ∈ p.stands (fun x => cr.any fun c => c.value = x) := by
      unfold Place.stands
      rw [if_neg hnot]
      split
      · simp [h2, h3.module]
      · unfold listing
        refine List.mem_map.mpr ⟨([], p.node), List.mem_filter.mpr ⟨?_, ?_⟩, ?_⟩
        · rw [Disk.mem_tree_iff _ _ _ (Disk.find_wf _ hwr hfind)]
          cases p.node <;> rfl
        · have hv0 : (cr.any fun c => c.value = relName p.rel) = false := by
            rw [Bool.eq_false_iff]
            intro h
            apply hnc
            have := (hcreates _).mp h
            unfold relName at this
            split at this
            · rename_i hnil
              obtain ⟨d', hd', hk', hv'⟩ := this
              exact absurd ⟨d', hd', hk', hv'⟩ hnil0
            · rw [h3.value]; exact this
          simp [listed, hv0]
        · simp [h2, h3.module]
    obtain ⟨f, hff, hfa⟩ := hall p hp _ hroot
    obtain ⟨p', hp', hx'⟩ := hfrom f hff
    obtain ⟨cs', k', e1, e2⟩ := hin p' hp' _ hx'
    simp only [Prod.mk.injEq] at e2
    have hgood : GoPath.Good (p'.rel ++ cs') := by
      have := hmod.one.plain _ k' ((Disk.mem_tree_iff _ _ _ hwr).mpr e1)
      simpa using this.good
    have heq : p'.rel ++ cs' = p.rel := by
      have := GoPath.mk_injective (a := m ++ (p'.rel ++ cs')) (by rw [GoPath.good_append]; exact ⟨hmod.plain.good, hgood⟩)
        (b := m ++ p.rel) (by rw [GoPath.good_append]; exact ⟨hmod.plain.good, h3.plain.good⟩) (by rw [← e2.1, hfa])
      exact List.append_cancel_left this
    rw [heq] at e1 e2
    rw [hfind] at e1
    cases e1
    have hown' := (hownfile f p.rel p.node e2.1 e2.2 hfind).1
    refine hbelow f hff ?_ p.rel p.node hown' cs k ?_
    · unfold Kept at htmp ⊢
      rw [e2.1, ← h3.abs]
      exact htmp
    · rw [Disk.find_append, hfind] at hk
      exact hk
  · intro q hq
    obtain ⟨f, hff, _, rel, n, hon, cs, k, h1, h2⟩ := honly q hq
    obtain ⟨p, hp, hx⟩ := hfrom f hff
    obtain ⟨cs', k', e1, e2⟩ := hin p hp _ hx
    simp only [Prod.mk.injEq] at e2
    have hp0 := hP p hp
    have hgood : GoPath.Good (p.rel ++ cs') := by
      have := hmod.one.plain _ k' ((Disk.mem_tree_iff _ _ _ hwr).mpr e1)
      simpa using this.good
    have hrel : rel = p.rel ++ cs' := by
      have hpl := hon.2.2.plain [] n (by cases n <;> rfl)
      apply GoPath.mk_injective (by simpa using hpl.good) (b := p.rel ++ cs') hgood
      have := hon.1.symm.trans e2.2
      exact congrArg Path.name this
    have hn : n = k' := by
      have := (hownfile f _ k' e2.1 e2.2 e1).1.2.1
      rw [hon.2.1] at this
      exact Option.some.inj this
    subst hn
    refine ⟨p.decl, ?_, hp0.1, p.rel, cs' ++ cs, k, hp0.2.2.1.value, ?_, ?_⟩
    · apply List.mem_append_right
      rw [← hps]
      exact List.mem_map_of_mem hp
    · rw [← List.append_assoc, Disk.find_append, e1]; exact h1
    · rw [h2, hrel, List.append_assoc]

/-! ### A concrete case -/

/-- A program that reads a file and a directory, and creates a file that it reads again. -/
def embProg : Parser.Ast :=
  Demo.program [Demo.callLit (b! "Open") (b! "\"/readme\""), Demo.callLit (b! "Walk") (b! "\"/assets\""),
    Demo.callLit (b! "Open") (b! "\"/new.txt\""), Demo.callLit (b! "Create") (b! "\"/new.txt\"")]

theorem demo_ownModule : OwnModule Demo.env Demo.info Demo.disk1 [b! "src", b! "app"] appNode where
  mne := by decide
  plain := by decide +kernel
  dir := by decide +kernel
  moduleDir := by decide +kernel
  found := rfl
  isDir := rfl
  one := ⟨by
    intro cs k hck hk
    refine ⟨Demo.info, ?_, rfl, Demo.laws, ?_⟩
    · have : ∀ e ∈ tree appNode, e.2.isDir = true →
          Demo.env.dirInfo (GoPath.mk ([b! "src", b! "app"] ++ [] ++ e.1)) = .ok Demo.info := by decide +kernel
      exact this (cs, k) hck hk
    · intro cs' k' hck'
      have : ∀ e ∈ tree appNode, Clear Demo.info (GoPath.mk ([] ++ e.1)) := by decide +kernel
      exact this (cs', k') hck', by
    intro cs k hck
    have : ∀ e ∈ tree appNode, Plain ([] ++ e.1) := by decide +kernel
    exact this (cs, k) hck⟩
  clear := by
    intro cs k hck
    have : ∀ e ∈ tree appNode, Clear Demo.info (GoPath.mk e.1) := by decide +kernel
    exact this (cs, k) hck
  pkg := ⟨Demo.info, by decide +kernel⟩

/-- The declarations of the program. -/
def embDecls : List Decl :=
  [⟨.create, ⟨b! "/src/app/new.txt", ⟨b! "app", b! "/new.txt"⟩, Demo.info⟩, b! "/new.txt"⟩,
   ⟨.open, ⟨b! "/src/app/readme", ⟨b! "app", b! "/readme"⟩, Demo.info⟩, b! "/readme"⟩,
   ⟨.open, ⟨b! "/src/app/new.txt", ⟨b! "app", b! "/new.txt"⟩, Demo.info⟩, b! "/new.txt"⟩,
   ⟨.walk, ⟨b! "/src/app/assets", ⟨b! "app", b! "/assets"⟩, Demo.info⟩, b! "/assets"⟩]

theorem embDecls_found : Parser.decls Demo.env (Demo.tool embProg) Demo.disk1 Demo.info [] = .ok embDecls := by
  decide +kernel

theorem demo_text : ∀ cs k, (cs, k) ∈ tree appNode → Serial.DetailsOk utc k.details ∧ Utf8.Valid (GoPath.mk cs) := by
  intro cs k hck
  have : ∀ e ∈ tree appNode, Serial.DetailsOk utc e.2.details ∧ Utf8.Valid (GoPath.mk e.1) := by decide +kernel
  exact this (cs, k) hck

/-- The demo program meets the hypotheses. Its embedded files are `/readme`, the directory `/assets` and what is in it;
`/new.txt` is not among them. -/
example : ∃ b w, blob Demo.env (demoSetup Demo.disk1) Demo.info embDecls = .ok b ∧
    Serial.unmarshalEmbed Demo.env Serial.plainHere id 5 b = .ok w ∧
    openView Demo.env w (b! "/readme") = .ok (⟨b! "readme", 5, 420, 0, false⟩, b! "hello") ∧
    openView Demo.env w (b! "/assets/b.txt") = .ok (⟨b! "b.txt", 3, 420, 0, false⟩, b! "bbb") ∧
    ¬ Stored w ⟨b! "app", b! "/new.txt"⟩ ∧ ¬ Stored w ⟨b! "app", b! "/main.go"⟩ := by
  obtain ⟨b, w, h1, h2, _, h3, h4, _⟩ := C79_program_partial demo_noSkip Demo.gzipLaw (S := demoSetup Demo.disk1)
    Demo.sortFiles_sorts plainHere_law visits_id 5 Demo.laws Demo.info_ok (by decide +kernel) nodeOk_disk1
    demo_ownModule demo_text (by decide +kernel) demo_tool_text embDecls_found (by
      intro d hd hn
      simp only [embDecls, List.mem_cons, List.not_mem_nil, or_false] at hd
      rcases hd with rfl | rfl | rfl | rfl
      · exact absurd rfl hn.2
      · exact ⟨[b! "readme"], ⟨by decide, by decide +kernel, by decide +kernel, rfl, by decide, by decide,
          by decide +kernel⟩, Or.inr (by decide +kernel)⟩
      · exact ⟨[b! "new.txt"], ⟨by decide, by decide +kernel, by decide +kernel, rfl, by decide, by decide,
          by decide +kernel⟩, Or.inl ⟨by decide, _, List.mem_cons_self, Or.inr rfl, rfl⟩⟩
      · exact ⟨[b! "assets"], ⟨by decide, by decide +kernel, by decide +kernel, rfl, by decide, by decide,
          by decide +kernel⟩, Or.inr (by decide +kernel)⟩) (by
      rintro ⟨d, hd, hk, hv⟩
      have : ∀ d ∈ embDecls, d.value ≠ [] := by decide
      exact this d hd hv)
  have hnc : ∀ x, x ≠ b! "/new.txt" → ¬ Creates embDecls x := by
    rintro x hx ⟨d, hd, hk, rfl⟩
    have : ∀ d ∈ embDecls, d.kind = .mkdirAll ∨ d.kind = .create → d.value = b! "/new.txt" := by decide
    exact hx (this d hd hk)
  have hno : ∀ (name : Str), (∀ d ∈ embDecls, Names d → ∀ rel, d.value = GoPath.mk rel → ∀ cs k,
      appNode.find (rel ++ cs) = some k → name ≠ GoPath.mk (rel ++ cs)) → ¬ Stored w ⟨b! "app", name⟩ := by
    intro name hname hst
    obtain ⟨d, hd, hn, rel, cs, k, e1, e2, e3⟩ := h4 _ hst
    exact hname d hd hn rel e1 cs k e2 (congrArg Path.name e3)
  have hrels : ∀ d ∈ embDecls, Names d → ∀ rel, d.value = GoPath.mk rel → ∀ cs k, appNode.find (rel ++ cs) = some k →
      rel = [b! "readme"] ∨ rel = [b! "assets"] := by
    intro d hd hn rel hv cs k hf
    have hg : GoPath.Good rel := by
      have hp := demo_ownModule.one.plain (rel ++ cs) k ((Disk.mem_tree_iff _ _ _ (by decide +kernel)).mpr hf)
      exact (GoPath.good_append.mp (by simpa using hp.good)).1
    have he : GoPath.elems d.value = rel := by rw [hv, GoPath.elems_mk hg]
    simp only [embDecls, List.mem_cons, List.not_mem_nil, or_false] at hd
    rcases hd with rfl | rfl | rfl | rfl
    · exact absurd rfl hn.2
    · left; rw [← he]; decide
    · exfalso
      have : rel = [b! "new.txt"] := by rw [← he]; decide
      subst this
      cases hf
    · right; rw [← he]; decide
  have hnot : ∀ (w : Str), GoPath.GoodElem w → w ≠ b! "readme" → w ≠ b! "assets" →
      ∀ d ∈ embDecls, Names d → ∀ rel, d.value = GoPath.mk rel → ∀ cs k, appNode.find (rel ++ cs) = some k →
      GoPath.mk [w] ≠ GoPath.mk (rel ++ cs) := by
    intro w hw h1 h2 d hd hn rel hv cs k hf he
    have hp := demo_ownModule.one.plain (rel ++ cs) k ((Disk.mem_tree_iff _ _ _ (by decide +kernel)).mpr hf)
    have := GoPath.mk_injective (a := [w]) (by intro x hx; simp at hx; subst hx; exact hw) (b := rel ++ cs) (by simpa using hp.good) he
    rcases hrels d hd hn rel hv cs k hf with rfl | rfl
    · simp at this; exact h1 this.1
    · simp at this; exact h2 this.1
  refine ⟨b, w, h1, h2, ?_, ?_, ?_, ?_⟩
  · exact h3 ⟨.open, ⟨b! "/src/app/readme", ⟨b! "app", b! "/readme"⟩, Demo.info⟩, b! "/readme"⟩ (by simp [embDecls])
      (by unfold Names; decide) (hnc _ (by decide)) (by decide +kernel) [b! "readme"] (by decide) (by decide +kernel) [] _ rfl
  · exact h3 ⟨.walk, ⟨b! "/src/app/assets", ⟨b! "app", b! "/assets"⟩, Demo.info⟩, b! "/assets"⟩ (by simp [embDecls])
      (by unfold Names; decide) (hnc _ (by decide)) (by decide +kernel) [b! "assets"] (by decide) (by decide +kernel)
      [b! "b.txt"] _ rfl
  · exact hno _ (hnot (b! "new.txt") (by decide +kernel) (by decide) (by decide))
  · exact hno _ (hnot (b! "main.go") (by decide +kernel) (by decide) (by decide))

end Props
end Verif
