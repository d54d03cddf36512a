import Verif.Props.FileTree
import Verif.Props.Virtual

/-! C78: what a list of declarations stands for on disk. -/

namespace Verif
namespace Props

open Parser Spec
open Disk (Node)
open Disk.Node (tree WF)

/-- A declaration that names something on disk: the elements of its module's directory, its path relative to it, and
what is there. -/
structure Place where
  decl : Decl
  mdir : List Str
  rel : List Str
  node : Node

/-- The declaration names a path the program itself creates; the code looks at this for all kinds but `Walk`. -/
def Place.Made (created : Str → Bool) (p : Place) : Prop := p.decl.kind ≠ .walk ∧ created p.decl.value = true

instance (created : Str → Bool) (p : Place) : Decidable (p.Made created) := by unfold Place.Made; infer_instance

/-- The declaration's entries say where it is, something is there, and it belongs to one module, with names that have no
special meaning to `Parse`. -/
structure Place.Located (E : Env) (disk : Node) (p : Place) : Prop where
  mdirNe : p.mdir ≠ []
  good : GoPath.Good (p.mdir ++ p.rel)
  dir : p.decl.file.here.module.dir = GoPath.mk p.mdir
  path : p.decl.file.path = ⟨p.decl.file.here.module.path, GoPath.mk p.rel⟩
  abs : p.decl.file.abs = GoPath.mk (p.mdir ++ p.rel)
  found : disk.find (p.mdir ++ p.rel) = some p.node
  one : p.node.isDir = true → OneModule E p.decl.file.here.module p.mdir p.rel p.node
  single : p.node.isDir = false → p.decl.kind = .walk → E.parse p.decl.file.here (relName p.rel) = .ok p.decl.file.path

/-- The declaration is of a kind that names files, and names something that is on disk or that the program creates. -/
def Place.Ok (E : Env) (disk : Node) (created : Str → Bool) (p : Place) : Prop :=
  p.decl.kind ≠ .mkdirAll ∧ p.decl.kind ≠ .create ∧ (¬ p.Made created → p.Located E disk)

/-- What the declaration stands for if the program itself creates the paths `created`: nothing, if it names such a path;
otherwise the named file, or all entries of the named directory except those created and those below them. -/
def Place.stands (created : Str → Bool) (p : Place) : List (Str × Path) :=
  if p.Made created then []
  else if p.decl.kind ≠ .walk ∧ p.node.isDir = false then
    [(GoPath.mk (p.mdir ++ p.rel), ⟨p.decl.file.here.module.path, GoPath.mk p.rel⟩)]
  else listing created p.decl.file.here.module p.mdir p.rel p.node

/-- The names the declaration is compared by: the text written in the program, and the paths in the module. -/
def Place.Name (p : Place) (x : Str) : Prop :=
  x = p.decl.value ∨ ∃ cs k es, (cs, k) ∈ tree p.node ∧ es <+: cs ∧ x = relName (p.rel ++ es)

/-- No name is, by its text, below a module's directory on disk. -/
def NoClash (ps : List Place) : Prop := ∀ p ∈ ps, ∀ x, p.Name x → ∀ q ∈ ps, ¬ GoPath.mk q.mdir <+: x

theorem listing_congr {virt virt' : Str → Bool} {mod : Module} {m rel : List Str} {n : Node}
    (h : ∀ cs k es, (cs, k) ∈ tree n → es <+: cs → virt (relName (rel ++ es)) = virt' (relName (rel ++ es))) :
    listing virt mod m rel n = listing virt' mod m rel n := by
  unfold listing
  congr 1
  apply List.filter_congr
  intro e he
  unfold listed
  rw [Bool.eq_iff_iff, List.all_eq_true, List.all_eq_true]
  have hk : ∀ k, virt (relName (rel ++ e.1.take k)) = virt' (relName (rel ++ e.1.take k)) :=
    fun k => h e.1 e.2 _ he (List.take_prefix k e.1)
  simp only [hk]

theorem mk_prefix {m : List Str} (hm : m ≠ []) (cs : List Str) : GoPath.mk m <+: GoPath.mk (m ++ cs) := by
  by_cases h : cs = []
  · subst h; simp
  · rw [GoPath.mk_append hm h]; exact List.prefix_append _ _

/-- Everything a declaration stands for is below its module's directory. -/
theorem stands_below {E : Env} {disk : Node} {created : Str → Bool} {p : Place} (hok : p.Ok E disk created) {x : Str × Path} (hx : x ∈ p.stands created) :
    GoPath.mk p.mdir <+: x.1 := by
  unfold Place.stands at hx
  split at hx
  · cases hx
  · rename_i hmade
    have hm := (hok.2.2 hmade).mdirNe
    split at hx
    · simp only [List.mem_singleton] at hx
      subst hx
      exact mk_prefix hm _
    · unfold listing at hx
      obtain ⟨e, _, rfl⟩ := List.mem_map.mp hx
      simp only [List.append_assoc]
      exact mk_prefix hm _

theorem tree_file {d : Mem.Details} {b : Str} : tree (.file d b) = [([], .file d b)] := by simp [tree]

/-- One declaration. -/
theorem place_files {E : Env} {disk : Node} (hw : WF disk) {p : Place} {created virt : Str → Bool} (ho : p.Ok E disk created)
    (hv : ∀ x, p.Name x → virt x = created x) :
    ∃ fl fs, filer E disk p.decl = some fl ∧ fl virt = .ok fs ∧
      fs.map (fun f => (f.abs, f.path)) = p.stands created := by
  have hnw : p.decl.kind ≠ .walk → filer E disk p.decl = some fun virt => openFiles E disk virt p.decl := by
    intro hk
    have h1 := ho.1
    have h2 := ho.2.1
    unfold filer
    split <;> first | rfl | (rename_i h; simp [h] at h1 h2 hk)
  by_cases hmade : p.Made created
  · refine ⟨fun virt => openFiles E disk virt p.decl, [], hnw hmade.1, ?_, ?_⟩
    · have := hv p.decl.value (Or.inl rfl)
      simp [openFiles, this, hmade.2]
    · simp [Place.stands, hmade]
  have hp := ho.2.2 hmade
  have hgm := (GoPath.good_append.mp hp.good).1
  have hgr := (GoPath.good_append.mp hp.good).2
  have hname : p.decl.file.path.name = GoPath.mk p.rel := by rw [hp.path]
  have hst : osStat disk (GoPath.mk (p.mdir ++ p.rel)) = some p.node := by
    unfold osStat
    rw [GoPath.elems_mk hp.good]
    exact hp.found
  have hroot : GoPath.join2 p.decl.file.here.module.dir p.decl.file.path.name = GoPath.mk (p.mdir ++ p.rel) := by
    rw [hp.dir, hname, GoPath.join2_mk hgm hgr]
  have hcongr : listing virt p.decl.file.here.module p.mdir p.rel p.node =
      listing created p.decl.file.here.module p.mdir p.rel p.node :=
    listing_congr fun cs k es h1 h2 => hv _ (Or.inr ⟨cs, k, es, h1, h2, rfl⟩)
  have hwalk : (p.node.isDir = true ∨ p.decl.kind = .walk) → ∃ fs, walkFiles E disk virt p.decl = .ok fs ∧
      fs.map (fun f => (f.abs, f.path)) = listing virt p.decl.file.here.module p.mdir p.rel p.node := by
    intro h
    by_cases hd : p.node.isDir = true
    · obtain ⟨fs, h1, h2, _⟩ := C60_directory_listing_partial (virt := virt) hw hp.mdirNe hp.good hp.dir hname hst hd (hp.one hd)
      exact ⟨fs, h1, h2⟩
    · have hd' : p.node.isDir = false := by simpa using hd
      have hk : p.decl.kind = .walk := by
        rcases h with h | h
        · exact absurd h hd
        · exact h
      have hs := hp.single hd' hk
      generalize hnode : p.node = nd at *
      cases nd with
      | dir _ _ => cases hd'
      | file dd b =>
        have htrim : Str.trimPrefix (GoPath.mk (p.mdir ++ p.rel)) p.decl.file.here.module.dir = relName p.rel := by
          rw [hp.dir, trimPrefix_relName hp.mdirNe]
        unfold walkFiles
        simp only [hroot, hst, Disk.walk, Disk.walkNode, walkFn, Disk.Node.isDir, Bool.false_eq_true, if_false, htrim, hs]
        unfold listing
        rw [tree_file]
        cases hvr : virt (relName p.rel) with
        | true => exact ⟨[], by simp, by simp [listed, hvr]⟩
        | false => exact ⟨_, by simp; rfl, by simp [listed, hvr, hp.path]⟩
  unfold Place.stands
  by_cases hk : p.decl.kind = .walk
  · obtain ⟨fs, h1, h2⟩ := hwalk (Or.inr hk)
    refine ⟨fun virt => walkFiles E disk virt p.decl, fs, by simp [filer, hk], h1, ?_⟩
    rw [if_neg hmade, if_neg (by simp [hk]), h2, hcongr]
  · refine ⟨fun virt => openFiles E disk virt p.decl, ?_⟩
    rw [hnw hk]
    have hval := hv p.decl.value (Or.inl rfl)
    have hop : openFiles E disk virt p.decl = if created p.decl.value = true then .ok []
        else if p.node.isDir = true then walkFiles E disk virt p.decl else .ok [p.decl.file] := by
      unfold openFiles
      rw [hval, hroot, hst]
    show ∃ fs, _ ∧ openFiles E disk virt p.decl = _ ∧ _
    rw [hop]
    have hc : created p.decl.value = false := by
      cases hc : created p.decl.value with
      | true => exact absurd ⟨hk, hc⟩ hmade
      | false => rfl
    rw [if_neg (by simp [hc]), if_neg hmade]
    by_cases hd : p.node.isDir = true
    · obtain ⟨fs, h1, h2⟩ := hwalk (Or.inl hd)
      exact ⟨fs, rfl, by simp [hd, h1], by simp [hd, h2, hcongr]⟩
    · have hd' : p.node.isDir = false := by simpa using hd
      exact ⟨[p.decl.file], rfl, by simp [hd'], by simp [hk, hd', hp.abs, hp.path]⟩

theorem filesLoop_of_contributed {E : Env} {disk : Node} {ds : List Decl} {v : List Str} {cs : List File}
    (h : Contributed E disk ds v cs) : ∀ m, ∃ s', filesLoop E disk ds ⟨m, v⟩ = .ok s' := by
  induction h with
  | nil v => intro m; exact ⟨_, rfl⟩
  | creates hk _ ih =>
    intro m
    simp only [filesLoop, filer_none.mpr hk, virtualPaths_creates hk]
    exact ih m
  | names hf hfl _ ih =>
    intro m
    have hk : ¬ (_ = Kind.mkdirAll ∨ _ = Kind.create) := fun hk => by rw [filer_none.mpr hk] at hf; cases hf
    simp only [filesLoop, hf, virtualPaths_other hk, List.nil_append, hfl, addFiles_eq]
    exact ih _

theorem contributed_creates {E : Env} {disk : Node} {ds : List Decl} {cs : List File} : ∀ {cr : List Decl} {v : List Str},
    (∀ d ∈ cr, d.kind = .mkdirAll ∨ d.kind = .create) →
    Contributed E disk ds ((cr.map (·.value)).reverse ++ v) cs → Contributed E disk (cr ++ ds) v cs
  | [], v, _, h => by simpa using h
  | d :: cr, v, hk, h => by
    refine .creates (hk d (by simp)) ?_
    refine contributed_creates (fun x hx => hk x (by simp [hx])) ?_
    simpa using h

theorem places_contribute {E : Env} {disk : Node} (hw : WF disk) {created : Str → Bool} {all : List Place} (hc : NoClash all)
    (hok : ∀ p ∈ all, p.Ok E disk created) : ∀ (ps : List Place) (v : List Str), (∀ p ∈ ps, p ∈ all) →
    (∀ x, (∃ p ∈ all, p.Name x) → v.contains x = created x) →
    ∃ cs, Contributed E disk (ps.map (·.decl)) v cs ∧
      cs.map (fun f => (f.abs, f.path)) = ps.flatMap (Place.stands created)
  | [], v, _, _ => ⟨[], .nil v, rfl⟩
  | p :: ps, v, hall, hv => by
    have hp := hall p (by simp)
    obtain ⟨fl, fs, h1, h2, h3⟩ := place_files hw (hok p hp) (created := created) (virt := fun x => v.contains x)
      (fun x hx => hv x ⟨p, hp, hx⟩)
    obtain ⟨cs, h4, h5⟩ := places_contribute hw (created := created) hc hok ps ((fs.map (·.abs)).reverse ++ v)
      (fun q hq => hall q (by simp [hq])) (by
        rintro x ⟨q, hq, hx⟩
        rw [← hv x ⟨q, hq, hx⟩]
        have hnot : x ∉ fs.map (·.abs) := by
          intro hm
          obtain ⟨f, hf, rfl⟩ := List.mem_map.mp hm
          have : (f.abs, f.path) ∈ p.stands created := by rw [← h3]; exact List.mem_map_of_mem hf
          exact hc q hq _ hx p hp (stands_below (hok p hp) this)
        rw [Bool.eq_iff_iff]
        simp only [List.contains_iff_mem, List.mem_append, List.mem_reverse, hnot, false_or])
    exact ⟨fs ++ cs, .names h1 h2 h4, by simp [h3, h5]⟩

/-- **C78** in full: for declarations each of which stays in one module and names what `Parse` makes of its text, everything
a declaration stands for is listed. -/
def C78_statement : Prop :=
  ∀ (E : Env) (disk : Node) (sort : List File → List File) (cr : List Decl) (ps : List Place), WF disk → Sorts sort →
    (∀ p i, E.dirInfo p = .ok i → ParseLaws E i) → (∀ d ∈ cr, d.kind = .mkdirAll ∨ d.kind = .create) →
    (∀ p ∈ ps, p.Ok E disk fun x => cr.any fun c => c.value = x) →
    (∀ p ∈ ps, E.parse p.decl.file.here p.decl.value = .ok p.decl.file.path) →
    ∃ out, files E disk sort (cr ++ ps.map (·.decl)) = .ok out ∧
      ∀ p ∈ ps, ∀ x ∈ p.stands fun x => cr.any fun c => c.value = x, ∃ f ∈ out, f.abs = x.1

/-- **C78** (what is embedded). For declarations each of which stays in one module, the list of files succeeds, and it
consists of exactly what the declarations stand for, each name on disk once, sorted by package path. -/
theorem C78_listed_partial {E : Env} {disk : Node} (hw : WF disk) {sort : List File → List File} (hs : Sorts sort)
    {cr : List Decl} (hcr : ∀ d ∈ cr, d.kind = .mkdirAll ∨ d.kind = .create) {ps : List Place}
    (hok : ∀ p ∈ ps, p.Ok E disk fun x => cr.any fun c => c.value = x) (hc : NoClash ps) :
    ∃ out, files E disk sort (cr ++ ps.map (·.decl)) = .ok out ∧
      (out.map (·.abs)).Nodup ∧ (out.Pairwise fun f g => Str.lt g.path.str f.path.str = false) ∧
      (∀ f ∈ out, ∃ p ∈ ps, (f.abs, f.path) ∈ p.stands fun x => cr.any fun c => c.value = x) ∧
      (∀ p ∈ ps, ∀ x ∈ p.stands fun x => cr.any fun c => c.value = x, ∃ f ∈ out, f.abs = x.1) := by
  have hv : ∀ x : Str, ((cr.map Decl.value).reverse ++ []).contains x = cr.any fun c => c.value = x := by
    intro x
    rw [Bool.eq_iff_iff]
    simp only [List.append_nil, List.contains_iff_mem, List.mem_reverse, List.mem_map, List.any_eq_true, decide_eq_true_eq]
  obtain ⟨cs, h1, h2⟩ := places_contribute hw (created := fun x => cr.any fun c => c.value = x) hc hok ps ((cr.map Decl.value).reverse ++ [])
    (fun _ h => h) (fun x _ => hv x)
  have h3 := contributed_creates hcr h1
  obtain ⟨s', h4⟩ := filesLoop_of_contributed h3 []
  have h5 : files E disk sort (cr ++ ps.map (·.decl)) = .ok (sort (s'.m.map (·.2))) := by
    unfold files
    rw [h4]
  obtain ⟨cs', q1, q2, q3, q4, q5⟩ := C38_files_list hs h5
  have := contributed_unique h3 q1
  subst this
  refine ⟨_, h5, q2, q3, ?_, ?_⟩
  · intro f hf
    obtain ⟨pre, post, hcs, _⟩ := q5 f hf
    have : (f.abs, f.path) ∈ cs.map (fun f => (f.abs, f.path)) := List.mem_map_of_mem (by rw [hcs]; simp)
    rw [h2] at this
    exact List.mem_flatMap.mp this
  · intro p hp x hx
    have : x ∈ cs.map (fun f => (f.abs, f.path)) := by rw [h2]; exact List.mem_flatMap.mpr ⟨p, hp, hx⟩
    obtain ⟨f, hf, rfl⟩ := List.mem_map.mp this
    exact q4 f hf

/-- **C78** (what is missing). A declaration of something that is neither on disk nor created by the program is an
error. -/
theorem C78_missing {E : Env} {disk : Node} {sort : List File → List File} {ds : List Decl} {d : Decl} (hd : d ∈ ds)
    (hk : d.kind ≠ .mkdirAll ∧ d.kind ≠ .create)
    (hmiss : osStat disk (GoPath.join2 d.file.here.module.dir d.file.path.name) = none)
    (hvirt : d.kind = .walk ∨ ∀ (pre : List Decl) (cs : List File) (post : List Decl), ds = pre ++ d :: post →
      Contributed E disk pre [] cs → d.value ∉ cs.map (·.abs) ∧ ∀ c ∈ pre, c.kind = .mkdirAll ∨ c.kind = .create → c.value ≠ d.value) :
    ∃ e, files E disk sort ds = .error e := by
  cases hf : files E disk sort ds with
  | error e => exact ⟨e, rfl⟩
  | ok out =>
    exfalso
    unfold files at hf
    split at hf
    · cases hf
    · rename_i s hl
      obtain ⟨cs, hcon, _⟩ := filesLoop_contributed ds hl
      have key : ∀ (ds : List Decl) (v : List Str) (cs : List File), Contributed E disk ds v cs → d ∈ ds →
          ∃ pre post cs1, ds = pre ++ d :: post ∧ Contributed E disk pre v cs1 ∧
            ∃ (v' : List Str) (fl : _) (fs : _), filer E disk d = some fl ∧ fl (fun x => v'.contains x) = .ok fs ∧
              ∀ x ∈ v', x ∈ v ∨ x ∈ cs1.map (·.abs) ∨ ∃ c ∈ pre, (c.kind = .mkdirAll ∨ c.kind = .create) ∧ c.value = x := by
        intro ds v cs h
        induction h with
        | nil v => intro h; cases h
        | @creates d0 ds v cs hk0 h ih =>
          intro hm
          have hne : d ≠ d0 := by rintro rfl; rcases hk0 with h | h <;> simp [h] at hk
          obtain ⟨pre, post, cs1, e1, e2, v', fl, fs, e3, e4, e5⟩ := ih (by simpa [hne] using hm)
          refine ⟨d0 :: pre, post, cs1, by simp [e1], .creates hk0 e2, v', fl, fs, e3, e4, ?_⟩
          intro x hx
          rcases e5 x hx with h | h | ⟨c, hc, h⟩
          · rcases List.mem_cons.mp h with rfl | h
            · exact Or.inr (Or.inr ⟨d0, by simp, hk0, rfl⟩)
            · exact Or.inl h
          · exact Or.inr (Or.inl h)
          · exact Or.inr (Or.inr ⟨c, by simp [hc], h⟩)
        | @names d0 ds v fs0 cs fl0 hf0 hfl0 h ih =>
          intro hm
          by_cases hne : d = d0
          · subst hne
            exact ⟨[], ds, [], rfl, .nil _, v, fl0, fs0, hf0, hfl0, fun x hx => Or.inl hx⟩
          · obtain ⟨pre, post, cs1, e1, e2, v', fl, fs, e3, e4, e5⟩ := ih (by simpa [hne] using hm)
            refine ⟨d0 :: pre, post, fs0 ++ cs1, by simp [e1], .names hf0 hfl0 e2, v', fl, fs, e3, e4, ?_⟩
            intro x hx
            rcases e5 x hx with h | h | ⟨c, hc, h⟩
            · rcases List.mem_append.mp h with h | h
              · right; left
                rw [List.map_append]
                exact List.mem_append_left _ (by simpa using h)
              · exact Or.inl h
            · right; left
              rw [List.map_append]
              exact List.mem_append_right _ h
            · exact Or.inr (Or.inr ⟨c, by simp [hc], h⟩)
      obtain ⟨pre, post, cs1, e1, e2, v', fl, fs, e3, e4, e5⟩ := key ds [] cs hcon hd
      by_cases hw : d.kind = .walk
      · have : filer E disk d = some fun virt => walkFiles E disk virt d := by simp [filer, hw]
        rw [this] at e3
        cases e3
        simp [walkFiles, hmiss] at e4
      · have hf' : filer E disk d = some fun virt => openFiles E disk virt d := by
          unfold filer
          split <;> first | rfl | (rename_i h; simp [h] at hk hw)
        rw [hf'] at e3
        cases e3
        have hnot : d.value ∉ v' := by
          intro hm
          rcases hvirt with h | h
          · exact hw h
          · obtain ⟨g1, g2⟩ := h pre cs1 post e1 e2
            rcases e5 _ hm with h | h | ⟨c, hc, hck, hcv⟩
            · cases h
            · exact g1 h
            · exact g2 c hc hck hcv
        simp [openFiles, hmiss, hnot] at e4

/-! ### Concrete cases -/

/-- The directory of the demo module. -/
def appNode : Node := .dir ⟨b! "app", 4096, 2147484141, 0, true⟩
  [Demo.dirNode (b! "assets") [Demo.fileNode (b! "a.txt") (b! "aaa"), Demo.fileNode (b! "b.txt") (b! "bbb")],
    Demo.fileNode (b! "main.go") (b! "package main"), Demo.fileNode (b! "readme") (b! "hello")]

/-- `Open("/readme")`, `Walk("/assets")` and `Open("/new.txt")` in the demo module; the last is not on disk. -/
def demoPlaces : List Place :=
  [⟨⟨.open, ⟨b! "/src/app/readme", ⟨b! "app", b! "/readme"⟩, Demo.info⟩, b! "/readme"⟩, [b! "src", b! "app"], [b! "readme"],
    (Demo.fileNode (b! "readme") (b! "hello")).2⟩,
   ⟨⟨.open, ⟨b! "/src/app/new.txt", ⟨b! "app", b! "/new.txt"⟩, Demo.info⟩, b! "/new.txt"⟩, [b! "src", b! "app"],
    [b! "new.txt"], .file ⟨[], 0, 0, 0, false⟩ []⟩,
   ⟨⟨.walk, ⟨b! "/src/app/assets", ⟨b! "app", b! "/assets"⟩, Demo.info⟩, b! "/assets"⟩, [b! "src", b! "app"], [b! "assets"],
    (Demo.dirNode (b! "assets") [Demo.fileNode (b! "a.txt") (b! "aaa"), Demo.fileNode (b! "b.txt") (b! "bbb")]).2⟩]

/-- The program creates `/new.txt` and `/assets/a.txt`. -/
def demoCreates : List Decl :=
  [⟨.create, ⟨b! "/src/app/new.txt", ⟨b! "app", b! "/new.txt"⟩, Demo.info⟩, b! "/new.txt"⟩,
   ⟨.create, ⟨b! "/src/app/assets/a.txt", ⟨b! "app", b! "/assets/a.txt"⟩, Demo.info⟩, b! "/assets/a.txt"⟩]

theorem demo_oneModule : OneModule Demo.env Demo.info.module [b! "src", b! "app"] [b! "assets"]
    (Demo.dirNode (b! "assets") [Demo.fileNode (b! "a.txt") (b! "aaa"), Demo.fileNode (b! "b.txt") (b! "bbb")]).2 where
  dirs := by
    intro cs k hck hk
    refine ⟨Demo.info, ?_, rfl, Demo.laws, ?_⟩
    · have : ∀ e ∈ tree (Demo.dirNode (b! "assets") [Demo.fileNode (b! "a.txt") (b! "aaa"), Demo.fileNode (b! "b.txt") (b! "bbb")]).2,
          e.2.isDir = true → Demo.env.dirInfo (GoPath.mk ([b! "src", b! "app"] ++ [b! "assets"] ++ e.1)) = .ok Demo.info := by
        decide +kernel
      exact this (cs, k) hck hk
    · intro cs' k' hck'
      have : ∀ e ∈ tree (Demo.dirNode (b! "assets") [Demo.fileNode (b! "a.txt") (b! "aaa"), Demo.fileNode (b! "b.txt") (b! "bbb")]).2,
          Clear Demo.info (GoPath.mk ([b! "assets"] ++ e.1)) := by decide +kernel
      exact this (cs', k') hck'
  plain := by
    intro cs k hck
    have : ∀ e ∈ tree (Demo.dirNode (b! "assets") [Demo.fileNode (b! "a.txt") (b! "aaa"), Demo.fileNode (b! "b.txt") (b! "bbb")]).2,
        Plain ([b! "assets"] ++ e.1) := by decide +kernel
    exact this (cs, k) hck

/-- The hypotheses are met, and these are the files. -/
example : (∀ d ∈ demoCreates, d.kind = .mkdirAll ∨ d.kind = .create) ∧
    (∀ p ∈ demoPlaces, p.Ok Demo.env Demo.disk1 fun x => demoCreates.any fun c => c.value = x) ∧ NoClash demoPlaces ∧
    demoPlaces.map (Place.stands fun x => demoCreates.any fun c => c.value = x) =
      [[(b! "/src/app/readme", ⟨b! "app", b! "/readme"⟩)], [],
       [(b! "/src/app/assets", ⟨b! "app", b! "/assets"⟩), (b! "/src/app/assets/b.txt", ⟨b! "app", b! "/assets/b.txt"⟩)]] := by
  refine ⟨by decide, ?_, ?_, by decide +kernel⟩
  · intro p hp
    simp only [demoPlaces, List.mem_cons, List.not_mem_nil, or_false] at hp
    rcases hp with rfl | rfl | rfl
    · exact ⟨by decide, by decide, fun _ => ⟨by decide, by decide +kernel, by decide, by decide, by decide, rfl,
        fun h => (by cases h), fun _ h => (by cases h)⟩⟩
    · exact ⟨by decide, by decide, fun h => absurd (by decide) h⟩
    · exact ⟨by decide, by decide, fun _ => ⟨by decide, by decide +kernel, by decide, by decide, by decide, rfl,
        fun _ => demo_oneModule, fun h => (by cases h)⟩⟩
  · intro p hp x hx q hq
    have hq' : q.mdir = [b! "src", b! "app"] := by
      have : ∀ q ∈ demoPlaces, q.mdir = [b! "src", b! "app"] := by
        intro q hq
        simp only [demoPlaces, List.mem_cons, List.not_mem_nil, or_false] at hq
        rcases hq with rfl | rfl | rfl <;> rfl
      exact this q hq
    rw [hq']
    rcases hx with rfl | ⟨cs, k, es, hck, hes, rfl⟩
    · have : ∀ d ∈ demoPlaces.map (·.decl), ¬ GoPath.mk [b! "src", b! "app"] <+: d.value := by decide +kernel
      exact this _ (List.mem_map_of_mem hp)
    · have : ∀ p ∈ demoPlaces, ∀ e ∈ tree p.node, ∀ j ∈ List.range 3,
          ¬ GoPath.mk [b! "src", b! "app"] <+: relName (p.rel ++ e.1.take j) := by
        intro p hp
        simp only [demoPlaces, List.mem_cons, List.not_mem_nil, or_false] at hp
        rcases hp with rfl | rfl | rfl <;> decide +kernel
      have hlen : ∀ p ∈ demoPlaces, ∀ e ∈ tree p.node, e.1.length < 3 := by
        intro p hp
        simp only [demoPlaces, List.mem_cons, List.not_mem_nil, or_false] at hp
        rcases hp with rfl | rfl | rfl <;> decide +kernel
      have h1 := hlen p hp _ hck
      have h2 := hes.length_le
      have := this p hp _ hck es.length (List.mem_range.mpr (Nat.lt_of_le_of_lt h2 h1))
      rwa [show (cs, k).1.take es.length = es from (List.prefix_iff_eq_take.mp hes).symm] at this

/-- A module `app` that keeps a copy of a file of the module `lib`, in a directory called as `lib`'s on this disk. -/
def vendorDisk : Node := .dir ⟨[], 4096, 2147484141, 0, true⟩ [Demo.dirNode (b! "src")
  [Demo.dirNode (b! "app") [Demo.dirNode (b! "src") [Demo.dirNode (b! "lib") [Demo.fileNode (b! "x") (b! "copy")]]],
   Demo.dirNode (b! "lib") [Demo.fileNode (b! "x") (b! "orig")]]]

/-- `Open("lib:/x")` and `Open("/src/lib/x")`. -/
def vendorPlaces : List Place :=
  [⟨⟨.open, ⟨b! "/src/lib/x", ⟨b! "lib", b! "/x"⟩, Demo.libInfo⟩, b! "lib:/x"⟩, [b! "src", b! "lib"], [b! "x"],
    (Demo.fileNode (b! "x") (b! "orig")).2⟩,
   ⟨⟨.open, ⟨b! "/src/app/src/lib/x", ⟨b! "app", b! "/src/lib/x"⟩, Demo.info⟩, b! "/src/lib/x"⟩, [b! "src", b! "app"],
    [b! "src", b! "lib", b! "x"], (Demo.fileNode (b! "x") (b! "copy")).2⟩]

/-- **C78** is false of the code: the names on disk of the files listed so far and the names in modules are kept in one
map, so that a file called in its module as one already listed is called on disk is left out. -/
theorem C78_clash_refuted : ¬ C78_statement := by
  intro h
  obtain ⟨out, h1, h2⟩ := h Demo.env2 vendorDisk Demo.sortFiles [] vendorPlaces (by decide +kernel) Demo.sortFiles_sorts demo2_laws
    (fun _ h => (by cases h)) (by
      intro p hp
      simp only [vendorPlaces, List.mem_cons, List.not_mem_nil, or_false] at hp
      rcases hp with rfl | rfl
      · exact ⟨by decide, by decide, fun _ => ⟨by decide, by decide +kernel, by decide, by decide, by decide, rfl,
          fun h => (by cases h), fun _ h => (by cases h)⟩⟩
      · exact ⟨by decide, by decide, fun _ => ⟨by decide, by decide +kernel, by decide, by decide, by decide, rfl,
          fun h => (by cases h), fun _ h => (by cases h)⟩⟩) (by decide +kernel)
  have h3 : (match files Demo.env2 vendorDisk Demo.sortFiles (vendorPlaces.map (·.decl)) with
      | .ok fs => fs.all fun f => f.abs ≠ b! "/src/app/src/lib/x"
      | _ => true) = true := by decide +kernel
  rw [show files Demo.env2 vendorDisk Demo.sortFiles (vendorPlaces.map (·.decl)) = .ok out from h1] at h3
  obtain ⟨f, hf, hx⟩ := h2 _ (List.mem_cons_of_mem _ List.mem_cons_self) (b! "/src/app/src/lib/x", ⟨b! "app", b! "/src/lib/x"⟩)
    (by decide +kernel)
  have := List.all_eq_true.mp h3 f hf
  simp [hx] at this

/-- A file that is not there. -/
example : ∃ e, files Demo.env Demo.disk1 Demo.sortFiles
    [⟨.open, ⟨b! "/src/app/nope", ⟨b! "app", b! "/nope"⟩, Demo.info⟩, b! "/nope"⟩] = .error e := by
  refine C78_missing List.mem_cons_self (by decide) (by decide +kernel) (Or.inr ?_)
  intro pre cs post h1 h2
  cases pre with
  | nil => cases h2; simp
  | cons a l => simp at h1

end Props
end Verif
