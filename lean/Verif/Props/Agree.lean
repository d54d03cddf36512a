import Verif.Props.Embedded
import Verif.Props.Stdos
import Verif.Props.Walk

/-! C81: a program that runs from the disk and the same program running from its embedded files. -/

namespace Verif
namespace Props

open Mem Pack Spec
open Disk (Node)
open Disk.Node (tree WF)
open Parser (File Decl GoTool)

/-! ### The disk as the operating system presents it -/

/-- In the state `h` the operating system shows the files of `disk`: what is there can be opened, looked at and walked,
and what is not there cannot. `holds h fd` is the entry an open file refers to. -/
structure ShowsDisk {S : Type} (O : Stdos.Host S) (holds : S → Nat → Option Node) (disk : Node) (h : S) : Prop where
  there : ∀ es k, GoPath.Good es → disk.find es = some k →
    (∃ h1 fd h2, O.openFile (GoPath.mk es) h = (h1, .ok fd) ∧ O.fstat fd h1 = (h2, .ok k.details) ∧ holds h2 fd = some k) ∧
    (∃ h1, O.stat (GoPath.mk es) h = (h1, .ok k.details)) ∧
    (∃ h1, O.tree (GoPath.mk es) h = (h1, .ok k))
  absent : ∀ es, GoPath.Good es → disk.find es = none →
    (∃ h1 e, O.openFile (GoPath.mk es) h = (h1, .error e)) ∧ (∃ h1 e, O.stat (GoPath.mk es) h = (h1, .error e))

/-- What opening a file on disk shows: the details the handle carries, and the bytes of the entry it refers to (none for
a directory). -/
def diskOpenView {S : Type} (E : Env) (O : Stdos.Host S) (holds : S → Nat → Option Node) (u : Stdos.World S) (name : Str) :
    Option (Details × Str) :=
  match Stdos.openFile E O u name with
  | (_, .error _) => none
  | (u', .ok f) =>
    match f.info, holds u'.host f.fd with
    | some d, some k => some (d, k.data)
    | _, _ => none

/-- What looking at a file on disk shows. -/
def diskStatView {S : Type} (E : Env) (O : Stdos.Host S) (u : Stdos.World S) (name : Str) : Option Details :=
  match Stdos.stat E O u name with
  | (_, .error _) => none
  | (_, .ok d) => some d

/-- The value, if there is one. -/
def value {α : Type} : Res α → Option α
  | .ok a => some a
  | _ => none

/-- The embedded Pkger `w` has the part of the module's tree `root` at `rel`, and stores nothing that is not in this
tree. -/
structure Mirrors (E : Env) (c : Info) (root : Node) (rel : List Str) (w : World) : Prop where
  start : Start c w
  has : ∀ cs k, root.find (rel ++ cs) = some k → openView E w (GoPath.mk (rel ++ cs)) = .ok (k.details, k.data)
  only : ∀ q, Stored w q → ∃ es k, root.find es = some k ∧ q = ⟨c.module.path, GoPath.mk es⟩

variable {S : Type}

/-- The places of a Pkger on disk for the root package of its module. -/
theorem own_locate (E : Env) (O : Stdos.Host S) {c : Info} (hl : ParseLaws E c) (hpk : c.importPath = c.module.path)
    (h : S) (ops : List Stdos.Op) {name : Str} (hn : Ordinary c name) :
    Stdos.locate E O (Stdos.run E O ⟨Stdos.new c h, []⟩ ops).world name =
      ((Stdos.run E O ⟨Stdos.new c h, []⟩ ops).world,
        .ok (⟨c.module.path, GoPath.mk (GoPath.rootedElems name)⟩, c)) := by
  refine Stdos.locate_of (pt := ⟨c.module.path, GoPath.mk (GoPath.rootedElems name)⟩) ?_ ?_
  · rw [Stdos.run_here]; exact hn.parse hl
  · have := C51_own_package E O c h ops
    rw [hpk] at this
    exact this

/-- What opening and looking shows on disk. -/
theorem disk_views (E : Env) (O : Stdos.Host S) {holds : S → Nat → Option Node} {disk root : Node} {c : Info}
    (hl : ParseLaws E c) (hpk : c.importPath = c.module.path) {m : List Str} (hm : GoPath.Good m) (hdir : c.dir = GoPath.mk m)
    (hroot : disk.find m = some root) (h : S) (ops : List Stdos.Op)
    (hsh : ShowsDisk O holds disk (Stdos.run E O ⟨Stdos.new c h, []⟩ ops).world.host) {name : Str} (hn : Ordinary c name) :
    diskOpenView E O holds (Stdos.run E O ⟨Stdos.new c h, []⟩ ops).world name =
      (root.find (GoPath.rootedElems name)).map (fun k => (k.details, k.data)) ∧
    diskStatView E O (Stdos.run E O ⟨Stdos.new c h, []⟩ ops).world name =
      (root.find (GoPath.rootedElems name)).map (·.details) := by
  have hloc := own_locate E O hl hpk h ops hn
  generalize (Stdos.run E O ⟨Stdos.new c h, []⟩ ops).world = u at hloc hsh
  have hg : GoPath.Good (m ++ GoPath.rootedElems name) := GoPath.good_append.mpr ⟨hm, GoPath.good_rootedElems name⟩
  have hj : GoPath.join2 c.dir (GoPath.mk (GoPath.rootedElems name)) = GoPath.mk (m ++ GoPath.rootedElems name) := by
    rw [hdir]; exact GoPath.join2_mk hm (GoPath.good_rootedElems name)
  have hf : disk.find (m ++ GoPath.rootedElems name) = root.find (GoPath.rootedElems name) := by
    rw [Disk.find_append, hroot]
  cases hk : root.find (GoPath.rootedElems name) with
  | some k =>
    obtain ⟨⟨h1, fd, h2, e1, e2, e3⟩, ⟨h3, e4⟩, _⟩ := hsh.there _ k hg (hf.trans hk)
    refine ⟨?_, ?_⟩
    · simp only [diskOpenView, Stdos.openFile, hloc, hj, e1, Stdos.wrapFile, e2, e3]
      rfl
    · simp only [diskStatView, Stdos.stat, hloc, hj, e4]
      rfl
  | none =>
    obtain ⟨⟨h1, e, e1⟩, ⟨h3, e', e4⟩⟩ := hsh.absent _ hg (hf.trans hk)
    refine ⟨?_, ?_⟩
    · simp only [diskOpenView, Stdos.openFile, hloc, hj, e1]
      rfl
    · simp only [diskStatView, Stdos.stat, hloc, hj, e4]
      rfl

/-- What opening and looking shows in an embedded Pkger, below a declared path. -/
theorem embedded_views (E : Env) {c : Info} (hl : ParseLaws E c) {root : Node} {rel : List Str} {w : World}
    (hm : Mirrors E c root rel w) (hgood : ∀ es k, root.find es = some k → GoPath.Good es ∧ Ordinary c (GoPath.mk es))
    {name : Str} (hn : Ordinary c name) {cs : List Str} (he : GoPath.rootedElems name = rel ++ cs) :
    value (openView E w name) = (root.find (rel ++ cs)).map (fun k => (k.details, k.data)) ∧
    value (statView E w name) = (root.find (rel ++ cs)).map (·.details) := by
  have hp : E.parse w.here name = .ok ⟨c.module.path, GoPath.mk (rel ++ cs)⟩ := by
    rw [hm.start.here, hn.parse hl, he]
  cases hk : root.find (rel ++ cs) with
  | some k =>
    have h1 := hm.has cs k hk
    obtain ⟨hg, ho⟩ := hgood _ k hk
    have hp1 : E.parse w.here (GoPath.mk (rel ++ cs)) = .ok ⟨c.module.path, GoPath.mk (rel ++ cs)⟩ := by
      rw [hm.start.here, ho.parse hl, GoPath.rootedElems_mk hg]
    rw [openView_eq, hp1] at h1
    rw [openView_eq, statView_eq, hp]
    simp only at h1 ⊢
    cases hlk : lookup w ⟨c.module.path, GoPath.mk (rel ++ cs)⟩ with
    | none => rw [hlk] at h1; cases h1
    | some f =>
      rw [hlk] at h1
      simp only at h1 ⊢
      cases hi : f.info with
      | none => rw [hi] at h1; cases h1
      | some d =>
        rw [hi] at h1
        simp only at h1 ⊢
        have h1 := Res.ok.inj h1
        exact ⟨congrArg some h1, congrArg (fun x : Details × Str => some x.1) h1⟩
  | none =>
    have hns : lookup w ⟨c.module.path, GoPath.mk (rel ++ cs)⟩ = none := by
      cases hlk : lookup w ⟨c.module.path, GoPath.mk (rel ++ cs)⟩ with
      | none => rfl
      | some f =>
        exfalso
        obtain ⟨es, k, h1, h2⟩ := hm.only _ (stored_iff_lookup.mpr ⟨f, hlk⟩)
        have := GoPath.mk_injective (he ▸ GoPath.good_rootedElems name) (b := es) (hgood es k h1).1 (congrArg Path.name h2)
        rw [this, h1] at hk
        cases hk
    rw [openView_eq, statView_eq, hp]
    simp only [hns]
    exact ⟨rfl, rfl⟩

/-- What a walk of the embedded Pkger reports. -/
def reported (E : Env) (w : World) (name : Str) : List (Str × Details) :=
  (visits E id nod w name).map fun v => (v.path, v.details)

/-- The walk of an embedded Pkger below a declared path, if no name of the module starts with the same letters as the
walked one without being below it. -/
theorem embedded_walk (E : Env) {c : Info} (hl : ParseLaws E c) {root : Node} {rel : List Str} {w : World}
    (hwf : WF root) (hm : Mirrors E c root rel w)
    (hgood : ∀ es k, root.find es = some k → GoPath.Good es ∧ Ordinary c (GoPath.mk es)) {name : Str} (hn : Ordinary c name)
    {cs : List Str} (he : GoPath.rootedElems name = rel ++ cs) {n : Node} (hf : root.find (rel ++ cs) = some n)
    (hsib : ∀ es k, root.find es = some k → GoPath.mk (rel ++ cs) <+: GoPath.mk es → rel ++ cs <+: es) :
    walkResult E id nod w name = .ok () ∧
    ((reported E w name).map (·.1)).Pairwise (fun a b => Str.lt a b = true) ∧
    (reported E w name).Perm
      ((tree n).map fun e => (Path.str ⟨c.module.path, GoPath.mk (rel ++ cs ++ e.1)⟩, e.2.details)) := by
  have hp : E.parse c name = .ok ⟨c.module.path, GoPath.mk (rel ++ cs)⟩ := by rw [hn.parse hl, he]
  have hr : Reached E c w := ⟨w, [], hm.start, by simp, rfl⟩
  have hc : CleanNames w c.module.path := by
    intro q hq _
    obtain ⟨es, k, h1, rfl⟩ := hm.only q hq
    exact ⟨es, (hgood es k h1).1, rfl⟩
  obtain ⟨h1, qs, h2, h3, h4, h5⟩ := C20_walk_visits_partial E hr hc hp
  refine ⟨h1, ?_, ?_⟩
  · have : (reported E w name).map (·.1) = qs.map Path.str := by
      rw [← h2]; simp [reported, Function.comp_def]
    rw [this, List.pairwise_map]
    exact h3
  have hne : ∀ es : List Str, GoPath.mk es ≠ [] := by intro es; simp [GoPath.mk]
  have hwn : WF n := Disk.find_wf _ hwf hf
  -- the stored paths in range
  have hst : ∀ q, (Stored w q ∧ q.pkg = c.module.path ∧ GoPath.mk (rel ++ cs) <+: q.name) ↔
      ∃ e ∈ tree n, q = ⟨c.module.path, GoPath.mk (rel ++ cs ++ e.1)⟩ := by
    intro q
    constructor
    · rintro ⟨a, b, hpre⟩
      obtain ⟨es, k, e1, rfl⟩ := hm.only q a
      obtain ⟨ds, rfl⟩ := hsib es k e1 hpre
      refine ⟨(ds, k), ?_, rfl⟩
      rw [Disk.mem_tree_iff _ _ _ hwn]
      rw [Disk.find_append, hf] at e1
      exact e1
    · rintro ⟨⟨ds, k⟩, he1, rfl⟩
      have hfk : root.find (rel ++ (cs ++ ds)) = some k := by
        rw [← List.append_assoc, Disk.find_append, hf]
        exact (Disk.mem_tree_iff _ _ _ hwn).mp he1
      have ho := hm.has (cs ++ ds) k hfk
      obtain ⟨hg, hor⟩ := hgood _ k hfk
      refine ⟨?_, rfl, ?_⟩
      · rw [stored_iff_lookup]
        rw [openView_eq, hm.start.here, hor.parse hl, GoPath.rootedElems_mk hg] at ho
        simp only at ho
        cases hlk : lookup w ⟨c.module.path, GoPath.mk (rel ++ (cs ++ ds))⟩ with
        | none => rw [hlk] at ho; cases ho
        | some f => exact ⟨f, by rw [List.append_assoc]; exact hlk⟩
      · have hgg : GoPath.Good ((rel ++ cs) ++ ds) := by rw [List.append_assoc]; exact hg
        exact IsUnder.prefix ⟨rel ++ cs, ds, hgg, rfl, rfl⟩
  -- both lists have no repetitions
  have hinj : ∀ e ∈ tree n, ∀ e' ∈ tree n, Path.str ⟨c.module.path, GoPath.mk (rel ++ cs ++ e.1)⟩ =
      Path.str ⟨c.module.path, GoPath.mk (rel ++ cs ++ e'.1)⟩ → e.1 = e'.1 := by
    intro e he e' he' hs
    have hg : ∀ e ∈ tree n, GoPath.Good (rel ++ cs ++ e.1) := by
      intro e he
      refine (hgood _ e.2 ?_).1
      rw [Disk.find_append, hf]
      exact (Disk.mem_tree_iff _ _ _ hwn).mp he
    have := str_inj (a := ⟨c.module.path, GoPath.mk (rel ++ cs ++ e.1)⟩) (b := ⟨c.module.path, GoPath.mk (rel ++ cs ++ e'.1)⟩)
      rfl (hne _) (hne _) hs
    have := GoPath.mk_injective (hg e he) (b := rel ++ cs ++ e'.1) (hg e' he') (congrArg Path.name this)
    exact List.append_cancel_left this
  have hnd2 : ((tree n).map fun e => (Path.str ⟨c.module.path, GoPath.mk (rel ++ cs ++ e.1)⟩, e.2.details)).Nodup := by
    have := Disk.tree_nodup n hwn
    rw [List.Nodup, List.pairwise_map] at this ⊢
    refine List.Pairwise.imp_of_mem ?_ this
    intro a b ha hb hab he
    exact hab (hinj a ha b hb (congrArg Prod.fst he))
  have hnd1 : (reported E w name).Nodup := by
    have : ((visits E id nod w name).map (·.path)).Nodup := by
      unfold AtPaths at h2
      rw [h2, List.Nodup, List.pairwise_map]
      refine h3.imp ?_
      intro a b hlt he
      rw [Str.lt_iff, he] at hlt
      exact hlt.2 rfl
    unfold reported
    rw [List.Nodup, List.pairwise_map] at this ⊢
    refine this.imp ?_
    intro a b hab he
    exact hab (congrArg Prod.fst he)
  refine (List.perm_ext_iff_of_nodup hnd1 hnd2).mpr ?_
  -- the details of a visited path
  have hdet : ∀ v ∈ visits E id nod w name, ∃ e ∈ tree n,
      v.path = Path.str ⟨c.module.path, GoPath.mk (rel ++ cs ++ e.1)⟩ ∧ v.details = e.2.details := by
    intro v hv
    obtain ⟨q, hq, e1, e2⟩ := h5 v hv
    obtain ⟨⟨ds, k⟩, he1, rfl⟩ := (hst q).mp ((h4 q).mp hq)
    refine ⟨(ds, k), he1, e1, ?_⟩
    have hfk : root.find (rel ++ (cs ++ ds)) = some k := by
      rw [← List.append_assoc, Disk.find_append, hf]
      exact (Disk.mem_tree_iff _ _ _ hwn).mp he1
    obtain ⟨hg, hor⟩ := hgood _ k hfk
    have h6 := e2 (GoPath.mk (rel ++ (cs ++ ds))) (by rw [hor.parse hl, GoPath.rootedElems_mk hg, List.append_assoc])
    have h7 := (embedded_views E hl hm hgood hor (cs := cs ++ ds) (GoPath.rootedElems_mk hg)).2
    rw [h6, hfk] at h7
    exact Option.some.inj h7
  intro x
  constructor
  · intro hx
    obtain ⟨v, hv, rfl⟩ := List.mem_map.mp hx
    obtain ⟨e, he, e1, e2⟩ := hdet v hv
    exact List.mem_map.mpr ⟨e, he, by rw [e1, e2]⟩
  · intro hx
    obtain ⟨e, he1, rfl⟩ := List.mem_map.mp hx
    have hq := (h4 _).mpr ((hst _).mpr ⟨e, he1, rfl⟩)
    have : Path.str ⟨c.module.path, GoPath.mk (rel ++ cs ++ e.1)⟩ ∈ (visits E id nod w name).map (·.path) := by
      unfold AtPaths at h2
      rw [h2]
      exact List.mem_map_of_mem hq
    obtain ⟨v, hv, hvp⟩ := List.mem_map.mp this
    obtain ⟨e', he', e1, e2⟩ := hdet v hv
    have h8 := hinj e he1 e' he' (hvp.symm.trans e1)
    refine List.mem_map.mpr ⟨v, hv, ?_⟩
    rw [hvp, e2]
    have h9 : e = e' := by
      have a := (Disk.mem_tree_iff _ _ _ hwn).mp he1
      have b := (Disk.mem_tree_iff _ _ _ hwn).mp he'
      rw [h8] at a
      rw [a] at b
      exact Prod.ext h8 (Option.some.inj b)
    rw [h9]

/-- In the module of C79 every entry is named by its clean path. -/
theorem OwnModule.named {E : Env} {c : Info} {disk : Node} {m : List Str} {root : Node} (h : OwnModule E c disk m root)
    (hw : WF root) : ∀ es k, root.find es = some k → GoPath.Good es ∧ Ordinary c (GoPath.mk es) := by
  intro es k hk
  have ht := (Disk.mem_tree_iff _ _ _ hw).mpr hk
  have hp : Plain es := by simpa using h.one.plain es k ht
  refine ⟨hp.good, ordinary_mk ?_ (h.clear es k ht)⟩
  intro w hw
  exact ⟨(hp w hw).1, (hp w hw).2.1, (hp w hw).2.2.1, (hp w hw).2.2.2.2⟩

/-- **C81** (what holds). The package is the root of its module, as in C79, and the program names only paths in it. The
program is packaged; then it is run from the disk, which shows the files that were packaged, and from the embedded files.
For every path it declares to read and does not create itself, and for everything below it, and however the name is
written: `Open` and `Stat` succeed from the disk if and only if they succeed from the embedded files, and give the same
details and bytes; and `Walk` reports the same paths with the same details, from the embedded files in the order of the
whole path, provided that no entry of the module has a
name that starts with the same letters as the walked one without being below it. (Missing: the rest of C79's cases; the
order of the walk, see `C81_order_refuted`; entries with such names, for which it is false, see
`C24_sibling_visited_refuted`; and paths that are not declared, which exist on disk only, see `C79_program_partial`.) -/
theorem C81_agree_partial {E : Env} (hs : NoSkip E) (hz : GzipLaw E) {G : GoTool} {T : Setup} (hsort : Sorts T.sort)
    (hH : Serial.HereLaw T.here id) {ord : AMap Str Serial.EFile → List (Str × Serial.EFile)}
    (hord : Serial.Visits ord) (now : Int) {c : Info} (hl : ParseLaws E c) (ho : InfoOk c) (hw : T.disk.WF)
    (hnode : NodeOk T.disk) {m : List Str} {root : Node} (hmod : OwnModule E c T.disk m root)
    (htext : ∀ cs k, (cs, k) ∈ tree root → Serial.DetailsOk T.zone k.details ∧ Utf8.Valid (GoPath.mk cs))
    (hc : Serial.InfoText c) (htool : ∀ her, FromTool E her → Serial.InfoText her)
    {includes : List Str} {ds : List Decl} (hds : Parser.decls E G T.disk c includes = .ok ds)
    (hown : ∀ d ∈ ds, Names d → ∃ rel, OwnDecl E c m d rel ∧
      ((d.kind ≠ .walk ∧ Creates ds d.value) ∨ (root.find rel).isSome))
    (hnil0 : ¬ Creates ds []) (hpk : c.importPath = c.module.path) :
    ∃ b w, blob E T c ds = .ok b ∧ Serial.unmarshalEmbed E T.here ord now b = .ok w ∧ Start c w ∧
      ∀ d ∈ ds, Names d → ¬ Creates ds d.value → Kept d.file → ∀ rel, d.value = GoPath.mk rel → Plain rel →
      ∀ name cs, Ordinary c name → GoPath.rootedElems name = rel ++ cs →
      ∀ (S : Type) (O : Stdos.Host S) (holds : S → Nat → Option Node) (h : S) (ops : List Stdos.Op),
      let u := (Stdos.run E O ⟨Stdos.new c h, []⟩ ops).world
      ShowsDisk O holds T.disk u.host →
      diskOpenView E O holds u name = value (openView E w name) ∧
      diskStatView E O u name = value (statView E w name) ∧
      ((root.find (rel ++ cs)).isSome →
        (∀ es k, root.find es = some k → GoPath.mk (rel ++ cs) <+: GoPath.mk es → rel ++ cs <+: es) →
        (Stdos.walk E O u name noting []).2.2 = none ∧ walkResult E id nod w name = .ok () ∧
        ((reported E w name).map (·.1)).Pairwise (fun a b => Str.lt a b = true) ∧
        (reported E w name).Perm (Stdos.walk E O u name noting []).2.1) := by
  obtain ⟨b, w, h1, h2, h3, h4, h5, _⟩ := C79_program_partial hs hz hsort hH hord now hl ho hw hnode hmod htext hc htool hds
    hown hnil0
  have hwr : WF root := Disk.find_wf _ hw hmod.found
  have hnamed := hmod.named hwr
  refine ⟨b, w, h1, h2, h3, ?_⟩
  intro d hd hn hcr hk rel hv hp name cs hname he S O holds h ops u hsh
  have hmir : Mirrors E c root rel w := ⟨h3, fun cs k hf => h4 d hd hn hcr hk rel hv hp cs k hf, by
    intro q hq
    obtain ⟨d', _, _, rel', cs', k', _, e1, e2⟩ := h5 q hq
    exact ⟨rel' ++ cs', k', e1, e2⟩⟩
  have hdv := disk_views E O hl hpk hmod.plain.good hmod.dir hmod.found h ops hsh hname
  have hev := embedded_views E hl hmir hnamed hname he
  rw [he] at hdv
  refine ⟨hdv.1.trans hev.1.symm, hdv.2.trans hev.2.symm, ?_⟩
  intro hsome hsib
  obtain ⟨n, hf⟩ := Option.isSome_iff_exists.mp hsome
  obtain ⟨r1, r2, r3⟩ := embedded_walk E hl hwr hmir hnamed hname he hf hsib
  have hgr : GoPath.Good (m ++ (rel ++ cs)) := GoPath.good_append.mpr ⟨hmod.plain.good, (hnamed _ n hf).1⟩
  obtain ⟨_, _, h', ht⟩ := hsh.there (m ++ (rel ++ cs)) n hgr (by rw [Disk.find_append, hmod.found]; exact hf)
  have hloc := own_locate E O hl hpk h ops hname
  have hplain : ∀ e ∈ tree n, Plain (m ++ (rel ++ cs) ++ e.1) := by
    intro e he
    rw [List.append_assoc]
    refine plain_append.mpr ⟨hmod.plain, ?_⟩
    simpa using hmod.one.plain _ e.2 ((mem_tree_sub hwr hf).mp he)
  rw [he] at hloc
  have hwalk := walk_reports E O (w := u) (w1 := u) (name := name) (ds := m) (cs := rel ++ cs)
    (by rw [Stdos.run_here]; exact hl) hloc ho.modulePlain hmod.mne hmod.dir rfl hplain ht
  rw [hwalk]
  exact ⟨rfl, r1, r2, r3⟩

/-! ### A concrete case, and the order -/

/-- An operating system whose disk never changes; its state is the entries opened so far. -/
def readOnly (disk : Node) : Stdos.Host (List Node) where
  create _ h := (h, .error .notExist)
  openFile p h := match disk.find (GoPath.elems p) with
    | some k => (h ++ [k], .ok h.length)
    | none => (h, .error .notExist)
  fstat fd h := match h[fd]? with
    | some k => (h, .ok k.details)
    | none => (h, .error .notExist)
  readdir _ _ h := (h, .error .notExist)
  close _ h := (h, none)
  stat p h := match disk.find (GoPath.elems p) with
    | some k => (h, .ok k.details)
    | none => (h, .error .notExist)
  mkdirAll _ _ h := (h, some .notExist)
  remove _ h := (h, some .notExist)
  removeAll _ h := (h, some .notExist)
  tree p h := match disk.find (GoPath.elems p) with
    | some k => (h, .ok k)
    | none => (h, .error .notExist)
  package _ h := (h, .error .notExist)

/-- It always shows its disk. -/
theorem readOnly_shows (disk : Node) (h : List Node) : ShowsDisk (readOnly disk) (fun h fd => h[fd]?) disk h where
  there := by
    intro es k hg hk
    refine ⟨⟨h ++ [k], h.length, h ++ [k], ?_, ?_, by simp⟩, ⟨h, ?_⟩, ⟨h, ?_⟩⟩
    · simp only [readOnly, GoPath.elems_mk hg, hk]
    · simp [readOnly]
    · simp only [readOnly, GoPath.elems_mk hg, hk]
    · simp only [readOnly, GoPath.elems_mk hg, hk]
  absent := by
    intro es hg hk
    refine ⟨⟨h, .notExist, ?_⟩, ⟨h, .notExist, ?_⟩⟩ <;> simp only [readOnly, GoPath.elems_mk hg, hk]

/-- A module with the directory `assets`, in which there are the directory `a`, the file `a/x` and the file `a-b`. -/
def dashApp : Str × Node :=
  Demo.dirNode (b! "app") [Demo.dirNode (b! "assets")
      [Demo.dirNode (b! "a") [Demo.fileNode (b! "x") (b! "xx")], Demo.fileNode (b! "a-b") (b! "ab")],
    Demo.fileNode (b! "main.go") (b! "package main")]

def dashDisk : Node := Demo.disk [Demo.dirNode (b! "src") [dashApp]]

theorem nodeOk_dash : NodeOk dashDisk := by
  unfold dashDisk dashApp Demo.disk Demo.dirNode Demo.fileNode
  repeat' first
    | exact .file _ _ rfl rfl
    | (refine .dir _ _ rfl ?_; intro e he; simp only [List.mem_cons, List.not_mem_nil, or_false] at he)
    | (rcases he with rfl | rfl)
    | subst he

/-- The program that walks `/assets`. -/
def dashProg : Parser.Ast := Demo.program [Demo.callLit (b! "Walk") (b! "\"/assets\"")]

def dashDecls : List Decl :=
  [⟨.walk, ⟨b! "/src/app/assets", ⟨b! "app", b! "/assets"⟩, Demo.info⟩, b! "/assets"⟩]

theorem dashDecls_found : Parser.decls Demo.env (Demo.tool dashProg) dashDisk Demo.info [] = .ok dashDecls := by
  decide +kernel

theorem dash_ownModule : OwnModule Demo.env Demo.info dashDisk [b! "src", b! "app"] dashApp.2 where
  mne := by decide
  plain := by decide +kernel
  dir := by decide +kernel
  moduleDir := by decide +kernel
  found := rfl
  isDir := rfl
  one := ⟨by
    intro cs k hck hk
    refine ⟨Demo.info, ?_, rfl, Demo.laws, ?_⟩
    · have : ∀ e ∈ tree dashApp.2, e.2.isDir = true →
          Demo.env.dirInfo (GoPath.mk ([b! "src", b! "app"] ++ [] ++ e.1)) = .ok Demo.info := by decide +kernel
      exact this (cs, k) hck hk
    · intro cs' k' hck'
      have : ∀ e ∈ tree dashApp.2, Clear Demo.info (GoPath.mk ([] ++ e.1)) := by decide +kernel
      exact this (cs', k') hck', by
    intro cs k hck
    have : ∀ e ∈ tree dashApp.2, Plain ([] ++ e.1) := by decide +kernel
    exact this (cs, k) hck⟩
  clear := by
    intro cs k hck
    have : ∀ e ∈ tree dashApp.2, Clear Demo.info (GoPath.mk e.1) := by decide +kernel
    exact this (cs, k) hck
  pkg := ⟨Demo.info, by decide +kernel⟩

/-- No entry of the module starts with `/assets` without being below it. -/
theorem dash_noSibling : ∀ es k, dashApp.2.find es = some k → GoPath.mk [b! "assets"] <+: GoPath.mk es →
    [b! "assets"] <+: es := by
  intro es k hk
  have : ∀ e ∈ tree dashApp.2, GoPath.mk [b! "assets"] <+: GoPath.mk e.1 → [b! "assets"] <+: e.1 := by decide +kernel
  exact this (es, k) ((Disk.mem_tree_iff _ _ _ (by decide +kernel)).mpr hk)

/-- **C81 is false** of the order of a walk: from the disk the program sees `a`, `a/x`, `a-b`, from the embedded files it
sees `a`, `a-b`, `a/x`. The program meets the hypotheses of `C81_agree_partial`. -/
theorem C81_order_refuted : ∃ b w, blob Demo.env (demoSetup dashDisk) Demo.info dashDecls = .ok b ∧
    Serial.unmarshalEmbed Demo.env Serial.plainHere id 5 b = .ok w ∧
    (Stdos.walk Demo.env (readOnly dashDisk) (Stdos.new Demo.info []) (b! "/assets") noting []).2.1.map (·.1) =
      [b! "app:/assets", b! "app:/assets/a", b! "app:/assets/a/x", b! "app:/assets/a-b"] ∧
    (reported Demo.env w (b! "/assets")).map (·.1) =
      [b! "app:/assets", b! "app:/assets/a", b! "app:/assets/a-b", b! "app:/assets/a/x"] := by
  obtain ⟨b, w, h1, h2, h3, h4⟩ := C81_agree_partial demo_noSkip Demo.gzipLaw (T := demoSetup dashDisk)
    Demo.sortFiles_sorts plainHere_law visits_id 5 Demo.laws Demo.info_ok (by decide +kernel) nodeOk_dash
    dash_ownModule (by
      intro cs k hck
      have : ∀ e ∈ tree dashApp.2, Serial.DetailsOk utc e.2.details ∧ Utf8.Valid (GoPath.mk e.1) := by decide +kernel
      exact this (cs, k) hck) (by decide +kernel) demo_tool_text dashDecls_found (by
      intro d hd hn
      simp only [dashDecls, List.mem_singleton] at hd
      subst hd
      exact ⟨[b! "assets"], ⟨by decide, by decide +kernel, by decide +kernel, rfl, by decide, by decide,
          by decide +kernel⟩, Or.inr (by decide +kernel)⟩) (by
      rintro ⟨d, hd, hk, hv⟩
      have : ∀ d ∈ dashDecls, d.value ≠ [] := by decide
      exact this d hd hv) rfl
  obtain ⟨_, _, h5⟩ := h4 _ (List.mem_singleton.mpr rfl) (by unfold Names; decide) (by
      rintro ⟨d, hd, hk, hv⟩
      have : ∀ d ∈ dashDecls, ¬ (d.kind = .mkdirAll ∨ d.kind = .create) := by decide
      exact this d hd hk) (by decide +kernel) [b! "assets"] (by decide) (by decide +kernel) (b! "/assets") []
    (by decide +kernel) (by decide +kernel) (List Node) (readOnly dashDisk) (fun h fd => h[fd]?) [] []
    (readOnly_shows _ _)
  obtain ⟨_, _, hsorted, hperm⟩ := h5 (by decide +kernel) dash_noSibling
  have hd : (Stdos.walk Demo.env (readOnly dashDisk) (Stdos.new Demo.info []) (b! "/assets") noting []).2.1.map (·.1) =
      [b! "app:/assets", b! "app:/assets/a", b! "app:/assets/a/x", b! "app:/assets/a-b"] := by decide +kernel
  refine ⟨b, w, h1, h2, hd, ?_⟩
  have hp2 := hperm.map (·.1)
  have hrun : (Stdos.run Demo.env (readOnly dashDisk) ⟨Stdos.new Demo.info [], []⟩ []).world = Stdos.new Demo.info [] := rfl
  rw [hrun, hd] at hp2
  have hp3 : ((reported Demo.env w (b! "/assets")).map (·.1)).Perm
      [b! "app:/assets", b! "app:/assets/a", b! "app:/assets/a-b", b! "app:/assets/a/x"] := hp2.trans (by decide +kernel)
  refine List.Perm.eq_of_pairwise (le := fun a b => Str.lt a b = true) ?_ hsorted (by decide +kernel) hp3
  intro a b _ _ hab hba
  exact Str.le_antisymm ((Str.lt_iff _ _).mp hab).1 ((Str.lt_iff _ _).mp hba).1

end Props
end Verif
