import Verif.Props.Dir

/-! C28 - C30: opening through a directory handle, and missing files. -/

namespace Verif
namespace Props

open Mem Spec

theorem openFile_next_le {E : Env} {w w' : World} {name : Str} {h : Nat} (ho : openFile E w name = (w', .ok h)) :
    w.next ≤ w'.next := by
  obtain ⟨_, _, _, _, _, _, _, h6⟩ := openFile_ok ho
  rw [h6]
  simp [alloc]

/-- What `d.Open(name)` does, given how the two `Parse` calls answer. -/
theorem fileOpen_cases (E : Env) {i : Info} {w : World} (hr : Reached E i w) {id : Nat} {name : Str}
    {pt0 : Path} (hp0 : E.parse (w.heap id).here name = .ok pt0) (hne : pt0 ≠ (w.heap id).path)
    (hpk : (w.heap id).pkging = true) {pt : Path}
    (hpt : pt = ⟨pt0.pkg, GoPath.join2 (w.heap id).path.name pt0.name⟩)
    (hback : E.parse i pt.str = .ok pt) :
    (¬ Stored w pt → (fileOpen E w id name).2 = .err .notExist) ∧
    (∀ f d, lookup w pt = some f → f.info = some d →
      ∃ w' h, fileOpen E w id name = (w', .ok h) ∧ (w'.heap h).path = pt ∧ (w'.heap h).info = some d ∧
        (d.isDir = false → (w'.heap h).bytes = f.bytes) ∧
        (d.isDir = true → (w'.heap h).parent = (w.heap id).path) ∧ (w'.heap h).reader = none ∧ h < w'.next ∧
        (d.isDir = true → w.next ≤ h)) := by
  have hh := hr.here
  subst hh
  constructor
  · intro hns
    have hg : AMap.get w.files pt = none := by
      cases h : AMap.get w.files pt with
      | none => rfl
      | some j => exact absurd ⟨j, h⟩ hns
    have ho : openFile E w pt.str = (w, .err .notExist) := by
      simp only [openFile, parse, hback, hg]
    simp only [fileOpen, hp0, if_neg hne, hpk, Bool.true_eq_false, if_false, ← hpt, ho]
  · intro f d hl hd
    obtain ⟨w1, h, ho, hobj⟩ := openFile_of_lookup hback hl hd
    have hpath : f.path = pt := by
      unfold lookup at hl
      cases hg : AMap.get w.files pt with
      | none => rw [hg] at hl; cases hl
      | some j =>
        rw [hg] at hl
        simp only [Option.map_some, Option.some.injEq] at hl
        rw [← hl]
        exact (hr.inv.wf.bound pt j hg).2.1
    have hinfo : (w1.heap h).info = some d := by rw [hobj]; rfl
    by_cases hdir : d.isDir = true
    · let g : FileObj :=
        { info := some (newFileInfo d), here := (w1.heap h).here, path := pt, parent := (w.heap id).path,
          pkging := true, data := none, writer := none, reader := none }
      refine ⟨(alloc w1 g).1, w1.next, ?_, ?_, ?_, ?_, ?_, ?_⟩
      · simp only [fileOpen, hp0, if_neg hne, hpk, Bool.true_eq_false, if_false, ← hpt, ho, hinfo, hdir, if_true]
        rfl
      · simp [alloc, g]
      · simp [alloc, newFileInfo, g]
      · intro h'; rw [hdir] at h'; cases h'
      · intro _; simp [alloc, g]
      · exact ⟨by simp [alloc, g], by simp [alloc], fun _ => openFile_next_le ho⟩
    · refine ⟨w1, h, ?_, ?_, hinfo, ?_, ?_, ?_⟩
      · simp only [fileOpen, hp0, if_neg hne, hpk, Bool.true_eq_false, if_false, ← hpt, ho, hinfo, hdir]
        rfl
      · rw [hobj]; exact hpath
      · intro _; rw [hobj]; rfl
      · intro h'; exact absurd h' hdir
      · obtain ⟨_, _, _, _, _, _, h5, h6⟩ := openFile_ok ho
        exact ⟨by rw [hobj]; rfl, by rw [h5, h6]; simp [alloc], fun h' => absurd h' hdir⟩

/-- A served directory `/pub`, a file `/secret` outside it, and the same directory name in package `lib`. -/
def srv : List Op :=
  [.mkdirAll (b! "/pub/a") 0o755, .create (b! "/secret"), .write 3 (b! "s3"), .close 3, .create (b! "/pub/a/f"),
   .openFile (b! "/pub"), .mkdirAll (b! "/pub/pub") 0o755, .mkdirAll (b! "lib:/pub") 0o755,
   .openFile (b! "lib:/pub"), .mkdirAll (b! "lib:/pub/a") 0o700]

theorem srv_ok : ∀ o ∈ srv, o.HostOk := by
  intro o ho
  simp [srv] at ho
  rcases ho with rfl | rfl | rfl | rfl | rfl | rfl | rfl | rfl | rfl | rfl <;> trivial

theorem srv_reached : Reached Demo.env Demo.info (Demo.after srv) :=
  Reached.ofNew 1000 srv srv_ok

theorem srv_held {id : Nat} (h : id < (Demo.after srv).next) : Held Demo.env Demo.info (Demo.after srv) id :=
  Held.ofNew 1000 srv srv_ok h

/-- The handles of `app:/pub` and `lib:/pub`. -/
def hPub : Nat := 6
def hLib : Nat := 10

/-- The path of the file a call of `d.Open` returned. -/
def openedPath (r : World × Res Nat) : Option Path :=
  match r.2 with
  | .ok h => some (r.1.heap h).path
  | _ => none

/-- The statement of **C28**: every file obtained through a directory handle lies in the directory. -/
def C28_statement (E : Env) : Prop :=
  ∀ (i : Info) (w : World) (id : Nat) (name : Str) (q : Path), Held E i w id →
    openedPath (fileOpen E w id name) = some q → InTree (w.heap id).path q

/-- **C28 is false** when `here.Info.Parse` is as reconstructed in `Go/HereParse.lean`: it turns
backslashes into slashes after cleaning, so a name such as `/\..\..\secret` leaves the directory when
`File.Open` joins it (pkging/mem/file.go:180). -/
theorem C28_backslash_refuted : ¬ C28_statement Demo.env := by
  intro h
  obtain ⟨_, cs, ds, hg, e1, e2⟩ := h Demo.info _ hPub (b! "/\\..\\..\\secret") ⟨b! "app", b! "/secret"⟩
    (srv_held (by decide +kernel)) (by decide +kernel)
  have hp : ((Demo.after srv).heap hPub).path.name = b! "/pub" := by decide +kernel
  rw [hp] at e1
  have := IsUnder.prefix ⟨cs, ds, hg, e1, e2⟩
  revert this
  decide

/-- **C28** (the package part, same caveat): a request naming another package leaves the handle's
package. -/
theorem C28_package_refuted :
    ((Demo.after srv).heap hPub).path.pkg = b! "app" ∧
    openedPath (fileOpen Demo.env (Demo.after srv) hPub (b! "lib:/a")) = some ⟨b! "lib", b! "/pub/a"⟩ := by
  decide +kernel

/-- **C28** (what holds). For a handle of a directory with plain name elements, in every reachable state:
whatever rooted name is requested - any number of `..`, `.` and empty elements anywhere - the file
returned has a path equal to or below the directory's.  Only names with a colon, a backslash, a newline or
an element ending in white space are excluded, and names under the module's own directory on disk. -/
theorem C28_dir_open_confined_partial (E : Env) {i : Info} {w : World} {id : Nat} (hid : Held E i w id)
    {ds : List Str} (hds : Plain ds) (hdn : (w.heap id).path.name = GoPath.mk ds)
    (hl : ParseLaws E i) (hl' : ParseLaws E (w.heap id).here)
    (hmod : PlainPkg (w.heap id).here.module.path) {name : Str} (hord : Ordinary (w.heap id).here name)
    (hplain : Plain (GoPath.rootedElems name)) (hclear : Clear i (GoPath.mk (ds ++ GoPath.rootedElems name)))
    {q : Path} (ho : openedPath (fileOpen E w id name) = some q) :
    IsUnder (w.heap id).path.name q.name ∧
    (q = (w.heap id).path ∨ q.pkg = (w.heap id).here.module.path) := by
  have hr := hid.reached
  have hp0 := hord.parse hl'
  by_cases hne : (⟨(w.heap id).here.module.path, GoPath.mk (GoPath.rootedElems name)⟩ : Path) = (w.heap id).path
  · have : fileOpen E w id name = (w, .ok id) := by
      simp only [fileOpen, hp0, if_pos hne]
    rw [this] at ho
    simp only [openedPath, Option.some.injEq] at ho
    subst ho
    refine ⟨?_, Or.inl rfl⟩
    rw [hdn]
    exact IsUnder.refl hds.good
  · have hj : GoPath.join2 (w.heap id).path.name (GoPath.mk (GoPath.rootedElems name)) =
        GoPath.mk (ds ++ GoPath.rootedElems name) := by
      rw [hdn, GoPath.join2_mk hds.good hplain.good]
    have hall := plain_append.mpr ⟨hds, hplain⟩
    have hpne : (w.heap id).here.module.path ≠ [] := by
      intro h
      have := hmod.1
      rw [h] at this
      exact this (by decide)
    have hback : E.parse i (Path.str ⟨(w.heap id).here.module.path, GoPath.mk (ds ++ GoPath.rootedElems name)⟩) =
        .ok ⟨(w.heap id).here.module.path, GoPath.mk (ds ++ GoPath.rootedElems name)⟩ := by
      have := hl.qualified _ _ hmod hall hclear
      unfold Path.str
      rw [if_neg hpne]
      rw [if_neg (by simp [GoPath.mk])]
      exact this
    obtain ⟨h1, h2⟩ := fileOpen_cases E hr hp0 hne (hid.pkging) (pt := ⟨(w.heap id).here.module.path,
      GoPath.mk (ds ++ GoPath.rootedElems name)⟩) (by simp only [hj]) hback
    have hq : q = ⟨(w.heap id).here.module.path, GoPath.mk (ds ++ GoPath.rootedElems name)⟩ := by
      by_cases hst : Stored w ⟨(w.heap id).here.module.path, GoPath.mk (ds ++ GoPath.rootedElems name)⟩
      · obtain ⟨d, f, hf, hfd⟩ := hasDetails_of_wf hr.inv.wf hst
        obtain ⟨w', h, e1, e2, _⟩ := h2 f d hf hfd
        rw [e1] at ho
        simp only [openedPath, Option.some.injEq] at ho
        rw [← ho, e2]
      · have := h1 hst
        unfold openedPath at ho
        rw [this] at ho
        cases ho
    subst hq
    refine ⟨?_, Or.inr rfl⟩
    rw [hdn]
    exact ⟨ds, GoPath.rootedElems name, hall.good, rfl, rfl⟩

/-- A request with many `..` in the scope of the theorem. -/
example :
    ((Demo.after srv).heap hPub).path.name = GoPath.mk [b! "pub"] ∧ Plain [b! "pub"] ∧
    ((Demo.after srv).heap hPub).here = Demo.info ∧
    Ordinary Demo.info (b! "/../..//a/../../a/./f") ∧ GoPath.rootedElems (b! "/../..//a/../../a/./f") = [b! "a", b! "f"] ∧
    Clear Demo.info (b! "/pub/a/f") ∧
    openedPath (fileOpen Demo.env (Demo.after srv) hPub (b! "/../..//a/../../a/./f")) =
      some ⟨b! "app", b! "/pub/a/f"⟩ := by decide +kernel

/-! ### C29 -/

/-- The statement of **C29**: the handle resolves names relative to itself, in its own package. -/
def C29_statement (E : Env) : Prop :=
  ∀ (i : Info) (w : World) (id : Nat) (ds cs : List Str), Held E i w id →
    (w.heap id).path.name = GoPath.mk ds → Plain (ds ++ cs) → Clear i (GoPath.mk (ds ++ cs)) →
    Clear i (GoPath.mk cs) →
    (Stored w ⟨(w.heap id).path.pkg, GoPath.mk (ds ++ cs)⟩ →
      openedPath (fileOpen E w id (GoPath.mk cs)) = some ⟨(w.heap id).path.pkg, GoPath.mk (ds ++ cs)⟩)

/-- **C29 is false**: asked for an entry whose name is the directory's own path, the handle returns
itself. -/
theorem C29_own_path_refuted : ¬ C29_statement Demo.env := by
  intro h
  have := h Demo.info _ hPub [b! "pub"] [b! "pub"] (srv_held (by decide +kernel)) (by decide +kernel)
    (by decide) (by decide +kernel) (by decide +kernel) (Option.isSome_iff_exists.mp (by decide +kernel))
  revert this
  decide +kernel

/-- **C29** (the other violation): a handle of a directory in package `lib` opens names in the
application's module. -/
theorem C29_package_refuted :
    ((Demo.after srv).heap hLib).path = ⟨b! "lib", b! "/pub"⟩ ∧
    (AMap.get (Demo.after srv).files ⟨b! "lib", b! "/pub/a"⟩).isSome = true ∧
    openedPath (fileOpen Demo.env (Demo.after srv) hLib (b! "/a")) = some ⟨b! "app", b! "/pub/a"⟩ := by
  decide +kernel

/-- **C29** (what holds). Except for the directory's own path, a plain rooted name is resolved against the
directory's name, in the module recorded in the handle: the call fails, with `os.ErrNotExist`, exactly when
nothing is stored there, and otherwise gives a handle of that entry, with its details; for a file it delivers its
bytes, and for a directory it can be listed (C26) and opened through in turn. -/
theorem C29_resolves_relative_partial (E : Env) {i : Info} {w : World} {id : Nat} (hid : Held E i w id)
    {ds cs : List Str} (hpl : Plain (ds ++ cs)) (hdn : (w.heap id).path.name = GoPath.mk ds)
    (hl : ParseLaws E i) (hl' : ParseLaws E (w.heap id).here)
    (hmod : PlainPkg (w.heap id).here.module.path) (hclear' : Clear (w.heap id).here (GoPath.mk cs))
    (hclear : Clear i (GoPath.mk (ds ++ cs)))
    (hown : (⟨(w.heap id).here.module.path, GoPath.mk cs⟩ : Path) ≠ (w.heap id).path) :
    (¬ Stored w ⟨(w.heap id).here.module.path, GoPath.mk (ds ++ cs)⟩ ↔
      (fileOpen E w id (GoPath.mk cs)).2 = .err .notExist) ∧
    (∀ d, HasDetails w ⟨(w.heap id).here.module.path, GoPath.mk (ds ++ cs)⟩ d →
      ∃ w' h, fileOpen E w id (GoPath.mk cs) = (w', .ok h) ∧
        (w'.heap h).path = ⟨(w.heap id).here.module.path, GoPath.mk (ds ++ cs)⟩ ∧
        (w'.heap h).info = some d ∧
        (d.isDir = false → ∃ f, lookup w ⟨(w.heap id).here.module.path, GoPath.mk (ds ++ cs)⟩ = some f ∧
          Delivers w' h f.bytes) ∧
        (d.isDir = true → cs ≠ [] → DirHandle E i w' h ⟨(w.heap id).here.module.path, GoPath.mk (ds ++ cs)⟩)) := by
  obtain ⟨hds, hcs⟩ := plain_append.mp hpl
  have hord : Ordinary (w.heap id).here (GoPath.mk cs) := ordinary_mk hcs.ord hclear'
  have hr := hid.reached
  have hp0 := hord.parse hl'
  rw [GoPath.rootedElems_mk hcs.good] at hp0
  have hpne : (w.heap id).here.module.path ≠ [] := by
    intro h
    have := hmod.1
    rw [h] at this
    exact this (by decide)
  have hback : E.parse i (Path.str ⟨(w.heap id).here.module.path, GoPath.mk (ds ++ cs)⟩) =
      .ok ⟨(w.heap id).here.module.path, GoPath.mk (ds ++ cs)⟩ := by
    have := hl.qualified _ _ hmod hpl hclear
    unfold Path.str
    rw [if_neg hpne, if_neg (by simp [GoPath.mk])]
    exact this
  obtain ⟨h1, h2⟩ := fileOpen_cases E hr hp0 hown (hid.pkging) (pt := ⟨(w.heap id).here.module.path, GoPath.mk (ds ++ cs)⟩)
    (by simp only [hdn, GoPath.join2_mk hds.good hcs.good]) hback
  refine ⟨⟨h1, ?_⟩, ?_⟩
  · intro he hst
    obtain ⟨d, f, hf, hfd⟩ := hasDetails_of_wf hr.inv.wf hst
    obtain ⟨w', h, e1, _⟩ := h2 f d hf hfd
    rw [e1] at he
    cases he
  · rintro d ⟨f, hf, hfd⟩
    obtain ⟨w', h, e1, e2, e3, e4, e5, e6, e7, e8⟩ := h2 f d hf hfd
    refine ⟨w', h, e1, e2, e3, ?_, ?_⟩
    · intro hdir
      refine ⟨f, hf, ?_⟩
      rw [← e4 hdir]
      exact delivers_bytes e6
    · intro hdir hcs0
      have hstep : step E w (.fileOpen id (GoPath.mk cs)) = w' := by simp [step, e1]
      refine ⟨hstep ▸ hr.held (o := .fileOpen id (GoPath.mk cs)) trivial (e8 hdir) (hstep.symm ▸ e7), e2, Or.inr ?_⟩
      rw [e5 hdir, hdn]
      intro hpre
      have h1 := (IsUnder.prefix ⟨ds, cs, plain_append.mpr ⟨hds, hcs⟩ |>.good, rfl, rfl⟩)
      have h2 : (GoPath.mk ds : Str) = GoPath.mk (ds ++ cs) :=
        (h1.eq_of_length (Nat.le_antisymm h1.length_le hpre.length_le))
      have h3 := GoPath.mk_injective hds.good (plain_append.mpr ⟨hds, hcs⟩).good h2
      exact hcs0 (by simpa using h3)

example :
    (⟨b! "app", b! "/a/f"⟩ : Path) ≠ ((Demo.after srv).heap hPub).path ∧ Plain [b! "pub", b! "a", b! "f"] ∧
    (fileOpen Demo.env (Demo.after srv) hPub (b! "/nope")).2 = .err .notExist ∧
    openedPath (fileOpen Demo.env (Demo.after srv) hPub (b! "/a/f")) = some ⟨b! "app", b! "/pub/a/f"⟩ := by
  decide +kernel

/-! ### C30 -/

/-- The statement of **C30**. -/
def C30_statement (E : Env) : Prop :=
  ∀ (i : Info) (w : World) (name : Str) (pt : Path), Reached E i w → E.parse i name = .ok pt →
    ¬ Stored w pt →
    (∃ e, (openFile E w name).2 = .err e ∧ e.isNotExist = true) ∧
    (∃ e, stat E w name = .err e ∧ e.isNotExist = true)

/-- **C30 is false**: `Stat` of a missing path reports an error that `os.IsNotExist` does not recognise.
In fact it never does. -/
theorem C30_stat_never_notExist (E : Env) {i : Info} {w : World} {name : Str} {pt : Path} (hr : Reached E i w)
    (hp : E.parse i name = .ok pt) (hs : ¬ Stored w pt) :
    ∃ e, stat E w name = .err e ∧ e.isNotExist = false := by
  have hg : AMap.get w.files pt = none := by
    cases h : AMap.get w.files pt with
    | none => rfl
    | some j => exact absurd ⟨j, h⟩ hs
  refine ⟨.couldNotStat, ?_, rfl⟩
  simp only [stat, parse, hr.here, hp, hg]

theorem C30_stat_refuted : ¬ C30_statement Demo.env := by
  intro h
  have hns : ¬ Stored Demo.w0 ⟨b! "app", b! "/x"⟩ := by
    rintro ⟨j, hj⟩
    cases hj
  have hr : Reached Demo.env Demo.info Demo.w0 := Reached.ofNew 1000 [] (by simp)
  obtain ⟨_, e, he, hne⟩ := h Demo.info Demo.w0 (b! "/x") ⟨b! "app", b! "/x"⟩ hr (by decide +kernel) hns
  obtain ⟨e', he', hne'⟩ := C30_stat_never_notExist Demo.env hr (name := b! "/x") (by decide +kernel) hns
  rw [he] at he'
  injection he' with he'
  subst he'
  rw [hne] at hne'
  cases hne'

/-- **C30** (what holds): `Open` of a missing path reports an error that `os.IsNotExist` recognises, and
changes nothing. -/
theorem C30_open_notExist_partial (E : Env) {i : Info} {w : World} {name : Str} {pt : Path} (hr : Reached E i w)
    (hp : E.parse i name = .ok pt) (hs : ¬ Stored w pt) :
    ∃ e, openFile E w name = (w, .err e) ∧ e.isNotExist = true := by
  have hg : AMap.get w.files pt = none := by
    cases h : AMap.get w.files pt with
    | none => rfl
    | some j => exact absurd ⟨j, h⟩ hs
  refine ⟨.notExist, ?_, rfl⟩
  simp only [openFile, parse, hr.here, hp, hg]

example : Demo.env.parse Demo.info (b! "/pub/none") = .ok ⟨b! "app", b! "/pub/none"⟩ ∧
    AMap.get (Demo.after srv).files ⟨b! "app", b! "/pub/none"⟩ = none ∧
    (openFile Demo.env (Demo.after srv) (b! "/pub/none")).2 = .err .notExist := by decide +kernel

end Props
end Verif
