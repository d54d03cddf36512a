import Verif.Lemmas.ReaderMem

/-!
**C100**: a program that only reads gets the same from the disk as from the embedded files.

During development a program reads its files from the disk (`pkging/stdos`); once packaged it reads the embedded ones
(`pkging/mem`).  A program is any tree of questions (`Reader.Plan`): it opens files by name or from an open directory,
looks at them, lists and walks directories, reads, positions and closes, and each question may depend on all answers so
far.
-/

namespace Verif
namespace Props

open Mem Spec
open Disk (Node)
open Stdos (Host)
open DiskClient (Io Own)
open Site (Posix Named Table posix io host BelowFile belowFile belowFile_iff)
open Pack
open Reader

/-- The program on the disk and the program with its files embedded: `root` is the module's directory, and `R` are the
paths that were declared. -/
structure Both {S : Type} {O : Host S} {I : Io S} {disk : Node} (E : Env) (P : Posix O I disk) (c hi : Info) (m : List Str)
    (root : Node) (R : List Str → Prop) (u : Stdos.World S) (v : Mem.World) : Prop where
  looks : Looks P
  place : Reader.Place E disk c m root
  own : Own P c m u
  ok : P.ok u.host
  loaded : Loaded E c hi root R v

/-- A question that names, if anything, a path of the module at or below a declared one. -/
def AsksFor (c : Info) (R : List Str → Prop) : Ask → Prop
  | .openFile name | .stat name | .has name | .walk name => Ordinary c name ∧ Declared R (GoPath.rootedElems name)
  | _ => True

/-- A program all of whose questions are such. -/
def Modest {α : Type} (c : Info) (R : List Str → Prop) : Plan α → Prop
  | .ret _ => True
  | .ask q k => AsksFor c R q ∧ ∀ s, Modest c R (k s)

/-- **C100** in full: a program that only reads, and names only paths that were declared, gets the same result from the
disk and from the embedded files. -/
def C100_statement : Prop :=
  ∀ (S : Type) (O : Host S) (I : Io S) (disk : Node) (E : Env) (P : Posix O I disk) (c hi : Info) (m : List Str) (root : Node)
    (R : List Str → Prop) (u : Stdos.World S) (v : Mem.World), Both E P c hi m root R u v →
    ∀ (α : Type) (p : Plan α), Modest c R p →
      (DiskClient.exec E O I p.prog u []).2.2 = (p.prog.exec E v []).2.2

/-- **C100**, for programs whose questions fit: the disk and the embedded files give the same result, and it is the one
that the files alone determine.  (Missing, and refuted below: looking at or walking from a name that is not there, reading
an empty file, listing a directory twice, closing twice, opening from a directory the path of the directory itself, and
paths below a regular file; and, as in C74 and C81, names that begin with other names and walks whose order is not the one
of the letters.) -/
theorem C100_programs_partial {S : Type} {O : Host S} {I : Io S} {disk : Node} {E : Env} {P : Posix O I disk} {c hi : Info}
    {m : List Str} {root : Node} {R : List Str → Prop} {u : Stdos.World S} {v : Mem.World}
    (hb : Both E P c hi m root R u v) {α : Type} (p : Plan α) (hp : p.Fits c hi R root []) :
    (DiskClient.exec E O I p.prog u []).2.2 = p.run c.module.path root [] ∧
    (p.prog.exec E v []).2.2 = p.run c.module.path root [] :=
  ⟨disk_runs hb.looks hb.place p ⟨hb.own, hb.ok, rfl, fun k h hk => (by simp at hk), fun j k hj hk fj fk h => (by simp at h)⟩ hp,
    mem_runs hb.place hb.loaded p OnMem.nil hp⟩

/-- **C100**, after others: whatever has been opened from the embedded files before. -/
theorem C100_later_partial {disk : Node} {E : Env} {c hi : Info} {m : List Str} {root : Node} {R : List Str → Prop}
    {w v : Mem.World} (hp : Reader.Place E disk c m root) (hl : Loaded E c hi root R w) (hlat : Later E w v) {α : Type} (p : Plan α)
    (hf : p.Fits c hi R root []) : (p.prog.exec E v []).2.2 = p.run c.module.path root [] :=
  mem_runs hp hl p ⟨hlat, rfl, fun k h hk => (by simp at hk), fun j k id hj => (by simp at hj)⟩ hf

/-- **C100**, for the program: what the `pkger` command embeds, loaded, gives every program whose questions fit the result
that it gets from the disk that was packaged.  (Missing: the cases of `C100_programs_partial` and those of C79.) -/
theorem C100_program_partial {E : Env} (hs : NoSkip E) (hz : GzipLaw E) {G : Parser.GoTool} {T : Setup} (hsort : Sorts T.sort)
    (hH : Serial.HereLaw T.here id) {ord : AMap Str Serial.EFile → List (Str × Serial.EFile)}
    (hord : Serial.Visits ord) (now : Int) {c : Info} (hl : ParseLaws E c) (ho : InfoOk c) (hw : T.disk.WF)
    (hnode : NodeOk T.disk) {m : List Str} {root : Node} (hmod : OwnModule E c T.disk m root) (hnamed : Named root)
    (htext : ∀ cs k, (cs, k) ∈ root.tree → Serial.DetailsOk T.zone k.details ∧ Utf8.Valid (GoPath.mk cs))
    (hc : Serial.InfoText c) (htool : ∀ her, FromTool E her → Serial.InfoText her)
    {includes : List Str} {decls : List Parser.Decl} (hds : Parser.decls E G T.disk c includes = .ok decls)
    (hown : ∀ d ∈ decls, Names d → ∃ rel, OwnDecl E c m d rel ∧
      ((d.kind ≠ .walk ∧ Creates decls d.value) ∨ (root.find rel).isSome))
    (hnil0 : ¬ Creates decls []) {hi : Info} (hpi : E.pkgInfo c.module.path = .ok hi) (hli : ParseLaws E hi)
    (hmi : hi.module.path = c.module.path) (R : List Str → Prop)
    (hR : ∀ rel, R rel → Plain rel ∧ ∃ d ∈ decls, Names d ∧ ¬ Creates decls d.value ∧ Kept d.file ∧ d.value = GoPath.mk rel) :
    ∃ b w, blob E T c decls = .ok b ∧ Serial.unmarshalEmbed E T.here ord now b = .ok w ∧
      ∀ (α : Type) (p : Plan α), p.Fits c hi R root [] →
        (∀ (S : Type) (O : Host S) (I : Io S) (P : Posix O I T.disk) (u : Stdos.World S), Looks P → Own P c m u → P.ok u.host →
          (DiskClient.exec E O I p.prog u []).2.2 = p.run c.module.path root []) ∧
        (∀ v, Later E w v → (p.prog.exec E v []).2.2 = p.run c.module.path root []) := by
  obtain ⟨b, w, h1, h2, h3, h4, h5, h6⟩ := C79_program_partial hs hz hsort hH hord now hl ho hw hnode hmod htext hc htool hds
    hown hnil0
  have hwr : Node.WF root := Disk.find_wf _ hw hmod.found
  have hplain : ∀ es k, root.find es = some k → Plain es ∧ Clear c (GoPath.mk es) := by
    intro es k hk
    have ht := (Disk.mem_tree_iff _ _ _ hwr).mpr hk
    exact ⟨by simpa using hmod.one.plain es k ht, hmod.clear es k ht⟩
  have hplace : Reader.Place E T.disk c m root :=
    ⟨hl, ho, hwr, hnamed, hplain, hmod.found, hmod.isDir, hmod.plain, hmod.mne⟩
  have hload : Loaded E c hi root R w := by
    refine ⟨h3, ?_, ?_, hli, hmi⟩
    · intro rel hr
      obtain ⟨hp, d, hd, hn, hcr, hk, hv⟩ := hR rel hr
      refine ⟨h3, fun cs k hf => h4 d hd hn hcr hk rel hv hp cs k hf, ?_⟩
      intro q hq
      obtain ⟨d', _, _, rel', cs', k', _, e1, e2⟩ := h5 q hq
      exact ⟨rel' ++ cs', k', e1, e2⟩
    · intro es f d hf hfi hdir
      have := h6 _ f _ hf hfi hdir
      simp only at this
      rw [hpi] at this
      injection this with this
      exact this.symm
  refine ⟨b, w, h1, h2, fun α p hp => ⟨?_, fun v hlat => C100_later_partial hplace hload hlat p hp⟩⟩
  intro S O I P u hL hu hok
  exact (C100_programs_partial (v := w) ⟨hL, hplace, hu, hok, hload⟩ p hp).1

/-! ### The examples of the repository -/

/-- **C100**, for examples/open/pkger/main.go: it prints the same details and the same content. -/
theorem C100_open_example {S : Type} {O : Host S} {I : Io S} {disk : Node} {E : Env} {P : Posix O I disk} {c hi : Info}
    {m : List Str} {root : Node} {R : List Str → Prop} {u : Stdos.World S} {v : Mem.World}
    (hb : Both E P c hi m root R u v) {name : Str} (hn : Ordinary c name) (hd : Declared R (GoPath.rootedElems name)) {d : Details}
    {b : Str} (hf : root.find (GoPath.rootedElems name) = some (.file d b)) (hne : b ≠ []) {n : Nat} (hlen : b.length ≤ n) :
    (DiskClient.exec E O I (openExample name n).prog u []).2.2 = some (d, b) ∧
    ((openExample name n).prog.exec E v []).2.2 = some (d, b) := by
  have hnb : ¬ BelowFile root (GoPath.rootedElems name) := by
    rintro ⟨x, y, k, he, hy, hk, hkd⟩
    rw [he, Disk.find_append, hk] at hf
    cases k with
    | file d' b' =>
      cases y with
      | nil => exact hy rfl
      | cons z zs => simp [Node.find] at hf
    | dir d' kids => cases hkd
  have hfit : (openExample name n).Fits c hi R root [] := by
    simp only [openExample, Plan.Fits, Reader.Fits, Reader.step, opening, hf, List.nil_append, List.length_nil, at_,
      List.getElem?_cons_zero, Handle.new, List.drop_zero, and_true, List.set_cons_zero]
    exact ⟨⟨hn, hd, hnb⟩, ⟨_, rfl⟩, ⟨_, d, b, rfl, rfl, hf, hne⟩, ⟨_, rfl, rfl⟩⟩
  have hrun : (openExample name n).run c.module.path root [] = some (d, b) := by
    simp [openExample, Plan.run, Reader.step, opening, hf, at_, Handle.new, Node.details, List.take_of_length_le hlen]
  obtain ⟨h1, h2⟩ := C100_programs_partial hb _ hfit
  exact ⟨h1.trans hrun, h2.trans hrun⟩

/-- **C100**, for examples/stat/pkger/main.go. -/
theorem C100_stat_example {S : Type} {O : Host S} {I : Io S} {disk : Node} {E : Env} {P : Posix O I disk} {c hi : Info}
    {m : List Str} {root : Node} {R : List Str → Prop} {u : Stdos.World S} {v : Mem.World}
    (hb : Both E P c hi m root R u v) {name : Str} (hn : Ordinary c name) (hd : Declared R (GoPath.rootedElems name)) {n : Node}
    (hf : root.find (GoPath.rootedElems name) = some n) :
    (DiskClient.exec E O I (statExample name).prog u []).2.2 = some n.details ∧
    ((statExample name).prog.exec E v []).2.2 = some n.details := by
  have hfit : (statExample name).Fits c hi R root [] := by
    simp only [statExample, Plan.Fits, Reader.Fits, Reader.step, hf, and_true]
    exact ⟨hn, hd, rfl⟩
  have hrun : (statExample name).run c.module.path root [] = some n.details := by
    simp [statExample, Plan.run, Reader.step, hf]
  obtain ⟨h1, h2⟩ := C100_programs_partial hb _ hfit
  exact ⟨h1.trans hrun, h2.trans hrun⟩

/-! ### A site -/

/-- The operating system of the site answers `Stat` and lets one walk. -/
theorem site_looks (disk : Node) : Looks (posix disk) where
  statThere := fun t es k hok hg hk => ⟨t, by simp only [host, GoPath.elems_mk hg, hk], hok, rfl⟩
  statAbsent := fun t es hok hg hk => ⟨t, .notExist, by simp only [host, GoPath.elems_mk hg, hk], hok, rfl⟩
  treeThere := fun t es k hok hg hk => ⟨t, by simp only [host, GoPath.elems_mk hg, hk], hok, rfl⟩

theorem site_both {app : Str × Node} (h : SiteOk app) (hd : app.2.isDir = true)
    (hh : ∀ e ∈ (siteMem app).files, ((siteMem app).heap e.2).here = Demo.info) :
    Both Demo.env (posix (siteDisk app)) Demo.info Demo.info [b! "src", b! "app"] app.2 (· = []) siteStdos (siteMem app) where
  looks := site_looks _
  place := ⟨Demo.laws, Demo.info_ok, h.wf, h.named, fun es k hf => h.plain (es, k) ((Disk.mem_tree_iff _ _ _ h.wf).mpr hf),
    h.found, hd, by decide, by decide⟩
  own := site_own _
  ok := fun _ _ => rfl
  loaded := by
    have hm := siteMem_mirrors h.wf h.nodeOk h.nodup h.view
    refine ⟨hm.start, ?_, ?_, Demo.laws, rfl⟩
    · rintro _ rfl
      exact hm
    · intro es f d hf _ _
      obtain ⟨id, h1, rfl⟩ := Option.map_eq_some_iff.mp hf
      exact hh _ (AMap.get_mem h1)

theorem siteApp_both : Both Demo.env (posix (siteDisk siteApp)) Demo.info Demo.info [b! "src", b! "app"] siteApp.2 (· = [])
    siteStdos (siteMem siteApp) := site_both siteApp_ok rfl (by decide +kernel)

/-- What the program gets from the disk, and from the embedded files. -/
def fromDisk {α : Type} (p : Plan α) : α :=
  (DiskClient.exec Demo.env (host (siteDisk siteApp)) io p.prog siteStdos []).2.2

@[inherit_doc fromDisk] def fromMem {α : Type} (p : Plan α) : α := (p.prog.exec Demo.env (siteMem siteApp) []).2.2

/-- The names of the entries seen. -/
def entryNames : Seen → List Str
  | .entries l => l.map (·.name)
  | _ => []

/-- Ask these questions, one after the other, and return what is seen. -/
def asking : List Ask → List Seen → Plan (List Seen)
  | [], l => .ret l
  | q :: qs, l => .ask q fun s => asking qs (l ++ [s])

theorem asking_modest {c : Info} {R : List Str → Prop} : ∀ {qs : List Ask} {l : List Seen}, (∀ q ∈ qs, AsksFor c R q) →
    Modest c R (asking qs l)
  | [], _, _ => trivial
  | q :: qs, l, h => ⟨h q List.mem_cons_self, fun s => asking_modest fun x hx => h x (List.mem_cons_of_mem _ hx)⟩

/-- Different answers refute the statement. -/
theorem not_C100_of {qs : List Ask} (hq : ∀ q ∈ qs, AsksFor Demo.info (· = []) q)
    (hne : fromDisk (asking qs []) ≠ fromMem (asking qs [])) : ¬ C100_statement := fun h =>
  hne (h Table (host (siteDisk siteApp)) io (siteDisk siteApp) Demo.env (posix (siteDisk siteApp)) Demo.info Demo.info
    [b! "src", b! "app"] siteApp.2 (· = []) siteStdos (siteMem siteApp) siteApp_both _ (asking qs []) (asking_modest hq))

/-- Everything is at or below the module's directory. -/
theorem declared_all (es : List Str) : Declared (· = []) es := ⟨[], rfl, List.nil_prefix⟩

/-- **C100**, refuted: of a name that is not there, `Stat` says on the disk that it is not there, and with embedded files
only that something is wrong. -/
theorem C100_stat_refuted : fromDisk (asking [.stat (b! "/nope")] []) = [.missing] ∧
    fromMem (asking [.stat (b! "/nope")] []) = [.trouble] ∧ ¬ C100_statement := by
  have h1 : fromDisk (asking [.stat (b! "/nope")] []) = [.missing] := by decide +kernel
  have h2 : fromMem (asking [.stat (b! "/nope")] []) = [.trouble] := by decide +kernel
  refine ⟨h1, h2, not_C100_of (qs := [.stat (b! "/nope")]) ?_ (by rw [h1, h2]; decide)⟩
  intro q hq
  simp only [List.mem_singleton] at hq
  subst hq
  exact ⟨by decide +kernel, declared_all _⟩

/-- **C100**, refuted: walking from a name that is not there is an error on the disk, and with embedded files there is
just nothing to see. -/
theorem C100_walk_refuted : fromDisk (asking [.walk (b! "/nope")] []) = [.trouble] ∧
    fromMem (asking [.walk (b! "/nope")] []) = [.walked []] ∧ ¬ C100_statement := by
  have h1 : fromDisk (asking [.walk (b! "/nope")] []) = [.trouble] := by decide +kernel
  have h2 : fromMem (asking [.walk (b! "/nope")] []) = [.walked []] := by decide +kernel
  refine ⟨h1, h2, not_C100_of (qs := [.walk (b! "/nope")]) ?_ (by rw [h1, h2]; decide)⟩
  intro q hq
  simp only [List.mem_singleton] at hq
  subst hq
  exact ⟨by decide +kernel, declared_all _⟩

/-- **C100**, refuted: an empty file is read without an error from the disk, and with embedded files one cannot read it. -/
theorem C100_empty_refuted :
    fromDisk (asking [.openFile (b! "/www/img/empty"), .read 0 9] []) = [.handle 0, .bytes []] ∧
    fromMem (asking [.openFile (b! "/www/img/empty"), .read 0 9] []) = [.handle 0, .trouble] ∧ ¬ C100_statement := by
  have h1 : fromDisk (asking [.openFile (b! "/www/img/empty"), .read 0 9] []) = [.handle 0, .bytes []] := by decide +kernel
  have h2 : fromMem (asking [.openFile (b! "/www/img/empty"), .read 0 9] []) = [.handle 0, .trouble] := by decide +kernel
  refine ⟨h1, h2, not_C100_of (qs := [.openFile (b! "/www/img/empty"), .read 0 9]) ?_ (by rw [h1, h2]; decide)⟩
  intro q hq
  simp only [List.mem_cons, List.not_mem_nil, or_false] at hq
  rcases hq with rfl | rfl
  · exact ⟨by decide +kernel, declared_all _⟩
  · trivial

/-- **C100**, refuted: listing a directory for the second time shows no more entries on the disk, and with embedded files
all of them once more. -/
theorem C100_list_refuted :
    (fromDisk (asking [.openFile (b! "/www/doc"), .list 0, .list 0] [])).map entryNames = [[], [b! "index.html"], []] ∧
    (fromMem (asking [.openFile (b! "/www/doc"), .list 0, .list 0] [])).map entryNames =
      [[], [b! "index.html"], [b! "index.html"]] ∧ ¬ C100_statement := by
  have h1 : (fromDisk (asking [.openFile (b! "/www/doc"), .list 0, .list 0] [])).map entryNames =
    [[], [b! "index.html"], []] := by decide +kernel
  have h2 : (fromMem (asking [.openFile (b! "/www/doc"), .list 0, .list 0] [])).map entryNames =
      [[], [b! "index.html"], [b! "index.html"]] := by decide +kernel
  refine ⟨h1, h2, not_C100_of (qs := [.openFile (b! "/www/doc"), .list 0, .list 0]) ?_ (fun he => ?_)⟩
  · intro q hq
    simp only [List.mem_cons, List.not_mem_nil, or_false] at hq
    rcases hq with rfl | rfl | rfl
    · exact ⟨by decide +kernel, declared_all _⟩
    · trivial
    · trivial
  · rw [he, h2] at h1
    revert h1
    decide

/-- **C100**, refuted: closing a file for the second time is an error on the disk, and none with embedded files. -/
theorem C100_close_refuted :
    fromDisk (asking [.openFile (b! "/www/a.txt"), .close 0, .close 0] []) = [.handle 0, .closed, .trouble] ∧
    fromMem (asking [.openFile (b! "/www/a.txt"), .close 0, .close 0] []) = [.handle 0, .closed, .closed] ∧
    ¬ C100_statement := by
  have h1 : fromDisk (asking [.openFile (b! "/www/a.txt"), .close 0, .close 0] []) = [.handle 0, .closed, .trouble] := by
    decide +kernel
  have h2 : fromMem (asking [.openFile (b! "/www/a.txt"), .close 0, .close 0] []) = [.handle 0, .closed, .closed] := by
    decide +kernel
  refine ⟨h1, h2, not_C100_of (qs := [.openFile (b! "/www/a.txt"), .close 0, .close 0]) ?_ (by rw [h1, h2]; decide)⟩
  intro q hq
  simp only [List.mem_cons, List.not_mem_nil, or_false] at hq
  rcases hq with rfl | rfl | rfl
  · exact ⟨by decide +kernel, declared_all _⟩
  · trivial
  · trivial

/-- **C100**, refuted: a file that has been closed cannot be read on the disk, and with embedded files it is read from the
start once more. -/
theorem C100_closed_refuted :
    fromDisk (asking [.openFile (b! "/www/a.txt"), .read 0 2, .close 0, .read 0 9] []) =
      [.handle 0, .bytes (b! "he"), .closed, .trouble] ∧
    fromMem (asking [.openFile (b! "/www/a.txt"), .read 0 2, .close 0, .read 0 9] []) =
      [.handle 0, .bytes (b! "he"), .closed, .bytes (b! "hello")] ∧
    ¬ C100_statement := by
  have h1 : fromDisk (asking [.openFile (b! "/www/a.txt"), .read 0 2, .close 0, .read 0 9] []) =
      [.handle 0, .bytes (b! "he"), .closed, .trouble] := by decide +kernel
  have h2 : fromMem (asking [.openFile (b! "/www/a.txt"), .read 0 2, .close 0, .read 0 9] []) =
      [.handle 0, .bytes (b! "he"), .closed, .bytes (b! "hello")] := by decide +kernel
  refine ⟨h1, h2, not_C100_of (qs := [.openFile (b! "/www/a.txt"), .read 0 2, .close 0, .read 0 9]) ?_ (by rw [h1, h2]; decide)⟩
  intro q hq
  simp only [List.mem_cons, List.not_mem_nil, or_false] at hq
  rcases hq with rfl | rfl | rfl | rfl
  · exact ⟨by decide +kernel, declared_all _⟩
  all_goals trivial

/-- **C100**, refuted: opened from a directory, a file whose path is the one of the directory is found on the disk, and
with embedded files one gets the directory. -/
theorem C100_own_path_refuted :
    fromDisk (asking [.openFile (b! "/www"), .openIn 0 [b! "www"], .fileName 1] []) =
      [.handle 0, .handle 1, .name (b! "app:/www/www")] ∧
    fromMem (asking [.openFile (b! "/www"), .openIn 0 [b! "www"], .fileName 1] []) =
      [.handle 0, .handle 1, .name (b! "app:/www")] ∧ ¬ C100_statement := by
  have h1 : fromDisk (asking [.openFile (b! "/www"), .openIn 0 [b! "www"], .fileName 1] []) =
      [.handle 0, .handle 1, .name (b! "app:/www/www")] := by decide +kernel
  have h2 : fromMem (asking [.openFile (b! "/www"), .openIn 0 [b! "www"], .fileName 1] []) =
      [.handle 0, .handle 1, .name (b! "app:/www")] := by decide +kernel
  refine ⟨h1, h2, not_C100_of (qs := [.openFile (b! "/www"), .openIn 0 [b! "www"], .fileName 1]) ?_ (by rw [h1, h2]; decide)⟩
  intro q hq
  simp only [List.mem_cons, List.not_mem_nil, or_false] at hq
  rcases hq with rfl | rfl | rfl
  · exact ⟨by decide +kernel, declared_all _⟩
  all_goals trivial

/-- **C100**, refuted: a path below a regular file is another error than one that is just not there on the disk, and the
same with embedded files. -/
theorem C100_below_file_refuted : fromDisk (asking [.openFile (b! "/www/a.txt/x")] []) = [.trouble] ∧
    fromMem (asking [.openFile (b! "/www/a.txt/x")] []) = [.missing] ∧ ¬ C100_statement := by
  have h1 : fromDisk (asking [.openFile (b! "/www/a.txt/x")] []) = [.trouble] := by decide +kernel
  have h2 : fromMem (asking [.openFile (b! "/www/a.txt/x")] []) = [.missing] := by decide +kernel
  refine ⟨h1, h2, not_C100_of (qs := [.openFile (b! "/www/a.txt/x")]) ?_ (by rw [h1, h2]; decide)⟩
  intro q hq
  simp only [List.mem_singleton] at hq
  subst hq
  exact ⟨by decide +kernel, declared_all _⟩

/-! ### Programs for which the theorems hold -/

/-- A program that uses every question: it opens the directory and lists it, opens a file in it, looks at it, reads it in
parts, positions it, closes it, looks for what is there and what is not, and walks. -/
def tour : List Ask :=
  [.openFile (b! "/www"), .list 0, .openIn 0 [b! "a.txt"], .fileStat 1, .fileName 1, .read 1 2, .read 1 9, .seek 1 3, .read 1 9,
    .close 1, .openIn 0 [b! "gone"], .openIn 0 [b! "doc"], .list 2, .openFile (b! "/www//doc/./index.html"), .read 3 99, .close 0,
    .openFile (b! "/nope"), .has (b! "/nope"), .has (b! "/www/img"), .stat (b! "/www/img/empty"), .walk (b! "/www")]

theorem asking_fits {c hi : Info} {R : List Str → Prop} {root : Node} {q : Ask} {qs : List Ask} {hs : List Handle}
    (hs' : List Handle) (h1 : Reader.Fits c hi R root hs q) (h2 : (step c.module.path root hs q).1 = hs')
    (h3 : ∀ l, (asking qs l).Fits c hi R root hs') (l : List Seen) : (asking (q :: qs) l).Fits c hi R root hs :=
  ⟨h1, by rw [h2]; exact h3 _⟩

theorem not_below {es : List Str} (h : belowFile siteApp.2 es = false) : ¬ BelowFile siteApp.2 es := by
  rw [← belowFile_iff, h]; decide

theorem doc_separate : Separate siteApp.2 [b! "www", b! "doc"] := by
  intro p k hp hd hpre q k' hq
  exact site_separate p k hp hd (List.IsPrefix.trans (by decide) hpre) q k' hq

theorem tour_fits : (asking tour []).Fits Demo.info Demo.info (· = []) siteApp.2 [] := by
  let w : List Str := [b! "www"]
  let a : List Str := [b! "www", b! "a.txt"]
  let d : List Str := [b! "www", b! "doc"]
  let i : List Str := [b! "www", b! "doc", b! "index.html"]
  have hop : ∀ (hs : List Handle) (name : Str), Ordinary Demo.info name → belowFile siteApp.2 (GoPath.rootedElems name) = false →
      Reader.Fits Demo.info Demo.info (· = []) siteApp.2 hs (.openFile name) :=
    fun hs name h1 h2 => ⟨h1, declared_all _, not_below h2⟩
  refine asking_fits [⟨w, 0, false, true⟩] (hop _ _ (by decide +kernel) (by decide +kernel)) (by decide +kernel) ?_ _
  refine asking_fits [⟨w, 0, true, true⟩] ⟨_, _, _, rfl, rfl, rfl, rfl, site_separate⟩ (by decide +kernel) ?_
  refine asking_fits [⟨w, 0, true, true⟩, ⟨a, 0, false, true⟩]
    ⟨_, _, _, rfl, rfl, by constructor <;> decide +kernel, by decide, not_below (by decide +kernel)⟩ (by decide +kernel) ?_
  refine asking_fits [⟨w, 0, true, true⟩, ⟨a, 0, false, true⟩] ⟨_, rfl⟩ (by decide +kernel) ?_
  refine asking_fits [⟨w, 0, true, true⟩, ⟨a, 0, false, true⟩] ⟨_, rfl⟩ (by decide +kernel) ?_
  refine asking_fits [⟨w, 0, true, true⟩, ⟨a, 2, false, true⟩] ⟨_, _, _, rfl, rfl, rfl, by decide⟩ (by decide +kernel) ?_
  refine asking_fits [⟨w, 0, true, true⟩, ⟨a, 5, false, true⟩] ⟨_, _, _, rfl, rfl, rfl, by decide⟩ (by decide +kernel) ?_
  refine asking_fits [⟨w, 0, true, true⟩, ⟨a, 3, false, true⟩] ⟨_, _, _, rfl, rfl, rfl, by decide⟩ (by decide +kernel) ?_
  refine asking_fits [⟨w, 0, true, true⟩, ⟨a, 5, false, true⟩] ⟨_, _, _, rfl, rfl, rfl, by decide⟩ (by decide +kernel) ?_
  refine asking_fits [⟨w, 0, true, true⟩, ⟨a, 5, false, false⟩] ⟨_, rfl, rfl⟩ (by decide +kernel) ?_
  refine asking_fits [⟨w, 0, true, true⟩, ⟨a, 5, false, false⟩]
    ⟨_, _, _, rfl, rfl, by constructor <;> decide +kernel, by decide, not_below (by decide +kernel)⟩ (by decide +kernel) ?_
  refine asking_fits [⟨w, 0, true, true⟩, ⟨a, 5, false, false⟩, ⟨d, 0, false, true⟩]
    ⟨_, _, _, rfl, rfl, by constructor <;> decide +kernel, by decide, not_below (by decide +kernel)⟩ (by decide +kernel) ?_
  refine asking_fits [⟨w, 0, true, true⟩, ⟨a, 5, false, false⟩, ⟨d, 0, true, true⟩]
    ⟨_, _, _, rfl, rfl, rfl, rfl, doc_separate⟩ (by decide +kernel) ?_
  refine asking_fits [⟨w, 0, true, true⟩, ⟨a, 5, false, false⟩, ⟨d, 0, true, true⟩, ⟨i, 0, false, true⟩]
    (hop _ _ (by decide +kernel) (by decide +kernel)) (by decide +kernel) ?_
  refine asking_fits [⟨w, 0, true, true⟩, ⟨a, 5, false, false⟩, ⟨d, 0, true, true⟩, ⟨i, 3, false, true⟩]
    ⟨_, _, _, rfl, rfl, rfl, by decide⟩ (by decide +kernel) ?_
  refine asking_fits [⟨w, 0, true, false⟩, ⟨a, 5, false, false⟩, ⟨d, 0, true, true⟩, ⟨i, 3, false, true⟩]
    ⟨_, rfl, rfl⟩ (by decide +kernel) ?_
  generalize [(⟨w, 0, true, false⟩ : Handle), ⟨a, 5, false, false⟩, ⟨d, 0, true, true⟩, ⟨i, 3, false, true⟩] = hs
  refine asking_fits hs (hop _ _ (by decide +kernel) (by decide +kernel)) rfl ?_
  refine asking_fits hs ⟨by decide +kernel, declared_all _⟩ rfl ?_
  refine asking_fits hs ⟨by decide +kernel, declared_all _⟩ rfl ?_
  refine asking_fits hs ⟨by decide +kernel, declared_all _, by decide +kernel⟩ rfl ?_
  refine asking_fits hs ⟨by decide +kernel, declared_all _, _, rfl, ?_, by decide +kernel⟩ rfl (fun _ => trivial)
  intro es k hk
  have : ∀ e ∈ siteApp.2.tree, GoPath.mk (GoPath.rootedElems (b! "/www")) <+: GoPath.mk e.1 →
    GoPath.rootedElems (b! "/www") <+: e.1 := by decide +kernel
  exact this (es, k) ((Disk.mem_tree_iff _ _ _ siteApp_ok.wf).mpr hk)

/-- A case of `C100_programs_partial`: the whole tour, and some of what it sees. -/
example : fromDisk (asking tour []) = fromMem (asking tour []) ∧
    (fromDisk (asking tour []))[6]? = some (.bytes (b! "llo")) ∧
    (fromMem (asking tour []))[10]? = some .missing ∧
    (fromMem (asking tour []))[14]? = some (.bytes (b! "<p>")) ∧
    ((fromMem (asking tour [])).map entryNames)[1]? = some [b! "a.txt", b! "doc", b! "img", b! "www"] := by
  obtain ⟨h1, h2⟩ := C100_programs_partial siteApp_both _ tour_fits
  exact ⟨h1.trans h2.symm, by decide +kernel, by decide +kernel, by decide +kernel, by decide +kernel⟩

/-- A case of `C100_later_partial`: the tour, after somebody else has opened a file. -/
example : (((asking tour []).prog).exec Demo.env (Mem.openFile Demo.env (siteMem siteApp) (b! "/www/a.txt")).1 []).2.2 =
    fromDisk (asking tour []) := by
  rw [C100_later_partial siteApp_both.place siteApp_both.loaded (later_openFile _ _ _) _ tour_fits]
  exact (C100_programs_partial siteApp_both _ tour_fits).1.symm

/-- A case of `C100_open_example`. -/
example : ∃ d, fromDisk (openExample (b! "/www/doc/index.html") 1000) = some (d, b! "<p>") ∧
    fromMem (openExample (b! "/www/doc/index.html") 1000) = some (d, b! "<p>") ∧ d.name = b! "index.html" := by
  obtain ⟨h1, h2⟩ := C100_open_example siteApp_both (name := b! "/www/doc/index.html") (n := 1000) (by decide +kernel) (declared_all _)
    rfl (by decide) (by decide)
  exact ⟨_, h1, h2, rfl⟩

/-- A case of `C100_stat_example`. -/
example : ∃ d, fromDisk (statExample (b! "/www/img")) = some d ∧ fromMem (statExample (b! "/www/img")) = some d ∧
    d.isDir = true := by
  obtain ⟨h1, h2⟩ := C100_stat_example siteApp_both (name := b! "/www/img") (by decide +kernel) (declared_all _) rfl
  exact ⟨_, h1, h2, rfl⟩

/-- The example with `Walk` prints the same table for the site. -/
example : fromDisk (walkExample (b! "/www")) = fromMem (walkExample (b! "/www")) ∧
    (fromDisk (walkExample (b! "/www"))).map (·.map (·.name)) =
      some [b! "www", b! "a.txt", b! "doc", b! "index.html", b! "img", b! "empty", b! "www"] := by decide +kernel

/-- A case of `C100_program_partial`: the program is packaged and loaded, and opens and reads as from the disk. -/
example : ∃ b w, blob Demo.env (demoSetup (siteDisk siteApp)) Demo.info siteDecls = .ok b ∧
    Serial.unmarshalEmbed Demo.env Serial.plainHere id 5 b = .ok w ∧
    ((openExample (b! "/www/doc/index.html") 1000).prog.exec Demo.env w []).2.2 =
      fromDisk (openExample (b! "/www/doc/index.html") 1000) := by
  obtain ⟨b, w, h1, h2, h3⟩ := C100_program_partial demo_noSkip Demo.gzipLaw (T := demoSetup (siteDisk siteApp))
    Demo.sortFiles_sorts plainHere_law visits_id 5 Demo.laws Demo.info_ok (by decide +kernel) site_nodeOk
    site_ownModule siteApp_ok.named (by
      intro cs k hck
      have : ∀ e ∈ siteApp.2.tree, Serial.DetailsOk utc e.2.details ∧ Utf8.Valid (GoPath.mk e.1) := by decide +kernel
      exact this (cs, k) hck) (by decide +kernel) demo_tool_text siteDecls_found (by
      intro d hd hn
      simp only [siteDecls, List.mem_singleton] at hd
      subst hd
      exact ⟨[b! "www"], ⟨by decide, by decide +kernel, by decide +kernel, rfl, by decide, by decide,
          by decide +kernel⟩, Or.inr (by decide +kernel)⟩) (by
      rintro ⟨d, hd, hk, hv⟩
      have : ∀ d ∈ siteDecls, d.value ≠ [] := by decide
      exact this d hd hv) (hi := Demo.info) (by decide +kernel) Demo.laws rfl (· = [b! "www"]) (by
      rintro _ rfl
      refine ⟨by decide, _, List.mem_singleton.mpr rfl, by unfold Names; decide, ?_, by decide +kernel, by decide⟩
      rintro ⟨d, hd, hk, hv⟩
      have : ∀ d ∈ siteDecls, ¬ (d.kind = .mkdirAll ∨ d.kind = .create) := by decide
      exact this d hd hk)
  refine ⟨b, w, h1, h2, ?_⟩
  have hfit : (openExample (b! "/www/doc/index.html") 1000).Fits Demo.info Demo.info (· = [b! "www"]) siteApp.2 [] :=
    ⟨⟨by decide +kernel, ⟨_, rfl, by decide⟩, not_below (by decide +kernel)⟩, ⟨_, rfl⟩, ⟨_, _, _, rfl, rfl, rfl, by decide⟩,
      ⟨_, rfl, rfl⟩, trivial⟩
  obtain ⟨hd, hm⟩ := h3 _ _ hfit
  rw [hm w (Later.refl _ _)]
  exact (hd Table _ io (posix (siteDisk siteApp)) siteStdos (site_looks _) (site_own _) (fun _ _ => rfl)).symm

end Props
end Verif
