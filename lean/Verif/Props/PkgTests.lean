import Verif.Model.PkgTests
import Verif.Props.LoadFile

/-! C120: the tests of the repository for `Create`, `MkdirAll` and `RemoveAll`, for all names in all states. -/

namespace Verif
namespace Props

open FileSys Script
open LoadFiles hiding loadFiles
open Spec hiding Out
open Disk (Node)
open Disk.Node (WF WFKids)
open Stdos (Host)
open DiskClient (Io)

section both
variable {S : Type} {O : Host S} {I : Io S} {W : Writes S}

/-- `CreateTest` does only what both Pkgers do alike. -/
theorem goes_createTest {c : Info} {rel : List Str} {fs : Fs}
    {es : List Str} (hes : es ≠ []) (hre : rel <+: es) (hne : es ≠ rel) (hp : Plain es) (hc : Clear c (GoPath.mk es))
    (hup : fs es.dropLast = some .dir) (hno : fs es = none) {chunks : List Str} (hb : chunks.flatten ≠ []) {sizes : List Nat}
    (hpos : ∀ n ∈ sizes, 0 < n) (hlen : chunks.flatten.length < sizes.length) :
    Goes c rel fs (PkgTests.createTest es chunks sizes) (fs.set es (.file chunks.flatten))
      [.about none, .done true, .content (some chunks.flatten)] := by
  have hself : (fs.set es (.file chunks.flatten)) es = some (.file chunks.flatten) := by simp [Fs.set]
  refine Goes.step (o := .about none) (fs1 := fs) ⟨⟨hes, hp, hc⟩, hre, trivial⟩ ?_ ?_
  · have := Does.stat (fs := fs) es
    rwa [hno] at this
  refine Goes.step (o := .done true) (fs1 := fs.set es (.file chunks.flatten)) ⟨⟨hes, hp, hc⟩, hre, hne, ?_, ?_⟩
    (.put es chunks hup (by rw [hno]; simp)) ?_
  · intro b' h; rw [hup] at h; cases h
  · rw [hno]; simp
  refine Goes.step (o := .content (some chunks.flatten)) (fs1 := fs.set es (.file chunks.flatten))
    ⟨⟨hes, hp, hc⟩, hre, ?_, hpos, ?_⟩ (.get es sizes _ hself) ⟨trivial, .ret _ _⟩
  · rw [hself]; simp [hb]
  · intro b' h; rw [hself] at h; cases h; exact hlen

/-- **C120** (`CreateTest`), in part: what is written to a new file is read from it, in both Pkgers, and nothing else has
changed.  Missing are empty files, which cannot be read from memory (`C118_empty_refuted`). -/
theorem C120_create_partial (E : Env) {U : Unix O I W} {c : Info} (hl : ParseLaws E c) (hi : InfoOk c)
    (hpk : c.importPath = c.module.path) {m : List Str} (hm : GoPath.Good m) (hdir : c.dir = GoPath.mk m) {rel : List Str}
    (hrel : GoPath.Good rel) {fs : Fs} {u : Stdos.World S} (hu : OnDisk U c m fs u) {w : Mem.World} (hw : InMem E c rel fs w)
    {es : List Str} (hes : es ≠ []) (hre : rel <+: es) (hne : es ≠ rel) (hp : Plain es) (hc : Clear c (GoPath.mk es))
    (hup : fs es.dropLast = some .dir) (hno : fs es = none) {chunks : List Str} (hb : chunks.flatten ≠ []) {sizes : List Nat}
    (hpos : ∀ n ∈ sizes, 0 < n) (hlen : chunks.flatten.length < sizes.length) (fl : List Stdos.File) (hs : List Nat) :
    ∃ u' fl' w' hs', disk E O I W (PkgTests.createTest es chunks sizes).prog u fl =
        (u', fl', [.about none, .done true, .content (some chunks.flatten)]) ∧
      mem E (PkgTests.createTest es chunks sizes).prog w hs =
        (w', hs', [.about none, .done true, .content (some chunks.flatten)]) ∧
      OnDisk U c m (fs.set es (.file chunks.flatten)) u' ∧ InMem E c rel (fs.set es (.file chunks.flatten)) w' := by
  exact goes_both E hl hi hpk hm hdir hrel hu hw (goes_createTest hes hre hne hp hc hup hno hb hpos hlen) fl hs

/-- `MkdirAllTest` does only what both Pkgers do alike. -/
theorem goes_mkdirAllTest {c : Info} {rel : List Str} {fs : Fs}
    {es : List Str} (hes : es ≠ []) (hre : rel <+: es) (hp : Plain es) (hc : Clear c (GoPath.mk es)) (hno : fs es = none)
    (hover : ¬ OverFile fs es) (perm : Nat) :
    Goes c rel fs (PkgTests.mkdirAllTest es perm) (fs.mkdirs es) [.about none, .done true, .about (some none)] := by
  have hself : (fs.mkdirs es) es = some .dir := by simp [Fs.mkdirs]
  refine Goes.step (o := .about none) (fs1 := fs) ⟨⟨hes, hp, hc⟩, hre, trivial⟩ ?_ ?_
  · have := Does.stat (fs := fs) es
    rwa [hno] at this
  refine Goes.step (o := .done true) (fs1 := fs.mkdirs es) ⟨⟨hes, hp, hc⟩, hre, hover⟩ (.mkdirAll es perm hover) ?_
  refine Goes.step (o := .about (some none)) (fs1 := fs.mkdirs es) ⟨⟨hes, hp, hc⟩, hre, trivial⟩ ?_ ⟨trivial, .ret _ _⟩
  have := Does.stat (fs := fs.mkdirs es) es
  rwa [hself] at this

/-- **C120** (`MkdirAllTest`), in part: where nothing was there is a directory, in both Pkgers, and nothing has changed but
the directories on the way.  Missing are paths at or below a file, where the two Pkgers differ (C97). -/
theorem C120_mkdirAll_partial (E : Env) {U : Unix O I W} {c : Info} (hl : ParseLaws E c) (hi : InfoOk c)
    (hpk : c.importPath = c.module.path) {m : List Str} (hm : GoPath.Good m) (hdir : c.dir = GoPath.mk m) {rel : List Str}
    (hrel : GoPath.Good rel) {fs : Fs} {u : Stdos.World S} (hu : OnDisk U c m fs u) {w : Mem.World} (hw : InMem E c rel fs w)
    {es : List Str} (hes : es ≠ []) (hre : rel <+: es) (hp : Plain es) (hc : Clear c (GoPath.mk es)) (hno : fs es = none)
    (hover : ¬ OverFile fs es) (perm : Nat) (fl : List Stdos.File) (hs : List Nat) :
    ∃ u' fl' w' hs', disk E O I W (PkgTests.mkdirAllTest es perm).prog u fl =
        (u', fl', [.about none, .done true, .about (some none)]) ∧
      mem E (PkgTests.mkdirAllTest es perm).prog w hs = (w', hs', [.about none, .done true, .about (some none)]) ∧
      OnDisk U c m (fs.mkdirs es) u' ∧ InMem E c rel (fs.mkdirs es) w' := by
  exact goes_both E hl hi hpk hm hdir hrel hu hw (goes_mkdirAllTest hes hre hp hc hno hover perm) fl hs

/-- No other name begins with the same letters, once the directory is made. -/
theorem Apart.mkdirs {rel : List Str} {fs : Fs} {es : List Str} (hg : GoPath.Good es) (h : Apart rel fs es) :
    Apart rel (fs.mkdirs es) es := by
  intro q hr hq hpre
  unfold Fs.mkdirs at hq
  by_cases hlow : q <+: es
  · have hgq : GoPath.Good q := fun x hx => hg x (hlow.subset hx)
    rw [GoPath.mk_injective hg hgq (hpre.eq_of_length_le (mk_prefix_of hlow).length_le)]
    exact List.prefix_refl _
  · rw [if_neg hlow] at hq
    exact h q hr hq hpre

/-- There is no file on the way to a directory just made. -/
theorem not_belowFile_mkdirs (fs : Fs) (es : List Str) : ¬ BelowFile (fs.mkdirs es) es := by
  rintro ⟨a, b, h1, _, h3⟩
  simp [Fs.mkdirs, h1] at h3

/-- The statement of **C120** in full for `RemoveAllTest`: the directory is there after `MkdirAll` and gone after `RemoveAll`
with all that is in it, and nothing else is. -/
def C120_statement : Prop :=
  ∀ (S : Type) (O : Host S) (I : Io S) (W : Writes S) (U : Unix O I W) (E : Env) (c : Info) (m rel : List Str) (fs : Fs)
    (u : Stdos.World S) (w : Mem.World) (es : List Str) (perm : Nat),
    ParseLaws E c → InfoOk c → c.importPath = c.module.path → GoPath.Good m → c.dir = GoPath.mk m → GoPath.Good rel →
    OnDisk U c m fs u → InMem E c rel fs w → es ≠ [] → rel <+: es → Plain es → Clear c (GoPath.mk es) → ¬ OverFile fs es →
    ∃ u' fl' w' hs', disk E O I W (PkgTests.removeAllTest es perm).prog u [] =
        (u', fl', [.done true, .about (some none), .done true, .about none]) ∧
      mem E (PkgTests.removeAllTest es perm).prog w [] =
        (w', hs', [.done true, .about (some none), .done true, .about none]) ∧
      OnDisk U c m ((fs.mkdirs es).prune es) u' ∧ InMem E c rel ((fs.mkdirs es).prune es) w'

/-- **C120** (`RemoveAllTest`), in part: all this is so if no name beside the directory begins with the same letters. -/
theorem C120_removeAll_partial (E : Env) {U : Unix O I W} {c : Info} (hl : ParseLaws E c) (hi : InfoOk c)
    (hpk : c.importPath = c.module.path) {m : List Str} (hm : GoPath.Good m) (hdir : c.dir = GoPath.mk m) {rel : List Str}
    (hrel : GoPath.Good rel) {fs : Fs} {u : Stdos.World S} (hu : OnDisk U c m fs u) {w : Mem.World} (hw : InMem E c rel fs w)
    {es : List Str} (hes : es ≠ []) (hre : rel <+: es) (hp : Plain es) (hc : Clear c (GoPath.mk es)) (hover : ¬ OverFile fs es)
    (hap : Apart rel fs es) (perm : Nat) (fl : List Stdos.File) (hs : List Nat) :
    ∃ u' fl' w' hs', disk E O I W (PkgTests.removeAllTest es perm).prog u fl =
        (u', fl', [.done true, .about (some none), .done true, .about none]) ∧
      mem E (PkgTests.removeAllTest es perm).prog w hs =
        (w', hs', [.done true, .about (some none), .done true, .about none]) ∧
      OnDisk U c m ((fs.mkdirs es).prune es) u' ∧ InMem E c rel ((fs.mkdirs es).prune es) w' := by
  have hself : (fs.mkdirs es) es = some .dir := by simp [Fs.mkdirs]
  have hgone : ((fs.mkdirs es).prune es) es = none := by simp [Fs.prune]
  refine goes_both E hl hi hpk hm hdir hrel hu hw ?_ fl hs
  refine Goes.step (o := .done true) (fs1 := fs.mkdirs es) ⟨⟨hes, hp, hc⟩, hre, hover⟩ (.mkdirAll es perm hover) ?_
  refine Goes.step (o := .about (some none)) (fs1 := fs.mkdirs es) ⟨⟨hes, hp, hc⟩, hre, trivial⟩ ?_ ?_
  · have := Does.stat (fs := fs.mkdirs es) es
    rwa [hself] at this
  refine Goes.step (o := .done true) (fs1 := (fs.mkdirs es).prune es)
    ⟨⟨hes, hp, hc⟩, hre, not_belowFile_mkdirs fs es, Apart.mkdirs hp.good hap⟩ (.removeAll es (not_belowFile_mkdirs fs es)) ?_
  refine Goes.step (o := .about none) (fs1 := (fs.mkdirs es).prune es) ⟨⟨hes, hp, hc⟩, hre, trivial⟩ ?_ ⟨trivial, .ret _ _⟩
  have := Does.stat (fs := (fs.mkdirs es).prune es) es
  rwa [hgone] at this

/-- **C120** (`LoadFiles` undone), in part: `RemoveAll` of a directory that `LoadFiles` copied leaves nothing of it, in both
Pkgers, and of all the rest only the directories on the way to it are not as they were before. -/
theorem C120_undo_partial (E : Env) {U : Unix O I W} {c : Info} (hl : ParseLaws E c) (hi : InfoOk c)
    (hpk : c.importPath = c.module.path) {m : List Str} (hm : GoPath.Good m) (hdir : c.dir = GoPath.mk m) {rel : List Str}
    (hrel : GoPath.Good rel) {fs : Fs} {u : Stdos.World S} (hu : OnDisk U c m fs u) {w : Mem.World} (hw : InMem E c rel fs w)
    {cut : Str → List Str} (hcut : ∀ b, (cut b).flatten = b) {n : Node} (hn : WF n) (hnd : n.isDir = true) {es : List Str}
    (hes : es ≠ []) (hre : rel <+: es) (hv : ¬ Hidden es) (hcl : Clean es n)
    (hp : ∀ cs, n.find cs ≠ none → Plain (es ++ cs) ∧ Clear c (GoPath.mk (es ++ cs)))
    (hover : ¬ OverFile fs es) (hfree : ∀ x q, es ++ [x] <+: q → fs q = none) (hap : Apart rel fs es)
    (fl : List Stdos.File) (hs : List Nat) :
    ∃ u1 fl1 w1 hs1 u2 fl2 w2 hs2, disk E O I W (LoadFiles.loadFiles cut es n).prog u fl = (u1, fl1, true) ∧
      mem E (LoadFiles.loadFiles cut es n).prog w hs = (w1, hs1, true) ∧
      disk E O I W (Script.Act.removeAll es).prog u1 fl1 = (u2, fl2, .done true) ∧
      mem E (Script.Act.removeAll es).prog w1 hs1 = (w2, hs2, .done true) ∧
      OnDisk U c m ((fs.mkdirs es).prune es) u2 ∧ InMem E c rel ((fs.mkdirs es).prune es) w2 := by
  obtain ⟨fs', u1, fl1, w1, hs1, e1, e2, e3, e4, e5⟩ := C116_loads_partial E hl hi hpk hm hdir hrel hu hw hcut hn hnd hes hre hv
    hcl hp hover hfree fl hs
  have hroot : n.find [] = some n := by cases n <;> rfl
  obtain ⟨hpe, hce⟩ := hp [] (by rw [hroot]; simp)
  rw [List.append_nil] at hpe hce
  have hout : ∀ q, ¬ es <+: q → fs' q = (fs.mkdirs es) q := fun q hq =>
    e5.2 q fun cs hcs => absurd ⟨cs, hcs.symm⟩ hq
  have hpr : fs'.prune es = (fs.mkdirs es).prune es := by
    funext q
    unfold Fs.prune
    by_cases hq : es <+: q
    · rw [if_pos hq, if_pos hq]
    · rw [if_neg hq, if_neg hq]
      exact hout q hq
  have hnb : ¬ BelowFile fs' es := by
    rintro ⟨a, b, h1, h2, h3⟩
    rw [hout a (fun h => h2 (h1.eq_of_length_le h.length_le))] at h3
    simp [Fs.mkdirs, h1] at h3
  have hap' : Apart rel fs' es := by
    intro q hr hq hpre
    by_cases hq' : es <+: q
    · exact hq'
    · rw [hout q hq'] at hq
      exact Apart.mkdirs hpe.good hap q hr hq hpre
  have hgo : Goes c rel fs' (.act (.removeAll es) .ret) (fs'.prune es) (Out.done true) :=
    Goes.step ⟨⟨hes, hpe, hce⟩, hre, hnb, hap'⟩ (.removeAll es hnb) ⟨trivial, .ret _ _⟩
  obtain ⟨u2, fl2, w2, hs2, q1, q2, q3, q4⟩ := goes_both E hl hi hpk hm hdir hrel e3 e4 hgo fl1 hs1
  rw [hpr] at q3 q4
  have hprog : (Plan.act (.removeAll es) Plan.ret).prog = (Script.Act.removeAll es).prog := by
    rfl
  rw [hprog] at q1 q2
  exact ⟨u1, fl1, w1, hs1, u2, fl2, w2, hs2, e1, e2, q1, q2, q3, q4⟩

end both

/-- A file or directory opened in memory tells its package and path and the last element of its name. -/
theorem opens_named (E : Env) {c : Info} (hl : ParseLaws E c) (hi : InfoOk c) {rel : List Str} {fs : Fs} {w : Mem.World}
    (hw : InMem E c rel fs w) {es : List Str} {x : Str} (hre : rel <+: es ++ [x]) (hp : Plain (es ++ [x]))
    (hc : Clear c (GoPath.mk (es ++ [x]))) {e : Entry} (hf : fs (es ++ [x]) = some e) :
    ∃ w' h d, Mem.openFile E w (GoPath.mk (es ++ [x])) = (w', .ok h) ∧
      (w'.heap h).path.str = c.module.path ++ Str.colon :: GoPath.mk (es ++ [x]) ∧
      Mem.fileStat w' h = .ok h ∧ (w'.heap h).info = some d ∧ d.name = x ∧ d.isDir = e.isDir := by
  obtain ⟨f, d, g1, g2, g3, g4, _⟩ := hw.lookup_some hp.good (by simp) hre hf
  obtain ⟨w', h, h1, h2⟩ := Mem.openFile_of_lookup (hw.parse hl hp hc) g1 g2
  have hpath : f.path = own c (es ++ [x]) := by
    have g1 := g1
    unfold Mem.lookup at g1
    cases hg : AMap.get w.files (own c (es ++ [x])) with
    | none => rw [hg] at g1; cases g1
    | some j =>
      rw [hg] at g1
      simp only [Option.map_some, Option.some.injEq] at g1
      rw [← g1]
      exact (hw.reached.inv.wf.bound _ j hg).2.1
  have hne : c.module.path ≠ [] := by
    intro h
    have := hi.modulePlain.1
    rw [h] at this
    exact this (by decide)
  refine ⟨w', h, Mem.newFileInfo d, h1, ?_, ?_, ?_, ?_, g4⟩
  · rw [h2]
    show f.path.str = _
    rw [hpath]
    simp [Path.str, own, hne, GoPath.mk]
  · unfold Mem.fileStat
    rw [h2]
    rfl
  · rw [h2]
    rfl
  · show d.name = x
    rw [g3]
    simp

/-- **C120** (what `CreateTest` and `MkdirAllTest` ask of the file they open, create.go:29-40 and mkdir_all.go:20-27), in part:
in memory a file just created, and a directory just made, can be opened and has the right names and kind. -/
theorem C120_named_partial (E : Env) {c : Info} (hl : ParseLaws E c) (hi : InfoOk c) (hpk : c.importPath = c.module.path)
    {rel : List Str} (hrel : GoPath.Good rel) {fs : Fs} {w : Mem.World} (hw : InMem E c rel fs w)
    {es : List Str} {x : Str} (hre : rel <+: es ++ [x]) (hp : Plain (es ++ [x])) (hc : Clear c (GoPath.mk (es ++ [x])))
    (hno : fs (es ++ [x]) = none) (hs : List Nat) :
    (∀ perm, ¬ OverFile fs (es ++ [x]) → ∃ w1 hs1 w2 h d,
      mem E (PkgTests.mkdirAllTest (es ++ [x]) perm).prog w hs = (w1, hs1, [.about none, .done true, .about (some none)]) ∧
      Mem.openFile E w1 (GoPath.mk (es ++ [x])) = (w2, .ok h) ∧
      (w2.heap h).path.str = c.module.path ++ Str.colon :: GoPath.mk (es ++ [x]) ∧
      Mem.fileStat w2 h = .ok h ∧ (w2.heap h).info = some d ∧ d.name = x ∧ d.isDir = true) ∧
    ∀ chunks sizes, es ++ [x] ≠ rel → fs es = some .dir → chunks.flatten ≠ [] → (∀ n ∈ sizes, 0 < n) →
      chunks.flatten.length < sizes.length → ∃ w1 hs1 w2 h d,
      mem E (PkgTests.createTest (es ++ [x]) chunks sizes).prog w hs =
        (w1, hs1, [.about none, .done true, .content (some chunks.flatten)]) ∧
      Mem.openFile E w1 (GoPath.mk (es ++ [x])) = (w2, .ok h) ∧
      (w2.heap h).path.str = c.module.path ++ Str.colon :: GoPath.mk (es ++ [x]) ∧
      Mem.fileStat w2 h = .ok h ∧ (w2.heap h).info = some d ∧ d.name = x ∧ d.isDir = false := by
  constructor
  · intro perm hover
    have hgo := goes_mkdirAllTest (by simp) hre hp hc hno hover perm
    obtain ⟨w1, hs1, q2, q4⟩ := C97_mem_partial E hl hi hpk hrel hgo.2 hw hgo.1 hs
    obtain ⟨w2, h, d, h1⟩ := opens_named E hl hi q4 hre hp hc (e := .dir) (by simp [Fs.mkdirs])
    exact ⟨w1, hs1, w2, h, d, q2, h1⟩
  · intro chunks sizes hne hup hb hpos hlen
    have hgo := goes_createTest (by simp) hre hne hp hc (by simpa using hup) hno hb hpos hlen
    obtain ⟨w1, hs1, q2, q4⟩ := C97_mem_partial E hl hi hpk hrel hgo.2 hw hgo.1 hs
    obtain ⟨w2, h, d, h1⟩ := opens_named E hl hi q4 hre hp hc (e := .file chunks.flatten) (by simp [Fs.set])
    exact ⟨w1, hs1, w2, h, d, q2, h1⟩

/-! ### Beside the files of a module -/

/-- The hypotheses of `C120_create_partial` are met. -/
example : ∃ u' fl' w' hs', disk Demo.env machine machineIo machineWrites
      (PkgTests.createTest [b! "www", b! "new"] [b! "ab", b! "c"] (List.replicate 4 2)).prog
      (Stdos.new Demo.info (Machine.of (siteDisk siteApp))) [] =
        (u', fl', [.about none, .done true, .content (some (b! "abc"))]) ∧
    mem Demo.env (PkgTests.createTest [b! "www", b! "new"] [b! "ab", b! "c"] (List.replicate 4 2)).prog (siteMem siteApp) [] =
      (w', hs', [.about none, .done true, .content (some (b! "abc"))]) ∧
    OnDisk unix Demo.info [b! "src", b! "app"] ((shape siteApp.2).set [b! "www", b! "new"] (.file (b! "abc"))) u' ∧
    InMem Demo.env Demo.info [] ((shape siteApp.2).set [b! "www", b! "new"] (.file (b! "abc"))) w' :=
  C120_create_partial Demo.env Demo.laws Demo.info_ok rfl (by decide) (by decide) (by decide)
    (site_onDisk siteApp_ok rfl (by decide +kernel)) (site_inMem siteApp_ok rfl) (by simp) List.nil_prefix (by simp) (by decide)
    (by decide) (by decide +kernel) (by decide +kernel) (chunks := [b! "ab", b! "c"]) (by decide) (by decide) (by decide) [] []

/-- Those of `C120_mkdirAll_partial` too. -/
example : ∃ u' fl' w' hs', disk Demo.env machine machineIo machineWrites
      (PkgTests.mkdirAllTest [b! "www", b! "a", b! "b"] 493).prog (Stdos.new Demo.info (Machine.of (siteDisk siteApp))) [] =
        (u', fl', [.about none, .done true, .about (some none)]) ∧
    mem Demo.env (PkgTests.mkdirAllTest [b! "www", b! "a", b! "b"] 493).prog (siteMem siteApp) [] =
      (w', hs', [.about none, .done true, .about (some none)]) ∧
    OnDisk unix Demo.info [b! "src", b! "app"] ((shape siteApp.2).mkdirs [b! "www", b! "a", b! "b"]) u' ∧
    InMem Demo.env Demo.info [] ((shape siteApp.2).mkdirs [b! "www", b! "a", b! "b"]) w' :=
  C120_mkdirAll_partial Demo.env Demo.laws Demo.info_ok rfl (by decide) (by decide) (by decide)
    (site_onDisk siteApp_ok rfl (by decide +kernel)) (site_inMem siteApp_ok rfl) (by simp) List.nil_prefix (by decide)
    (by decide) (by decide +kernel) (by rw [← overFile_iff]; decide +kernel) 493 [] []

/-- Those of `C120_named_partial` too: a directory and a file below `/www`. -/
example : (∃ w1 hs1 w2 h d, mem Demo.env (PkgTests.mkdirAllTest [b! "www", b! "new"] 493).prog (siteMem siteApp) [] =
      (w1, hs1, [.about none, .done true, .about (some none)]) ∧
      Mem.openFile Demo.env w1 (b! "/www/new") = (w2, .ok h) ∧ (w2.heap h).path.str = b! "app:/www/new" ∧
      Mem.fileStat w2 h = .ok h ∧ (w2.heap h).info = some d ∧ d.name = b! "new" ∧ d.isDir = true) ∧
    ∃ w1 hs1 w2 h d, mem Demo.env (PkgTests.createTest [b! "www", b! "new"] [b! "ab", b! "c"] (List.replicate 4 2)).prog
      (siteMem siteApp) [] = (w1, hs1, [.about none, .done true, .content (some (b! "abc"))]) ∧
      Mem.openFile Demo.env w1 (b! "/www/new") = (w2, .ok h) ∧ (w2.heap h).path.str = b! "app:/www/new" ∧
      Mem.fileStat w2 h = .ok h ∧ (w2.heap h).info = some d ∧ d.name = b! "new" ∧ d.isDir = false := by
  have := C120_named_partial Demo.env Demo.laws Demo.info_ok rfl (by decide) (site_inMem siteApp_ok rfl) (es := [b! "www"]) (x := b! "new")
    List.nil_prefix (by decide) (by decide) (by decide +kernel) []
  exact ⟨this.1 493 (by rw [← overFile_iff]; decide +kernel),
    this.2 [b! "ab", b! "c"] (List.replicate 4 2) (by simp) (by decide +kernel) (by decide) (by decide) (by decide)⟩

theorem siteApp_apart {es : List Str} (h : ∀ e ∈ siteApp.2.tree, GoPath.mk es <+: GoPath.mk e.1 → es <+: e.1) :
    Apart [] (shape siteApp.2) es := by
  intro q _ hq
  exact find_mem_tree (n := siteApp.2) (by decide +kernel) (P := fun q => GoPath.mk es <+: GoPath.mk q → es <+: q) h
    (fun h => hq (shape_none.mpr h))

/-- Those of `C120_removeAll_partial` too, here with a directory that was there before, with files in it. -/
example : ∃ u' fl' w' hs', disk Demo.env machine machineIo machineWrites
      (PkgTests.removeAllTest [b! "www", b! "doc"] 493).prog (Stdos.new Demo.info (Machine.of (siteDisk siteApp))) [] =
        (u', fl', [.done true, .about (some none), .done true, .about none]) ∧
    mem Demo.env (PkgTests.removeAllTest [b! "www", b! "doc"] 493).prog (siteMem siteApp) [] =
      (w', hs', [.done true, .about (some none), .done true, .about none]) ∧
    OnDisk unix Demo.info [b! "src", b! "app"] (((shape siteApp.2).mkdirs [b! "www", b! "doc"]).prune [b! "www", b! "doc"]) u' ∧
    InMem Demo.env Demo.info [] (((shape siteApp.2).mkdirs [b! "www", b! "doc"]).prune [b! "www", b! "doc"]) w' :=
  C120_removeAll_partial Demo.env Demo.laws Demo.info_ok rfl (by decide) (by decide) (by decide)
    (site_onDisk siteApp_ok rfl (by decide +kernel)) (site_inMem siteApp_ok rfl) (by simp) List.nil_prefix (by decide)
    (by decide) (by rw [← overFile_iff]; decide +kernel) (siteApp_apart (by decide +kernel)) 493 [] []

/-- And those of `C120_undo_partial`: `/tmp/www` is copied and removed. -/
example : ∃ u1 fl1 w1 hs1 u2 fl2 w2 hs2, disk Demo.env machine machineIo machineWrites
      (LoadFiles.loadFiles (fun b => [b]) [b! "tmp", b! "www"] wwwDir).prog (Stdos.new Demo.info (Machine.of (siteDisk siteApp))) [] =
        (u1, fl1, true) ∧
    mem Demo.env (LoadFiles.loadFiles (fun b => [b]) [b! "tmp", b! "www"] wwwDir).prog (siteMem siteApp) [] = (w1, hs1, true) ∧
    disk Demo.env machine machineIo machineWrites (Script.Act.removeAll [b! "tmp", b! "www"]).prog u1 fl1 = (u2, fl2, .done true) ∧
    mem Demo.env (Script.Act.removeAll [b! "tmp", b! "www"]).prog w1 hs1 = (w2, hs2, .done true) ∧
    OnDisk unix Demo.info [b! "src", b! "app"] (((shape siteApp.2).mkdirs [b! "tmp", b! "www"]).prune [b! "tmp", b! "www"]) u2 ∧
    InMem Demo.env Demo.info [] (((shape siteApp.2).mkdirs [b! "tmp", b! "www"]).prune [b! "tmp", b! "www"]) w2 := by
  have hnone : ∀ q, [b! "tmp"] <+: q → shape siteApp.2 q = none := by
    rintro q ⟨t, rfl⟩
    rw [shape_none, Disk.find_append]
    rfl
  exact C120_undo_partial Demo.env Demo.laws Demo.info_ok rfl (by decide) (by decide) (by decide)
    (site_onDisk siteApp_ok rfl (by decide +kernel)) (site_inMem siteApp_ok rfl) (by simp) (by decide +kernel) rfl (by simp)
    List.nil_prefix (by rw [← hidden_iff]; decide) wwwDir_clean
    (fun cs hf => find_mem_tree (n := wwwDir) (by decide +kernel) (P := fun cs => Plain ([b! "tmp", b! "www"] ++ cs) ∧
      Clear Demo.info (GoPath.mk ([b! "tmp", b! "www"] ++ cs))) (by decide +kernel) hf)
    (by rw [← overFile_iff]; decide +kernel)
    (fun x q hq => hnone q ((by simp : [b! "tmp"] <+: [b! "tmp", b! "www"] ++ [x]).trans hq))
    (siteApp_apart (by decide +kernel)) [] []

/-- **C120 is false** in full: in memory `RemoveAll("/w")` takes `/www` away with `/w`. -/
theorem C120_beside_refuted : ¬ C120_statement := by
  intro h
  obtain ⟨u', fl', w', hs', _, h2, _, h4⟩ := h _ machine machineIo machineWrites unix Demo.env Demo.info [b! "src", b! "app"] []
    (shape siteApp.2) _ _ [b! "w"] 493 Demo.laws Demo.info_ok rfl (by decide) (by decide) (by decide)
    (site_onDisk siteApp_ok rfl (by decide +kernel)) (site_inMem siteApp_ok rfl) (by simp) List.nil_prefix (by decide) (by decide)
    (by rw [← overFile_iff]; decide +kernel)
  obtain ⟨f, _, h5, _⟩ := h4.lookup_some (es := [b! "www"]) (by decide) (by simp) List.nil_prefix (e := .dir) (by decide +kernel)
  have h6 : (Mem.lookup (mem Demo.env (PkgTests.removeAllTest [b! "w"] 493).prog (siteMem siteApp) []).1
      ⟨b! "app", b! "/www"⟩).isNone = true := by decide +kernel
  rw [h2] at h6
  have h5 : Mem.lookup w' ⟨b! "app", b! "/www"⟩ = some f := h5
  simp only [h5] at h6
  cases h6

end Props
end Verif
