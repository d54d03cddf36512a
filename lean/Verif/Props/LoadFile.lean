import Verif.Model.LoadFile
import Verif.Props.LoadFiles

/-! C118: copying one file into a Pkger, and the tests of the repository that begin with it. -/

namespace Verif
namespace Props

open FileSys Script
open Spec hiding Out
open Disk (Node)
open Stdos (Host)
open DiskClient (Io)

section both
variable {S : Type} {O : Host S} {I : Io S} {W : Writes S}

/-- Both Pkgers do what is done alike. -/
theorem goes_both {α : Type} (E : Env) {U : Unix O I W} {c : Info} (hl : ParseLaws E c) (hi : InfoOk c)
    (hpk : c.importPath = c.module.path) {m : List Str} (hm : GoPath.Good m) (hdir : c.dir = GoPath.mk m) {rel : List Str}
    (hrel : GoPath.Good rel) {fs fs' : Fs} {u : Stdos.World S} (hu : OnDisk U c m fs u) {w : Mem.World} (hw : InMem E c rel fs w)
    {p : Plan α} {r : α} (h : Goes c rel fs p fs' r) (fl : List Stdos.File) (hs : List Nat) :
    ∃ u' fl' w' hs', disk E O I W p.prog u fl = (u', fl', r) ∧ mem E p.prog w hs = (w', hs', r) ∧
      OnDisk U c m fs' u' ∧ InMem E c rel fs' w' := by
  obtain ⟨u', fl', f2, r2, e1, e2, e3⟩ := C97_disk E hl hm hdir _ hu h.1.orderly fl
  obtain ⟨q1, q2⟩ := runs_unique h.2 e2
  subst q1
  subst q2
  obtain ⟨w', hs', q1, q2⟩ := C97_mem_partial E hl hi hpk hrel h.2 hw h.1 hs
  exact ⟨u', fl', w', hs', e1, q1, e3, q2⟩

/-- **C118** (copying), in part: the file is there afterwards with its content in both Pkgers, and nothing else has changed.
Missing are paths below a file, at which the two differ (C97). -/
theorem C118_loads_partial (E : Env) {U : Unix O I W} {c : Info} (hl : ParseLaws E c) (hi : InfoOk c)
    (hpk : c.importPath = c.module.path) {m : List Str} (hm : GoPath.Good m) (hdir : c.dir = GoPath.mk m) {rel : List Str}
    (hrel : GoPath.Good rel) {fs : Fs} {u : Stdos.World S} (hu : OnDisk U c m fs u) {w : Mem.World} (hw : InMem E c rel fs w)
    {cut : Str → List Str} (hcut : ∀ b, (cut b).flatten = b) {d : Mem.Details} {b : Str} {es : List Str} (hes : es ≠ [])
    (hre : rel <+: es) (hne : es ≠ rel) (hp : Plain es) (hc : Clear c (GoPath.mk es)) (hup : fs es.dropLast = some .dir)
    (hnd : fs es ≠ some .dir) (fl : List Stdos.File) (hs : List Nat) :
    ∃ u' fl' w' hs', disk E O I W (LoadFile.loadFile cut es (.file d b) .ret).prog u fl = (u', fl', true) ∧
      mem E (LoadFile.loadFile cut es (.file d b) .ret).prog w hs = (w', hs', true) ∧
      OnDisk U c m (fs.set es (.file b)) u' ∧ InMem E c rel (fs.set es (.file b)) w' := by
  refine goes_both E hl hi hpk hm hdir hrel hu hw ?_ fl hs
  refine Goes.step (o := .done true) (fs1 := fs.set es (.file b)) ⟨⟨hes, hp, hc⟩, hre, hne, ?_, hnd⟩ ?_ ⟨trivial, .ret _ _⟩
  · intro b' h; rw [hup] at h; cases h
  · have := Does.put es (cut b) hup hnd
    rwa [hcut] at this

/-- A directory is not copied. -/
theorem C118_directory (cut : Str → List Str) (es : List Str) {n : Node} (h : n.isDir = true) :
    LoadFile.loadFile cut es n Plan.ret = .ret false := by
  cases n with
  | file => cases h
  | dir => rfl

/-- The statement of **C118** in full for the tests: the copied file has its size, it is read with its content, and after it
is removed it is gone and the rest is as it was before. -/
def C118_statement : Prop :=
  ∀ (S : Type) (O : Host S) (I : Io S) (W : Writes S) (U : Unix O I W) (E : Env) (c : Info) (m rel : List Str) (fs : Fs)
    (u : Stdos.World S) (w : Mem.World) (cut : Str → List Str) (d : Mem.Details) (b : Str) (es : List Str) (sizes : List Nat),
    ParseLaws E c → InfoOk c → c.importPath = c.module.path → GoPath.Good m → c.dir = GoPath.mk m → GoPath.Good rel →
    OnDisk U c m fs u → InMem E c rel fs w → (∀ b, (cut b).flatten = b) → es ≠ [] → rel <+: es → es ≠ rel → Plain es →
    Clear c (GoPath.mk es) → fs es.dropLast = some .dir → fs es ≠ some .dir → (∀ n ∈ sizes, 0 < n) → b.length < sizes.length →
    ∃ u' fl' w' hs', disk E O I W (LoadFile.tests cut es (.file d b) sizes).prog u [] =
        (u', fl', some [.about (some (some (b.length : Int))), .content (some b), .done true, .about none]) ∧
      mem E (LoadFile.tests cut es (.file d b) sizes).prog w [] =
        (w', hs', some [.about (some (some (b.length : Int))), .content (some b), .done true, .about none]) ∧
      OnDisk U c m (fs.unset es) u' ∧ InMem E c rel (fs.unset es) w'

/-- **C118** (the tests), in part: all this is so for files that are not empty. -/
theorem C118_tests_partial (E : Env) {U : Unix O I W} {c : Info} (hl : ParseLaws E c) (hi : InfoOk c)
    (hpk : c.importPath = c.module.path) {m : List Str} (hm : GoPath.Good m) (hdir : c.dir = GoPath.mk m) {rel : List Str}
    (hrel : GoPath.Good rel) {fs : Fs} {u : Stdos.World S} (hu : OnDisk U c m fs u) {w : Mem.World} (hw : InMem E c rel fs w)
    {cut : Str → List Str} (hcut : ∀ b, (cut b).flatten = b) {d : Mem.Details} {b : Str} (hb : b ≠ []) {es : List Str}
    (hes : es ≠ []) (hre : rel <+: es) (hne : es ≠ rel) (hp : Plain es) (hc : Clear c (GoPath.mk es))
    (hup : fs es.dropLast = some .dir) (hnd : fs es ≠ some .dir) {sizes : List Nat} (hpos : ∀ n ∈ sizes, 0 < n)
    (hlen : b.length < sizes.length) (fl : List Stdos.File) (hs : List Nat) :
    ∃ u' fl' w' hs', disk E O I W (LoadFile.tests cut es (.file d b) sizes).prog u fl =
        (u', fl', some [.about (some (some (b.length : Int))), .content (some b), .done true, .about none]) ∧
      mem E (LoadFile.tests cut es (.file d b) sizes).prog w hs =
        (w', hs', some [.about (some (some (b.length : Int))), .content (some b), .done true, .about none]) ∧
      OnDisk U c m (fs.unset es) u' ∧ InMem E c rel (fs.unset es) w' := by
  have htree := hw.tree
  have hself : (fs.set es (.file b)) es = some (.file b) := by simp [Fs.set]
  have hgone : (fs.set es (.file b)).unset es = fs.unset es := by
    funext q
    simp only [Fs.set, Fs.unset]
    split <;> rfl
  have hnf : ¬ Full (fs.set es (.file b)) es := by
    rintro ⟨x, hx⟩
    have hxe : es ++ [x] ≠ es := by simp
    simp only [Fs.set, if_neg hxe] at hx
    exact hnd (htree.up es x hx)
  refine goes_both E hl hi hpk hm hdir hrel hu hw ?_ fl hs
  refine Goes.step (o := .done true) (fs1 := fs.set es (.file b)) ⟨⟨hes, hp, hc⟩, hre, hne, ?_, hnd⟩ ?_ ?_
  · intro b' h; rw [hup] at h; cases h
  · have := Does.put es (cut b) hup hnd
    rwa [hcut] at this
  simp only [decide_true, if_true]
  refine Goes.step (o := .about (some (some (b.length : Int)))) (fs1 := fs.set es (.file b)) ⟨⟨hes, hp, hc⟩, hre, trivial⟩ ?_ ?_
  · have := Does.stat (fs := fs.set es (.file b)) es
    rw [hself] at this
    exact this
  refine Goes.step (o := .content (some b)) (fs1 := fs.set es (.file b)) ⟨⟨hes, hp, hc⟩, hre, ?_, hpos, ?_⟩ (.get es sizes b hself) ?_
  · rw [hself]; simp [hb]
  · intro b' h; rw [hself] at h; cases h; exact hlen
  refine Goes.step (o := .done true) (fs1 := fs.unset es) ⟨⟨hes, hp, hc⟩, hre, hnf⟩ ?_ ?_
  · have := Does.remove (fs := fs.set es (.file b)) es (by rw [hself]; simp) hnf
    rwa [hgone] at this
  refine Goes.step (o := .about none) (fs1 := fs.unset es) ⟨⟨hes, hp, hc⟩, hre, trivial⟩ ?_ ⟨trivial, .ret _ _⟩
  have := Does.stat (fs := fs.unset es) es
  rwa [show (fs.unset es) es = none by simp [Fs.unset]] at this

end both

/-! ### A file beside the files of a module -/

/-- The hypotheses of `C118_loads_partial` and `C118_tests_partial` are met. -/
example : ∃ u' fl' w' hs', disk Demo.env machine machineIo machineWrites
      (LoadFile.tests (fun b => [b]) [b! "go.sum"] (Demo.fileNode (b! "go.sum") (b! "x v1")).2 (List.replicate 5 2)).prog
      (Stdos.new Demo.info (Machine.of (siteDisk siteApp))) [] =
        (u', fl', some [.about (some (some 4)), .content (some (b! "x v1")), .done true, .about none]) ∧
    mem Demo.env (LoadFile.tests (fun b => [b]) [b! "go.sum"] (Demo.fileNode (b! "go.sum") (b! "x v1")).2 (List.replicate 5 2)).prog
      (siteMem siteApp) [] = (w', hs', some [.about (some (some 4)), .content (some (b! "x v1")), .done true, .about none]) ∧
    OnDisk unix Demo.info [b! "src", b! "app"] ((shape siteApp.2).unset [b! "go.sum"]) u' ∧
    InMem Demo.env Demo.info [] ((shape siteApp.2).unset [b! "go.sum"]) w' :=
  C118_tests_partial Demo.env Demo.laws Demo.info_ok rfl (by decide) (by decide) (by decide)
    (site_onDisk siteApp_ok rfl (by decide +kernel)) (site_inMem siteApp_ok rfl) (by simp) (by decide) (by simp) List.nil_prefix
    (by simp) (by decide) (by decide) (by decide +kernel) (by decide +kernel) (by decide) (by decide) [] []

/-- **C118 is false** in full: an empty file cannot be read from memory, `Read` fails. -/
theorem C118_empty_refuted : ¬ C118_statement := by
  intro h
  obtain ⟨u', fl', w', hs', _, h2, _⟩ := h _ machine machineIo machineWrites unix Demo.env Demo.info [b! "src", b! "app"] []
    (shape siteApp.2) _ _ (fun b => [b]) (Demo.fileNode (b! "go.sum") []).2.details [] [b! "go.sum"] [1] Demo.laws Demo.info_ok rfl
    (by decide) (by decide) (by decide) (site_onDisk siteApp_ok rfl (by decide +kernel)) (site_inMem siteApp_ok rfl) (by simp) (by simp)
    List.nil_prefix (by simp) (by decide) (by decide) (by decide +kernel) (by decide +kernel) (by decide) (by decide)
  have h3 : (mem Demo.env (LoadFile.tests (fun b => [b]) [b! "go.sum"] (.file (Demo.fileNode (b! "go.sum") []).2.details []) [1]).prog
      (siteMem siteApp) []).2.2 = some [.about (some (some 0)), .content none, .done true, .about none] := by decide +kernel
  rw [h2] at h3
  simp at h3

end Props
end Verif
