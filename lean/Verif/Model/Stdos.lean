import Verif.Model.Disk
import Verif.Model.AMap

/-!
The Pkger that works directly on the disk: pkging/stdos/stdos.go and pkging/stdos/file.go, and
`pkger.Dir` on top of it (pkger.go:32-40).

The operating system and the Go tool are an arbitrary state machine (`Host`): every call may answer
anything and may change anything.  Simplifications: paths are as on Linux; the files found by
`filepath.Walk` do not change while it runs and the callback does not use the Pkger it was called
from; a file's own read, write and seek go to the operating system unchanged and are left out.
-/

namespace Verif
namespace Stdos

open Mem (Details newFileInfo)
open Disk (Node)

/-- The calls of the package `os` and of the Go tool that the code makes; open files are identified by
a number. -/
structure Host (S : Type) where
  /-- `os.Create` (stdos.go:44). -/
  create : Str → S → S × Except Err Nat
  /-- `os.Open` (stdos.go:110). -/
  openFile : Str → S → S × Except Err Nat
  /-- `(*os.File).Stat` (stdos.go:56, :122, file.go:67). -/
  fstat : Nat → S → S × Except Err Details
  /-- `(*os.File).Readdir` (file.go:43). -/
  readdir : Nat → Int → S → S × Except Err (List Details)
  /-- `(*os.File).Close` (file.go:24). -/
  close : Nat → S → S × Option Err
  /-- `os.Stat` (stdos.go:148). -/
  stat : Str → S → S × Except Err Details
  /-- `os.MkdirAll` (stdos.go:94). -/
  mkdirAll : Str → Nat → S → S × Option Err
  /-- `os.Remove` (stdos.go:207). -/
  remove : Str → S → S × Option Err
  /-- `os.RemoveAll` (stdos.go:222). -/
  removeAll : Str → S → S × Option Err
  /-- What `filepath.Walk` (stdos.go:171) finds at a path. -/
  tree : Str → S → S × Except Err Node
  /-- `here.Package` (stdos.go:76), which runs the Go tool. -/
  package : Str → S → S × Except Err Info

/-- `stdos.Pkger`, stdos.go:16-19, with the state of the outside world. -/
structure World (S : Type) where
  here : Info
  infos : AMap Str Info
  host : S

/-- `stdos.File`, file.go:14-20; the embedded `*os.File` is `fd`. -/
structure File where
  fd : Nat
  info : Option Details
  her : Info
  path : Path

variable {S : Type}

/-- `New`, stdos.go:22-29. -/
def new (her : Info) (h : S) : World S := { here := her, infos := AMap.set [] her.importPath her, host := h }

/-- `(*Pkger).Info`, stdos.go:70-82. -/
def info (O : Host S) (w : World S) (p : Str) : World S × Except Err Info :=
  match AMap.get w.infos p with
  | some i => (w, .ok i)
  | none =>
    match O.package p w.host with
    | (h, .error e) => ({ w with host := h }, .error e)
    | (h, .ok i) => ({ w with host := h, infos := AMap.set w.infos p i }, .ok i)

/-- `(*Pkger).Parse`, stdos.go:132-134. -/
def parse (E : Env) (w : World S) (p : Str) : Except Err Path := E.parse w.here p

/-- The beginning that all operations share: `Parse`, then `Info` of the package (stdos.go:33-41, 86-93,
99-107, 138-146, 160-168, 197-205, 212-220). -/
def locate (E : Env) (O : Host S) (w : World S) (name : Str) : World S × Except Err (Path × Info) :=
  match parse E w name with
  | .error e => (w, .error e)
  | .ok pt =>
    match info O w pt.pkg with
    | (w', .error e) => (w', .error e)
    | (w', .ok her) => (w', .ok (pt, her))

/-- The `*File` made of an opened file: stdos.go:49-61 and :115-128.  If `f.Stat` fails the error is
returned and the file stays open. -/
def wrapFile (O : Host S) (w : World S) (pt : Path) (her : Info) (fd : Nat) : World S × Except Err File :=
  match O.fstat fd w.host with
  | (h, .error e) => ({ w with host := h }, .error e)
  | (h, .ok d) => ({ w with host := h }, .ok ⟨fd, some (newFileInfo d), her, pt⟩)

/-- `(*Pkger).Create`, stdos.go:32-62. -/
def create (E : Env) (O : Host S) (w : World S) (name : Str) : World S × Except Err File :=
  match locate E O w name with
  | (w1, .error e) => (w1, .error e)
  | (w1, .ok (pt, her)) =>
    match O.create (GoPath.join2 her.dir pt.name) w1.host with
    | (h, .error e) => ({ w1 with host := h }, .error e)
    | (h, .ok fd) => wrapFile O { w1 with host := h } pt her fd

/-- `(*Pkger).Open`, stdos.go:98-129. -/
def openFile (E : Env) (O : Host S) (w : World S) (name : Str) : World S × Except Err File :=
  match locate E O w name with
  | (w1, .error e) => (w1, .error e)
  | (w1, .ok (pt, her)) =>
    match O.openFile (GoPath.join2 her.dir pt.name) w1.host with
    | (h, .error e) => ({ w1 with host := h }, .error e)
    | (h, .ok fd) => wrapFile O { w1 with host := h } pt her fd

/-- `(*Pkger).Stat`, stdos.go:137-156. -/
def stat (E : Env) (O : Host S) (w : World S) (name : Str) : World S × Except Err Details :=
  match locate E O w name with
  | (w1, .error e) => (w1, .error e)
  | (w1, .ok (pt, her)) =>
    match O.stat (GoPath.join2 her.dir pt.name) w1.host with
    | (h, .error e) => ({ w1 with host := h }, .error e)
    | (h, .ok d) => ({ w1 with host := h }, .ok (newFileInfo d))

/-- `(*Pkger).MkdirAll`, stdos.go:85-95: the directory is joined with the argument as given, not with
the parsed name (stdos.go:94). -/
def mkdirAll (E : Env) (O : Host S) (w : World S) (p : Str) (perm : Nat) : World S × Option Err :=
  match locate E O w p with
  | (w1, .error e) => (w1, some e)
  | (w1, .ok (_, her)) =>
    match O.mkdirAll (GoPath.join2 her.dir p) perm w1.host with
    | (h, r) => ({ w1 with host := h }, r)

/-- `(*Pkger).Remove`, stdos.go:196-208. -/
def remove (E : Env) (O : Host S) (w : World S) (name : Str) : World S × Option Err :=
  match locate E O w name with
  | (w1, .error e) => (w1, some e)
  | (w1, .ok (pt, her)) =>
    match O.remove (GoPath.join2 her.dir pt.name) w1.host with
    | (h, r) => ({ w1 with host := h }, r)

/-- `(*Pkger).RemoveAll`, stdos.go:211-223. -/
def removeAll (E : Env) (O : Host S) (w : World S) (name : Str) : World S × Option Err :=
  match locate E O w name with
  | (w1, .error e) => (w1, some e)
  | (w1, .ok (pt, her)) =>
    match O.removeAll (GoPath.join2 her.dir pt.name) w1.host with
    | (h, r) => ({ w1 with host := h }, r)

/-- The callback `Walk` gives to `filepath.Walk`, stdos.go:171-190, for the package `pkg` of the walk's
root.  The state is the Pkger and the user's state; `wf` is the user's callback. -/
def walkFn {T : Type} (E : Env) (O : Host S) (wf : Str → Details → T → T × Option Err) (pkg : Str) :
    Disk.WalkFn (World S × T) := fun path n s =>
  match parse E s.1 (pkg ++ Str.colon :: path) with
  | .error e => (s, some e)
  | .ok pt =>
    match info O s.1 pt.pkg with
    | (w, .error e) => ((w, s.2), some e)
    | (w, .ok i) =>
      let name := Str.replaceByte (Str.trimPrefix path i.dir) Str.backslash Str.slash
      match wf (Path.str ⟨pt.pkg, name⟩) (newFileInfo n.details) s.2 with
      | (t, r) => ((w, t), r)

/-- `(*Pkger).Walk`, stdos.go:159-193.  If nothing is found at the root, `filepath.Walk` hands the error
to the callback, which returns it (stdos.go:172-174). -/
def walk {T : Type} (E : Env) (O : Host S) (w : World S) (p : Str) (wf : Str → Details → T → T × Option Err)
    (t : T) : World S × T × Option Err :=
  match locate E O w p with
  | (w1, .error e) => (w1, t, some e)
  | (w1, .ok (pt, her)) =>
    let fp := GoPath.join2 her.dir pt.name
    match O.tree fp w1.host with
    | (h, .error e) => ({ w1 with host := h }, t, some e)
    | (h, .ok n) =>
      match Disk.walk (walkFn E O wf pt.pkg) fp n ({ w1 with host := h }, t) with
      | ((w2, t'), r) => (w2, t', r)

/-- `(*File).Close`, file.go:23-25. -/
def closeFile (O : Host S) (w : World S) (f : File) : World S × Option Err :=
  match O.close f.fd w.host with
  | (h, r) => ({ w with host := h }, r)

/-- `(*File).Readdir`, file.go:42-44. -/
def fileReaddir (O : Host S) (w : World S) (f : File) (count : Int) : World S × Except Err (List Details) :=
  match O.readdir f.fd count w.host with
  | (h, r) => ({ w with host := h }, r)

/-- `(*File).Open`, file.go:47-54: only the name of the directory's path is used, not its package. -/
def fileOpen (E : Env) (O : Host S) (w : World S) (f : File) (name : Str) : World S × Except Err File :=
  openFile E O w (GoPath.join2 f.path.name name)

/-- `(*File).Stat`, file.go:62-73. -/
def fileStat (O : Host S) (w : World S) (f : File) : World S × File × Except Err Details :=
  match f.info with
  | some d => (w, f, .ok d)
  | none =>
    match O.fstat f.fd w.host with
    | (h, .error e) => ({ w with host := h }, f, .error e)
    | (h, .ok d) => ({ w with host := h }, { f with info := some (newFileInfo d) }, .ok (newFileInfo d))

/-- `(*File).Name`, file.go:33-35. -/
def fileName (f : File) : Str := f.path.str

/-- `pkger.Dir(d).Open(name)`, pkger.go:34-40, when the current Pkger is the disk one: the directory is
opened, the file is opened through it, and the directory is not closed. -/
def dirOpen (E : Env) (O : Host S) (w : World S) (d name : Str) : World S × Except Err File :=
  match openFile E O w d with
  | (w1, .error e) => (w1, .error e)
  | (w1, .ok f) => fileOpen E O w1 f name

/-- One use of the Pkger, with the files the program has opened so far (`use`, `close` pick one by its
number). -/
inductive Op where
  | info (p : Str)
  | create (name : Str)
  | openFile (name : Str)
  | stat (name : Str)
  | mkdirAll (p : Str) (perm : Nat)
  | remove (name : Str)
  | removeAll (name : Str)
  | walk (p : Str) (wf : Str → Details → Option Err)
  | fileOpen (k : Nat) (name : Str)
  | fileStat (k : Nat)
  | fileReaddir (k : Nat) (count : Int)
  | close (k : Nat)
  | dirOpen (d name : Str)

/-- A program's state: the Pkger and the files it holds. -/
structure Prog (S : Type) where
  world : World S
  files : List File

/-- Keep an opened file. -/
def keep (files : List File) : World S × Except Err File → Prog S
  | (w, .error _) => ⟨w, files⟩
  | (w, .ok f) => ⟨w, files ++ [f]⟩

/-- The effect of one operation. -/
def step (E : Env) (O : Host S) (s : Prog S) : Op → Prog S
  | .info p => ⟨(info O s.world p).1, s.files⟩
  | .create n => keep s.files (create E O s.world n)
  | .openFile n => keep s.files (openFile E O s.world n)
  | .stat n => ⟨(stat E O s.world n).1, s.files⟩
  | .mkdirAll p perm => ⟨(mkdirAll E O s.world p perm).1, s.files⟩
  | .remove n => ⟨(remove E O s.world n).1, s.files⟩
  | .removeAll n => ⟨(removeAll E O s.world n).1, s.files⟩
  | .walk p wf => ⟨(walk E O s.world p (fun a d (t : Unit) => (t, wf a d)) ()).1, s.files⟩
  | .fileOpen k n =>
    match s.files[k]? with
    | none => s
    | some f => keep s.files (fileOpen E O s.world f n)
  | .fileStat k =>
    match s.files[k]? with
    | none => s
    | some f =>
      match fileStat O s.world f with
      | (w, f', _) => ⟨w, s.files.set k f'⟩
  | .fileReaddir k count =>
    match s.files[k]? with
    | none => s
    | some f => ⟨(fileReaddir O s.world f count).1, s.files⟩
  | .close k =>
    match s.files[k]? with
    | none => s
    | some f => ⟨(closeFile O s.world f).1, s.files⟩
  | .dirOpen d n => keep s.files (dirOpen E O s.world d n)

/-- A sequence of operations. -/
def run (E : Env) (O : Host S) (s : Prog S) (ops : List Op) : Prog S := ops.foldl (step E O) s

end Stdos
end Verif
