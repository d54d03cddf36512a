import Verif.Conformance.Ref
import Verif.Spec.FileSysDemo

/-!
The repository's own tests of the two Pkgers (pkging/pkgtest, pkging/mem, pkging/stdos), run on the model.

These are checks of the model on single cases, not proofs of properties.
-/

namespace Verif
namespace Conformance

open Disk (Node)
open Mem (Details World)
open Script (Prog)
open FileSys (Machine machine machineIo machineWrites)

/-! ### Tests for both Pkgers, as programs -/

/-- `ioutil.ReadAll` on file `k`, with so many calls at most. -/
def readAll (k : Nat) : Prog (Option Str) := Script.readAll k (List.replicate 40 512) []

/-- `CreateTest`, pkging/pkgtest/create.go:12-42. -/
def createTest : Prog Bool :=
  let name := b! "/create.test"
  let data := b! "/CREATE.TEST"
  .step (.stat name) fun
    | .details (.err _) =>
      .step (.create name) fun
        | .opened (.ok k) =>
          .step (.write k data) fun
            | .wrote _ none =>
              .step (.close k) fun
                | .did (.ok _) =>
                  .step (.openFile name) fun
                    | .opened (.ok k) =>
                      .step (.stat name) fun
                        | .details (.ok d) => do
                          let b ← readAll k
                          .step (.close k) fun
                            | .did (.ok _) => pure (b == some data && d.name == b! "create.test")
                            | _ => pure false
                        | _ => pure false
                    | _ => pure false
                | _ => pure false
            | _ => pure false
        | _ => pure false
    | _ => pure false

/-- `MkdirAllTest`, pkging/pkgtest/mkdir_all.go:10-28, without the handle's name. -/
def mkdirAllTest : Prog Bool :=
  let name := b! "/all/this/useless/beauty"
  .step (.stat name) fun
    | .details (.err _) =>
      .step (.mkdirAll name 0o755) fun
        | .did (.ok _) =>
          .step (.openFile name) fun
            | .opened (.ok _) =>
              .step (.stat name) fun
                | .details (.ok d) => pure (d.name == b! "beauty")
                | _ => pure false
            | _ => pure false
        | _ => pure false
    | _ => pure false

/-- `RemoveTest`, pkging/pkgtest/remove.go:10-24; what `LoadFile` does to the Pkger is
pkging/pkgtest/load_ref.go:14-59. -/
def removeTest : Prog Bool :=
  let name := b! "/go.mod"
  .step (.create name) fun
    | .opened (.ok k) =>
      .step (.write k (b! "module app")) fun _ =>
        .step (.close k) fun _ =>
          .step (.stat name) fun
            | .details (.ok _) =>
              .step (.remove name) fun
                | .did (.ok _) =>
                  .step (.stat name) fun
                    | .details (.err _) => pure true
                    | _ => pure false
                | _ => pure false
            | _ => pure false
    | _ => pure false

/-- `RemoveAllTest`, pkging/pkgtest/remove_all.go:10-23. -/
def removeAllTest : Prog Bool :=
  let name := b! "/public/assets"
  .step (.mkdirAll name 0o755) fun
    | .did (.ok _) =>
      .step (.stat name) fun
        | .details (.ok _) =>
          .step (.removeAll name) fun
            | .did (.ok _) =>
              .step (.stat name) fun
                | .details (.err _) => pure true
                | _ => pure false
            | _ => pure false
        | _ => pure false
    | _ => pure false

/-- A test on `mem.New(ref.Info)`. -/
def onMem (p : Prog Bool) : Bool := (Script.mem env p (Mem.new refInfo 1000) []).2.2

/-- The operating system with the project's directory. -/
def refMachine : Machine := (machine.mkdirAll refDir 0o755 Machine.empty).1

/-- A test on `stdos.New(ref.Info)`. -/
def onDisk (p : Prog Bool) : Bool :=
  (Script.disk env machine machineIo machineWrites p (Stdos.new refInfo refMachine) []).2.2

example : [createTest, mkdirAllTest, removeTest, removeAllTest].map onMem = [true, true, true, true] := by
  decide +kernel

example : [createTest, mkdirAllTest, removeTest, removeAllTest].map onDisk = [true, true, true, true] := by
  decide +kernel

/-! ### The in-memory Pkger -/

/-- `LoadFiles`, pkging/pkgtest/load_ref.go:61-153, as far as the Pkger and the result go, for the directory `n` at
`root`. -/
def loadFiles (name : Str) (root : Str) (n : Node) (w : World) : World × List Details × Option Err :=
  let cb : Disk.WalkFn (World × List Details) := fun path n s =>
    if Str.hasPrefix (GoPath.base path) (b! ".") then (s, none)
    else
      let infos := s.2 ++ [n.details]
      match Mem.parse env s.1 (GoPath.join2 name (Str.trimPrefix path root)) with
      | .error e => ((s.1, infos), some e)
      | .ok pt =>
        match n with
        | .dir d _ =>
          match Mem.mkdirAll env s.1 pt.name d.mode with
          | (w, .ok _) => ((w, infos), none)
          | (w, .err e) => ((w, infos), some e)
          | (w, .panic) => ((w, infos), some (.other 0))
        | .file _ data =>
          match Mem.create env s.1 pt.name with
          | (w, .ok id) =>
            let w := if data = [] then w else (Mem.write w id data).1
            (((Mem.close w id).1, infos), none)
          | (w, .err e) => ((w, infos), some e)
          | (w, .panic) => ((w, infos), some (.other 0))
  match Disk.walk cb root n (w, []) with
  | ((w, infos), e) => (w, infos, e)

/-- The bit `os.ModeDir`. -/
def modeDir (m : Nat) : Bool := m / 2147483648 % 2 == 1

/-- `CmpFileInfo`, pkging/pkgtest/pkgtest.go:59-73; the clock does not show zero. -/
def cmpFileInfo (a b : Details) : Bool :=
  a.isDir == b.isDir && a.name == b.name && b.modTime != 0 && (a.isDir == modeDir b.mode)

/-- `WalkTest`, pkging/pkgtest/walk.go:11-36, on a Pkger. -/
def walkTest (w : World) : Bool :=
  match Parser.osStat refDisk (refDir ++ b! "/public") with
  | none => false
  | some n =>
    match loadFiles (b! "/public") (refDir ++ b! "/public") n w with
    | (w, exp, none) =>
      match Mem.walk env (fun _ : List Details => w) (fun _ d l => (l ++ [d], none)) [] (b! "/public") with
      | (act, .ok _) => act.length == exp.length && (List.zip exp act).all fun p => cmpFileInfo p.1 p.2
      | _ => false
    | _ => false

example : walkTest (Mem.new refInfo 1000) = true := by decide +kernel

/-- `OpenTest`, pkging/pkgtest/open.go:14-45: the name is given with two slashes. -/
def openTest (w : World) : Bool :=
  match Mem.create env w (b! "/go.mod") with
  | (w, .ok id) =>
    let w := (Mem.write w id (b! "module app")).1
    let w := (Mem.close w id).1
    match Mem.openFile env w (b! "//go.mod") with
    | (w, .ok id) =>
      match Client.detailsOf w id with
      | .ok d =>
        let r := Mem.read w id 512
        let r' := Mem.read r.1 id 512
        cmpFileInfo ⟨b! "go.mod", 10, 0o644, 1000, false⟩ d && r.2.1 ++ r'.2.1 == b! "module app" &&
          r'.2.2 == some .eof
      | _ => false
    | _ => false
  | _ => false

example : openTest (Mem.new refInfo 1000) = true := by decide +kernel

/-- `CurrentTest` and `InfoTest`, pkging/pkgtest/current.go and info.go. -/
def infoTest (w : World) : Bool := Mem.current w == .ok refInfo && Mem.info w (b! "app") == .ok refInfo

example : infoTest (Mem.new refInfo 1000) = true := by decide +kernel

/-- The name of a handle in `MkdirAllTest`, pkging/pkgtest/mkdir_all.go:26. -/
example :
    (match Mem.mkdirAll env (Mem.new refInfo 1000) (b! "/all/this/useless/beauty") 0o755 with
      | (w, _) =>
        match Mem.openFile env w (b! "/all/this/useless/beauty") with
        | (w, .ok id) => (w.heap id).path.str
        | _ => []) = b! "app:/all/this/useless/beauty" := by decide +kernel

/-- `Test_File_Seek`, pkging/mem/file_test.go:11-62. -/
example :
    (match Mem.create env (Mem.new pkgerInfo 1000) (b! ":/wilco.band") with
      | (w, .ok id) =>
        let w := (Mem.write w id (b! "a shot in the arm")).1
        let w := (Mem.close w id).1
        match Mem.openFile env w (b! ":/wilco.band") with
        | (w, .ok id) =>
          let s1 := Mem.seek w id 0 2
          let s2 := Mem.seek s1.1 id 0 0
          let r1 := Mem.read s2.1 id 512
          let e1 := Mem.read r1.1 id 512
          let s3 := Mem.seek e1.1 id 0 0
          let r2 := Mem.read s3.1 id 512
          let r3 := Mem.read r2.1 id 512
          let s4 := Mem.seek r3.1 id 10 0
          let r4 := Mem.read s4.1 id 512
          some ([s1.2, s2.2, s3.2, s4.2], [r1.2, e1.2, r2.2, r3.2, r4.2])
        | _ => none
      | _ => none) =
    some ([(17, none), (0, none), (0, none), (10, none)],
      [(b! "a shot in the arm", none), ([], some .eof), (b! "a shot in the arm", none), ([], some .eof),
        (b! "the arm", none)]) := by decide +kernel

/-! ### Packaging -/

/-- What `Stuff` makes of the project. -/
def packed : Res World :=
  match Parser.decls env goTool refDisk refInfo [] with
  | .ok ds => Pack.stuffed env ⟨refDisk, Demo.sortFiles, Serial.plainHere, fun _ => 0, 1000⟩ refInfo ds
  | .err e => .err e
  | .panic => .panic

/-- The rest of `Test_Stuff`, pkging/pkgutil/stuff_test.go:53-71, without the encoding in between. -/
example :
    (match packed with
      | .ok w =>
        [infoTest w, openTest w, walkTest w, (Mem.stat env w (b! "/go.mod")).isOk,
          (Mem.stat env w (b! "/public/index.html")).isOk]
      | _ => []) = [true, true, true, true, true] := by decide +kernel

/-- `Test_Pkger_Add`, pkging/mem/add_test.go:13-61: adding every file and directory below a directory one by one, and
then walking, gives the same entries in the same order. -/
example :
    (match Parser.osStat refDisk refDir with
      | some n =>
        let cb : Disk.WalkFn (World × List Details) := fun path n s =>
          match Mem.addOne env s.1 ⟨path, n⟩ with
          | (w, .ok _) => ((w, s.2 ++ [n.details]), none)
          | (w, _) => ((w, s.2), some (.other 0))
        match Disk.walk cb refDir n (Mem.new pkgerInfo 1000, []) with
        | ((w, exp), none) =>
          match Mem.walk env (fun _ : List Details => w) (fun _ d l => (l ++ [d], none)) [] (b! "/") with
          | (act, .ok _) => act == exp && exp.length == 34
          | _ => false
        | _ => false
      | none => false) = true := by decide +kernel

/-- `Test_Encoding`, pkging/embed/embed_test.go:9-22. -/
example :
    Embed.encode env (b! "hi\n") ≠ b! "hi\n" ∧
      Embed.decode env (Embed.encode env (b! "hi\n")) = .ok (b! "hi\n") := by
  decide +kernel

/-- `Test_NewFileInfo`, pkging/file_info_test.go:14-31. -/
example (d : Details) : Mem.newFileInfo d = d := rfl

/-- `Test_Parse`, pkger_test.go:10-17. -/
example :
    env.parse pkgerInfo (b! "github.com/rocket/ship:/little") = .ok ⟨b! "github.com/rocket/ship", b! "/little"⟩ := by
  decide +kernel

end Conformance
end Verif
