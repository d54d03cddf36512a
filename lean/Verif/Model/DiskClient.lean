import Verif.Model.Http
import Verif.Model.Stdos

/-!
The same reading programs, in particular the file server, on the Pkger that works directly on the disk.  This is what
`pkger serve` does (cmd/pkger/cmds/serve.go:42-60), and what a program does that has not been packaged.
-/

namespace Verif
namespace DiskClient

open Mem (Details)
open Client (Call Ans Prog)
open Stdos (Host World File)

/-- The calls on an open file that `stdos.File` inherits from the embedded `*os.File` (pkging/stdos/file.go:14-20). -/
structure Io (S : Type) where
  /-- `(*os.File).Read` with a buffer of so many bytes. -/
  read : Nat → Nat → S → S × Str × Option Err
  /-- `(*os.File).Seek`. -/
  seek : Nat → Int → Int → S → S × Int × Option Err

variable {S : Type}

/-- Errors are never panics here. -/
def res {α : Type} : Except Err α → Res α
  | .ok a => .ok a
  | .error e => .err e

/-- Put a file just opened at the end of the list. -/
def obtained (fs : List File) (r : World S × Except Err File) : World S × List File × Ans :=
  match r with
  | (w, .ok f) => (w, fs ++ [f], .opened (.ok fs.length))
  | (w, .error e) => (w, fs, .opened (.err e))

/-- A call that works on file `k`. -/
def withFile (w : World S) (fs : List File) (k : Nat) (g : File → World S × List File × Ans) : World S × List File × Ans :=
  match fs[k]? with
  | none => (w, fs, .noHandle)
  | some f => g f

/-- The callback that writes down what it is told. -/
def note (p : Str) (d : Details) (l : List (Str × Details)) : List (Str × Details) × Option Err := (l ++ [(p, d)], none)

/-- One call: the Pkger, the open files and the answer. -/
def call (E : Env) (O : Host S) (I : Io S) (w : World S) (fs : List File) : Call → World S × List File × Ans
  /- `Pkger.Open`, pkging/stdos/stdos.go:98-129. -/
  | .openFile name => obtained fs (Stdos.openFile E O w name)
  /- `File.Open`, pkging/stdos/file.go:47-54. -/
  | .openIn k name => withFile w fs k fun f => obtained fs (Stdos.fileOpen E O w f name)
  /- `Pkger.Stat`, pkging/stdos/stdos.go:137-156. -/
  | .stat name => ((Stdos.stat E O w name).1, fs, .details (res (Stdos.stat E O w name).2))
  /- `File.Stat`, pkging/stdos/file.go:62-73. -/
  | .fileStat k =>
    withFile w fs k fun f =>
      ((Stdos.fileStat O w f).1, fs.set k (Stdos.fileStat O w f).2.1, .details (res (Stdos.fileStat O w f).2.2))
  /- `File.Readdir`, pkging/stdos/file.go:42-44. -/
  | .readdir k count =>
    withFile w fs k fun f => ((Stdos.fileReaddir O w f count).1, fs, .entries (res (Stdos.fileReaddir O w f count).2))
  /- `Read` of the embedded `*os.File`. -/
  | .read k n =>
    withFile w fs k fun f =>
      ({ w with host := (I.read f.fd n w.host).1 }, fs, .bytes (I.read f.fd n w.host).2.1 (I.read f.fd n w.host).2.2)
  /- `Seek` of the embedded `*os.File`. -/
  | .seek k off whence =>
    withFile w fs k fun f =>
      ({ w with host := (I.seek f.fd off whence w.host).1 }, fs,
        .pos (I.seek f.fd off whence w.host).2.1 (I.seek f.fd off whence w.host).2.2)
  /- `File.Close`, pkging/stdos/file.go:23-25. -/
  | .close k =>
    withFile w fs k fun f =>
      ((Stdos.closeFile O w f).1, fs, .closed (match (Stdos.closeFile O w f).2 with
        | none => .ok ()
        | some e => .err e))
  /- `Pkger.Walk`, pkging/stdos/stdos.go:159-193. -/
  | .walk p =>
    ((Stdos.walk E O w p note []).1, fs, .walked (Stdos.walk E O w p note []).2.1 (match (Stdos.walk E O w p note []).2.2 with
      | none => .ok ()
      | some e => .err e))
  /- `File.Name`, pkging/stdos/file.go:33-35. -/
  | .fileName k => withFile w fs k fun f => (w, fs, .name (Stdos.fileName f))

/-- A program that runs alone. -/
def exec {α : Type} (E : Env) (O : Host S) (I : Io S) : Prog α → World S → List File → World S × List File × α
  | .ret a, w, fs => (w, fs, a)
  | .step c k, w, fs =>
    let (w', fs', r) := call E O I w fs c
    exec E O I (k r) w' fs'

theorem exec_bind {α β : Type} (E : Env) (O : Host S) (I : Io S) (p : Prog α) (f : α → Prog β) (w : World S)
    (fs : List File) :
    exec E O I (p >>= f) w fs =
      exec E O I (f (exec E O I p w fs).2.2) (exec E O I p w fs).1 (exec E O I p w fs).2.1 := by
  show exec E O I (p.bind f) w fs = _
  induction p generalizing w fs with
  | ret a => rfl
  | step c k ih => simp only [Prog.bind, exec, ih]

@[simp] theorem exec_pure {α : Type} (E : Env) (O : Host S) (I : Io S) (a : α) (w : World S) (fs : List File) :
    exec E O I (pure a : Prog α) w fs = (w, fs, a) := rfl

/-- Requests one after the other, each with the program's first files only (what a request opens is forgotten with it). -/
def serveAll (E : Env) (O : Host S) (I : Io S) (C : Http.Server) (src : Http.Source) (fs : List File) :
    List Http.Request → World S → World S × List Http.Resp
  | [], w => (w, [])
  | r :: rs, w =>
    let (w1, _, a) := exec E O I (Http.serve C src r) w fs
    let (w2, as) := serveAll E O I C src fs rs w1
    (w2, a :: as)

/-- `pkger serve`, cmd/pkger/cmds/serve.go:42-60: the path in the first argument, or `.`, is opened and served, here for
the given requests, until the server stops; then the file is closed.  Printing the path is left out.  The error of a
path that cannot be opened is returned. -/
def serveCmd (E : Env) (O : Host S) (I : Io S) (C : Http.Server) (w : World S) (args : List Str)
    (rs : List Http.Request) : World S × Except Err (List Http.Resp) :=
  match Stdos.openFile E O w (args.headD (b! ".")) with
  | (w1, .error e) => (w1, .error e)
  | (w1, .ok f) =>
    let (w2, as) := serveAll E O I C .handle [f] rs w1
    ((Stdos.closeFile O w2 f).1, .ok as)

end DiskClient
end Verif
