import Verif.Model.DiskClient

/-!
Programs that only read, as one writes them with this package (examples/open/pkger/main.go:18-39,
examples/stat/pkger/main.go:16-28, examples/walk/pkger/main.go:19-39): they ask for something, look at what they get,
and go on.  Each question is one call of the API or, for the content of a file, a loop of calls of `Read`; what the
program looks at is the value it gets, and of an error only whether `os.IsNotExist` holds of it or, when reading, whether
it is `io.EOF`.  The same program runs on the disk (`DiskClient.exec`) and on embedded files (`Client.Prog.exec`).
-/

namespace Verif
namespace Reader

open Mem (Details)
open Client (Prog)

/-- What a program asks. -/
inductive Ask where
  /-- `pkger.Open(name)`, pkger.go:68-70. -/
  | openFile (name : Str)
  /-- `d.Open("/c₁/.../cₙ")` of a file obtained before, pkging/file.go:21. -/
  | openIn (k : Nat) (cs : List Str)
  /-- `pkger.Stat(name)`, pkger.go:73-75. -/
  | stat (name : Str)
  /-- `_, err := pkger.Stat(name)`, of which only `err == nil` matters. -/
  | has (name : Str)
  /-- `f.Stat()`, pkging/file.go:40. -/
  | fileStat (k : Nat)
  /-- `f.Readdir(-1)`, pkging/file.go:34, and sorting the entries by name, as `ioutil.ReadDir` does. -/
  | list (k : Nat)
  /-- Reading until there are `n` bytes or there is an error, as `io.ReadFull` does and, if `n` is large enough,
  `ioutil.ReadAll` and `io.Copy` (examples/open/pkger/main.go:39). -/
  | read (k n : Nat)
  /-- `f.Seek(off, io.SeekStart)`, pkging/file.go:37. -/
  | seek (k off : Nat)
  /-- `f.Close()`, pkging/file.go:12. -/
  | close (k : Nat)
  /-- `f.Name()`, pkging/file.go:18. -/
  | fileName (k : Nat)
  /-- `pkger.Walk(name, …)`, pkger.go:78-80, with a callback that writes down what it is told. -/
  | walk (name : Str)

/-- What a program sees. -/
inductive Seen where
  /-- The file just opened: the program's `k`-th. -/
  | handle (k : Nat)
  | details (d : Details)
  | yes (b : Bool)
  | entries (l : List Details)
  | bytes (b : Str)
  | pos (p : Int)
  | closed
  | name (s : Str)
  | walked (l : List (Str × Details))
  /-- An error of which `os.IsNotExist` holds. -/
  | missing
  /-- Any other error, or a panic. -/
  | trouble
deriving DecidableEq, Repr

/-- The two kinds of errors. -/
def failed (e : Err) : Seen := if e.isNotExist then .missing else .trouble

/-- The loop of `io.ReadFull` and `ioutil.ReadAll`: the bytes, and whether there was no other error than `io.EOF`.  (If
the file delivered nothing without an error, the real loop would not end; this one does.) -/
def fill (k : Nat) : Nat → Nat → Prog (Str × Bool)
  | 0, _ => pure ([], true)
  | fuel + 1, n =>
    if n = 0 then pure ([], true)
    else
      Client.read k n >>= fun
        | (b, some e) => pure (b, e == .eof)
        | (b, none) => fill k fuel (n - b.length) >>= fun (b', o) => pure (b ++ b', o)

/-- The calls that answer a question. -/
def Ask.prog : Ask → Prog Seen
  | .openFile name =>
    Client.openFile name >>= fun
      | .ok k => pure (.handle k)
      | .err e => pure (failed e)
      | .panic => pure .trouble
  | .openIn k cs =>
    Client.openIn k (GoPath.mk cs) >>= fun
      | .ok k => pure (.handle k)
      | .err e => pure (failed e)
      | .panic => pure .trouble
  | .stat name =>
    .step (.stat name) fun
      | .details (.ok d) => .ret (.details d)
      | .details (.err e) => .ret (failed e)
      | _ => .ret .trouble
  | .has name =>
    .step (.stat name) fun
      | .details (.ok _) => .ret (.yes true)
      | .details (.err _) => .ret (.yes false)
      | _ => .ret .trouble
  | .fileStat k =>
    Client.stat k >>= fun
      | .ok d => pure (.details d)
      | .err e => pure (failed e)
      | .panic => pure .trouble
  | .list k =>
    Client.readdir k (-1) >>= fun
      | .ok l => pure (.entries (sortBy (·.name) l))
      | .err e => pure (failed e)
      | .panic => pure .trouble
  | .read k n => fill k n n >>= fun (b, o) => pure (if o then .bytes b else .trouble)
  | .seek k off =>
    .step (.seek k off 0) fun
      | .pos p none => .ret (.pos p)
      | _ => .ret .trouble
  | .close k =>
    .step (.close k) fun
      | .closed (.ok _) => .ret .closed
      | _ => .ret .trouble
  | .fileName k =>
    .step (.fileName k) fun
      | .name s => .ret (.name s)
      | _ => .ret .trouble
  | .walk name =>
    .step (.walk name) fun
      | .walked l (.ok _) => .ret (.walked l)
      | _ => .ret .trouble

/-- A program: the next question, and how to go on after what it sees. -/
inductive Plan (α : Type) where
  | ret (a : α)
  | ask (q : Ask) (k : Seen → Plan α)

/-- The calls of a program. -/
def Plan.prog {α : Type} : Plan α → Prog α
  | .ret a => pure a
  | .ask q k => q.prog >>= fun s => (k s).prog

/-! ### The examples of the repository -/

/-- examples/open/pkger/main.go:18-39 with another name: what it prints, or nothing if there is an error.  The `Copy` of
:39 is reading until the end; `n` is a number of bytes that the file does not have. -/
def openExample (name : Str) (n : Nat) : Plan (Option (Details × Str)) :=
  .ask (.openFile name) fun
    | .handle k => .ask (.fileStat k) fun
      | .details d => .ask (.read k n) fun
        | .bytes b => .ask (.close k) fun _ => .ret (some (d, b))
        | _ => .ask (.close k) fun _ => .ret none
      | _ => .ask (.close k) fun _ => .ret none
    | _ => .ret none

/-- examples/stat/pkger/main.go:16-28 with another name. -/
def statExample (name : Str) : Plan (Option Details) :=
  .ask (.stat name) fun
    | .details d => .ret (some d)
    | _ => .ret none

/-- examples/walk/pkger/main.go:19-39 with another name: the lines of the table (:28-34). -/
def walkExample (name : Str) : Plan (Option (List Details)) :=
  .ask (.walk name) fun
    | .walked l => .ret (some (l.map (·.2)))
    | _ => .ret none

end Reader
end Verif
