import Verif.Model.DiskClient

/-!
Programs that make, read, list and remove files while they run, on the in-memory Pkger and on the Pkger that works
directly on the disk.  The program is the same text for both, as `pkging.Pkger` and `pkging.File` are interfaces
(pkging/pkger.go:10-43, pkging/file.go:10-44).
-/

namespace Verif
namespace Script

open Mem (Details)
open Stdos (Host World File)
open DiskClient (Io res)

/-- A call of the interfaces `pkging.Pkger` and `pkging.File`.  A program names the files it holds by their position in
the list of its files. -/
inductive Call where
  | create (name : Str)
  | openFile (name : Str)
  | write (k : Nat) (b : Str)
  | read (k n : Nat)
  | readdir (k : Nat) (count : Int)
  | close (k : Nat)
  | mkdirAll (p : Str) (perm : Nat)
  | stat (name : Str)
  | remove (name : Str)
  | removeAll (name : Str)

/-- What a call returns. -/
inductive Ans where
  | opened (r : Res Nat)
  | wrote (n : Nat) (e : Option Err)
  | bytes (b : Str) (e : Option Err)
  | entries (r : Res (List Details))
  | did (r : Res Unit)
  | details (r : Res Details)
  /-- There is no such file. -/
  | noHandle
deriving DecidableEq

/-! ### In memory -/

/-- Put a file just obtained at the end of the list. -/
def gotMem (hs : List Nat) (r : Mem.World × Res Nat) : Mem.World × List Nat × Ans :=
  match r with
  | (w, .ok id) => (w, hs ++ [id], .opened (.ok hs.length))
  | (w, .err e) => (w, hs, .opened (.err e))
  | (w, .panic) => (w, hs, .opened .panic)

/-- A call that works on file `k`. -/
def withMem (w : Mem.World) (hs : List Nat) (k : Nat) (f : Nat → Mem.World × List Nat × Ans) : Mem.World × List Nat × Ans :=
  match hs[k]? with
  | none => (w, hs, .noHandle)
  | some id => f id

/-- One call in memory: pkging/mem/mem.go:56-85, :88-123, :126-205 and pkging/mem/file.go:45-91, :125-167. -/
def memCall (E : Env) (w : Mem.World) (hs : List Nat) : Call → Mem.World × List Nat × Ans
  | .create name => gotMem hs (Mem.create E w name)
  | .openFile name => gotMem hs (Mem.openFile E w name)
  | .write k b => withMem w hs k fun id => ((Mem.write w id b).1, hs, .wrote (Mem.write w id b).2 none)
  | .read k n => withMem w hs k fun id => ((Mem.read w id n).1, hs, .bytes (Mem.read w id n).2.1 (Mem.read w id n).2.2)
  | .readdir k count => withMem w hs k fun id => (w, hs, .entries (Mem.readdir E w id count))
  | .close k => withMem w hs k fun id => ((Mem.close w id).1, hs, .did (Mem.close w id).2)
  | .mkdirAll p perm => ((Mem.mkdirAll E w p perm).1, hs, .did (Mem.mkdirAll E w p perm).2)
  | .stat name =>
    (w, hs, .details (match Mem.stat E w name with
      | .ok id => Client.detailsOf w id
      | .err e => .err e
      | .panic => .panic))
  | .remove name => ((Mem.remove E w name).1, hs, .did (Mem.remove E w name).2)
  | .removeAll name => ((Mem.removeAll E w name).1, hs, .did (Mem.removeAll E w name).2)

/-! ### On the disk -/

/-- `(*os.File).Write`, which `stdos.File` inherits (pkging/stdos/file.go:14-20): how many bytes are written, and the
error. -/
structure Writes (S : Type) where
  write : Nat → Str → S → S × Nat × Option Err

variable {S : Type}

/-- An optional error as a result. -/
def unit : Option Err → Res Unit
  | none => .ok ()
  | some e => .err e

/-- Put a file just obtained at the end of the list. -/
def gotDisk (fs : List File) (r : World S × Except Err File) : World S × List File × Ans :=
  match r with
  | (w, .ok f) => (w, fs ++ [f], .opened (.ok fs.length))
  | (w, .error e) => (w, fs, .opened (.err e))

/-- A call that works on file `k`. -/
def withDisk (w : World S) (fs : List File) (k : Nat) (g : File → World S × List File × Ans) : World S × List File × Ans :=
  match fs[k]? with
  | none => (w, fs, .noHandle)
  | some f => g f

/-- One call on the disk: pkging/stdos/stdos.go:32-129, :137-156, :196-223 and pkging/stdos/file.go:14-44. -/
def diskCall (E : Env) (O : Host S) (I : Io S) (W : Writes S) (w : World S) (fs : List File) :
    Call → World S × List File × Ans
  | .create name => gotDisk fs (Stdos.create E O w name)
  | .openFile name => gotDisk fs (Stdos.openFile E O w name)
  | .write k b =>
    withDisk w fs k fun f =>
      ({ w with host := (W.write f.fd b w.host).1 }, fs, .wrote (W.write f.fd b w.host).2.1 (W.write f.fd b w.host).2.2)
  | .read k n =>
    withDisk w fs k fun f =>
      ({ w with host := (I.read f.fd n w.host).1 }, fs, .bytes (I.read f.fd n w.host).2.1 (I.read f.fd n w.host).2.2)
  | .readdir k count =>
    withDisk w fs k fun f => ((Stdos.fileReaddir O w f count).1, fs, .entries (res (Stdos.fileReaddir O w f count).2))
  | .close k =>
    withDisk w fs k fun f => ((Stdos.closeFile O w f).1, fs, .did (unit (Stdos.closeFile O w f).2))
  | .mkdirAll p perm => ((Stdos.mkdirAll E O w p perm).1, fs, .did (unit (Stdos.mkdirAll E O w p perm).2))
  | .stat name => ((Stdos.stat E O w name).1, fs, .details (res (Stdos.stat E O w name).2))
  | .remove name => ((Stdos.remove E O w name).1, fs, .did (unit (Stdos.remove E O w name).2))
  | .removeAll name => ((Stdos.removeAll E O w name).1, fs, .did (unit (Stdos.removeAll E O w name).2))

/-! ### Programs -/

/-- A program with result of type `α`: the next call and what to do with its answer. -/
inductive Prog (α : Type) where
  | ret (a : α)
  | step (c : Call) (k : Ans → Prog α)

/-- One program after the other. -/
def Prog.bind {α β : Type} : Prog α → (α → Prog β) → Prog β
  | .ret a, f => f a
  | .step c k, f => .step c fun r => (k r).bind f

instance : Monad Prog where
  pure := Prog.ret
  bind := Prog.bind

/-- A program that runs alone, in memory. -/
def mem {α : Type} (E : Env) : Prog α → Mem.World → List Nat → Mem.World × List Nat × α
  | .ret a, w, hs => (w, hs, a)
  | .step c k, w, hs =>
    let (w', hs', r) := memCall E w hs c
    mem E (k r) w' hs'

/-- A program that runs alone, on the disk. -/
def disk {α : Type} (E : Env) (O : Host S) (I : Io S) (W : Writes S) : Prog α → World S → List File → World S × List File × α
  | .ret a, w, fs => (w, fs, a)
  | .step c k, w, fs =>
    let (w', fs', r) := diskCall E O I W w fs c
    disk E O I W (k r) w' fs'

theorem mem_bind {α β : Type} (E : Env) (p : Prog α) (f : α → Prog β) (w : Mem.World) (hs : List Nat) :
    mem E (p >>= f) w hs = mem E (f (mem E p w hs).2.2) (mem E p w hs).1 (mem E p w hs).2.1 := by
  show mem E (p.bind f) w hs = _
  induction p generalizing w hs with
  | ret a => rfl
  | step c k ih => simp only [Prog.bind, mem, ih]

theorem disk_bind {α β : Type} (E : Env) (O : Host S) (I : Io S) (W : Writes S) (p : Prog α) (f : α → Prog β) (w : World S)
    (fs : List File) :
    disk E O I W (p >>= f) w fs =
      disk E O I W (f (disk E O I W p w fs).2.2) (disk E O I W p w fs).1 (disk E O I W p w fs).2.1 := by
  show disk E O I W (p.bind f) w fs = _
  induction p generalizing w fs with
  | ret a => rfl
  | step c k ih => simp only [Prog.bind, disk, ih]

@[simp] theorem mem_pure {α : Type} (E : Env) (a : α) (w : Mem.World) (hs : List Nat) :
    mem E (pure a : Prog α) w hs = (w, hs, a) := rfl

@[simp] theorem disk_pure {α : Type} (E : Env) (O : Host S) (I : Io S) (W : Writes S) (a : α) (w : World S) (fs : List File) :
    disk E O I W (pure a : Prog α) w fs = (w, fs, a) := rfl

/-! ### What programs usually do -/

/-- One thing a program does with the files of its own module, named by their elements. -/
inductive Act where
  /-- Create the file, write these chunks, close it. -/
  | put (es : List Str) (chunks : List Str)
  /-- Open the file, read it to the end with buffers of these sizes, close it. -/
  | get (es : List Str) (sizes : List Nat)
  | mkdirAll (es : List Str) (perm : Nat)
  | stat (es : List Str)
  /-- Open the directory, read all its entries, close it. -/
  | list (es : List Str)
  | remove (es : List Str)
  | removeAll (es : List Str)

/-- The elements of the name. -/
def Act.elems : Act → List Str
  | .put es _ => es
  | .get es _ => es
  | .mkdirAll es _ => es
  | .stat es => es
  | .list es => es
  | .remove es => es
  | .removeAll es => es

/-- What a program gets to know.  Of errors it only asks whether there was one. -/
inductive Out where
  | done (ok : Bool)
  /-- The content, if the end was reached. -/
  | content (b : Option Str)
  /-- Whether it is a directory, and the size if it is not. -/
  | about (d : Option (Option Int))
  /-- The names in the directory, in lexical order, and which are directories. -/
  | names (l : Option (List (Str × Bool)))
deriving DecidableEq

/-- Did it work? -/
def Ans.good : Ans → Bool
  | .did (.ok _) => true
  | _ => false

/-- `f.Write` for each chunk, up to the first error. -/
def writeAll (k : Nat) : List Str → Prog Bool
  | [] => pure true
  | b :: bs => .step (.write k b) fun
    | .wrote _ none => writeAll k bs
    | _ => pure false

/-- `f.Read` with buffers of these sizes, up to the first error; the content if this is `io.EOF`. -/
def readAll (k : Nat) : List Nat → Str → Prog (Option Str)
  | [], _ => pure none
  | n :: ns, acc => .step (.read k n) fun
    | .bytes b none => readAll k ns (acc ++ b)
    | .bytes b (some .eof) => pure (some (acc ++ b))
    | _ => pure none

/-- What a program looks at in the details. -/
def about (d : Details) : Option Int := if d.isDir then none else some d.size

/-- What a program looks at in a listing. -/
def names (l : List Details) : List (Str × Bool) := sortBy (·.1) (l.map fun d => (d.name, d.isDir))

/-- The calls for it. -/
def Act.prog : Act → Prog Out
  | .put es chunks => .step (.create (GoPath.mk es)) fun
    | .opened (.ok k) => do
      let wrote ← writeAll k chunks
      .step (.close k) fun r => pure (.done (wrote && r.good))
    | _ => pure (.done false)
  | .get es sizes => .step (.openFile (GoPath.mk es)) fun
    | .opened (.ok k) => do
      let b ← readAll k sizes []
      .step (.close k) fun _ => pure (.content b)
    | _ => pure (.content none)
  | .mkdirAll es perm => .step (.mkdirAll (GoPath.mk es) perm) fun r => pure (.done r.good)
  | .stat es => .step (.stat (GoPath.mk es)) fun
    | .details (.ok d) => pure (.about (some (about d)))
    | _ => pure (.about none)
  | .list es => .step (.openFile (GoPath.mk es)) fun
    | .opened (.ok k) => .step (.readdir k (-1)) fun a => .step (.close k) fun _ =>
      match a with
      | .entries (.ok l) => pure (.names (some (names l)))
      | _ => pure (.names none)
    | _ => pure (.names none)
  | .remove es => .step (.remove (GoPath.mk es)) fun r => pure (.done r.good)
  | .removeAll es => .step (.removeAll (GoPath.mk es)) fun r => pure (.done r.good)

/-- A program that does such things, each chosen after what it got to know before. -/
inductive Plan (α : Type) where
  | ret (a : α)
  | act (a : Act) (k : Out → Plan α)

/-- The calls for it. -/
def Plan.prog {α : Type} : Plan α → Prog α
  | .ret a => pure a
  | .act a k => a.prog >>= fun o => (k o).prog

end Script
end Verif
