import Verif.Model.DiskClient

/-!
Several goroutines that use the Pkger that works directly on the disk at the same time.

Between any two system calls, and between looking into the map of packages, asking the Go tool and storing its answer
(pkging/stdos/stdos.go:70-82), the others may run.  `sync.Map` (internal/maps/infos.go) makes single accesses to the map
atomic.  The Pkger's map is made in `New` before anybody else has the Pkger (stdos.go:22-29), so that its lazy creation
does not matter here.  Simplification: `filepath.Walk` takes in the tree in one step; the files opened by a goroutine
are its own values, the files it starts with are copies of those it shares with others, which makes no difference,
since `Stat` of a file writes to it only if it has no details, and `Open` provides them.
-/

namespace Verif
namespace DiskFine

open Mem (Details newFileInfo upd)
open Disk (Node)
open Stdos (Host World File)
open DiskClient (Io)
open Client (Call Ans Prog)

variable {S : Type} {α β : Type}

/-- A system call. -/
inductive Sys where
  /-- `os.Open`, stdos.go:110. -/
  | openFile (name : Str)
  /-- `(*os.File).Stat`, stdos.go:122, file.go:67. -/
  | fstat (fd : Nat)
  /-- `(*os.File).Readdir`, file.go:43. -/
  | readdir (fd : Nat) (count : Int)
  /-- `(*os.File).Close`, file.go:24. -/
  | close (fd : Nat)
  /-- `os.Stat`, stdos.go:148. -/
  | stat (name : Str)
  /-- What `filepath.Walk` finds, stdos.go:171. -/
  | tree (name : Str)
  /-- `(*os.File).Read`, inherited by `File`, file.go:14-20. -/
  | read (fd n : Nat)
  /-- `(*os.File).Seek`, inherited by `File`, file.go:14-20. -/
  | seek (fd : Nat) (off whence : Int)

/-- What it returns. -/
abbrev Sys.Reply : Sys → Type
  | .openFile _ => Except Err Nat
  | .fstat _ => Except Err Details
  | .readdir _ _ => Except Err (List Details)
  | .close _ => Option Err
  | .stat _ => Except Err Details
  | .tree _ => Except Err Node
  | .read _ _ => Str × Option Err
  | .seek _ _ _ => Int × Option Err

/-- The operating system carries it out. -/
def Sys.run (O : Host S) (I : Io S) : (c : Sys) → S → S × c.Reply
  | .openFile name, s => O.openFile name s
  | .fstat fd, s => O.fstat fd s
  | .readdir fd n, s => O.readdir fd n s
  | .close fd, s => O.close fd s
  | .stat name, s => O.stat name s
  | .tree name, s => O.tree name s
  | .read fd n, s => I.read fd n s
  | .seek fd off wh, s => I.seek fd off wh s

/-- What a goroutine has still to do: nothing, `Info` of a package, or a system call; what comes then depends on the
answer. -/
inductive Acts (α : Type) where
  | ret (a : α)
  | info (p : Str) (k : Except Err Info → Acts α)
  | sys (c : Sys) (k : c.Reply → Acts α)

namespace Acts

/-- One after the other. -/
def bind : Acts α → (α → Acts β) → Acts β
  | ret a, f => f a
  | info p k, f => info p fun r => (k r).bind f
  | sys c k, f => sys c fun r => (k r).bind f

instance : Monad Acts where
  pure := ret
  bind := bind

/-- A goroutine that runs alone. -/
def exec (O : Host S) (I : Io S) : Acts α → World S → World S × α
  | ret a, w => (w, a)
  | info p k, w => (k (Stdos.info O w p).2).exec O I (Stdos.info O w p).1
  | sys c k, w => (k (c.run O I w.host).2).exec O I { w with host := (c.run O I w.host).1 }

end Acts

/-! ### The calls, step by step -/

/-- `Info`, stdos.go:70-82. -/
def infoA (p : Str) : Acts (Except Err Info) := .info p .ret

/-- A system call and its answer. -/
def sysA (c : Sys) : Acts c.Reply := .sys c .ret

/-- `Parse` and `Info`, with which all operations begin (stdos.go:99-107, 138-146, 160-168).  The Pkger's own package,
which `Parse` uses, does not change. -/
def locateA (E : Env) (here : Info) (name : Str) : Acts (Except Err (Path × Info)) :=
  match E.parse here name with
  | .error e => .ret (.error e)
  | .ok pt => infoA pt.pkg >>= fun
    | .error e => .ret (.error e)
    | .ok her => .ret (.ok (pt, her))

/-- `Open`, stdos.go:98-129. -/
def openA (E : Env) (here : Info) (name : Str) : Acts (Except Err File) :=
  locateA E here name >>= fun
    | .error e => .ret (.error e)
    | .ok (pt, her) => sysA (.openFile (GoPath.join2 her.dir pt.name)) >>= fun
      | .error e => .ret (.error e)
      | .ok fd => sysA (.fstat fd) >>= fun
        | .error e => .ret (.error e)
        | .ok d => .ret (.ok ⟨fd, some (newFileInfo d), her, pt⟩)

/-- `Stat`, stdos.go:137-156. -/
def statA (E : Env) (here : Info) (name : Str) : Acts (Except Err Details) :=
  locateA E here name >>= fun
    | .error e => .ret (.error e)
    | .ok (pt, her) => sysA (.stat (GoPath.join2 her.dir pt.name)) >>= fun
      | .error e => .ret (.error e)
      | .ok d => .ret (.ok (newFileInfo d))

/-- `File.Stat`, file.go:62-73: the file, possibly with details, and the answer. -/
def fileStatA (f : File) : Acts (File × Except Err Details) :=
  match f.info with
  | some d => .ret (f, .ok d)
  | none => sysA (.fstat f.fd) >>= fun
    | .error e => .ret (f, .error e)
    | .ok d => .ret ({ f with info := some (newFileInfo d) }, .ok (newFileInfo d))

/-- The callback of `Walk`, stdos.go:171-190, for a user's callback that writes down what it is told. -/
def visitA (E : Env) (here : Info) (pkg path : Str) (n : Node) (l : List (Str × Details)) :
    Acts (List (Str × Details) × Option Err) :=
  match E.parse here (pkg ++ Str.colon :: path) with
  | .error e => .ret (l, some e)
  | .ok pt => infoA pt.pkg >>= fun
    | .error e => .ret (l, some e)
    | .ok i =>
      .ret (l ++ [(Path.str ⟨pt.pkg, Str.replaceByte (Str.trimPrefix path i.dir) Str.backslash Str.slash⟩,
        newFileInfo n.details)], none)

mutual
/-- `filepath.Walk` below a path, as `Disk.walkNode` (stdos.go:171). -/
def walkNodeA (E : Env) (here : Info) (pkg path : Str) : Node → List (Str × Details) → Acts (List (Str × Details) × Option Err)
  | .file d b, l => visitA E here pkg path (.file d b) l
  | .dir d kids, l => visitA E here pkg path (.dir d kids) l >>= fun
    | (l', some e) => .ret (l', some e)
    | (l', none) => walkKidsA E here pkg path kids l'

/-- Its loop, as `Disk.walkKids` (stdos.go:171). -/
def walkKidsA (E : Env) (here : Info) (pkg path : Str) :
    List (Str × Node) → List (Str × Details) → Acts (List (Str × Details) × Option Err)
  | [], l => .ret (l, none)
  | (name, n) :: rest, l => walkNodeA E here pkg (GoPath.join2 path name) n l >>= fun
    | (l', none) => walkKidsA E here pkg path rest l'
    | (l', some e) => if n.isDir = true ∧ e = .skipDir then walkKidsA E here pkg path rest l' else .ret (l', some e)
end

/-- `Walk`, stdos.go:159-193. -/
def walkA (E : Env) (here : Info) (p : Str) : Acts (List (Str × Details) × Option Err) :=
  locateA E here p >>= fun
    | .error e => .ret ([], some e)
    | .ok (pt, her) => sysA (.tree (GoPath.join2 her.dir pt.name)) >>= fun
      | .error e => .ret ([], some e)
      | .ok n => walkNodeA E here pt.pkg (GoPath.join2 her.dir pt.name) n [] >>= fun
        | (l, some .skipDir) => .ret (l, none)
        | (l, r) => .ret (l, r)

/-- Put a file just opened at the end of the list. -/
def obtainedA (fs : List File) : Except Err File → Acts (List File × Ans)
  | .ok f => .ret (fs ++ [f], .opened (.ok fs.length))
  | .error e => .ret (fs, .opened (.err e))

/-- A call that works on file `k`. -/
def withFileA (fs : List File) (k : Nat) (g : File → Acts (List File × Ans)) : Acts (List File × Ans) :=
  match fs[k]? with
  | none => .ret (fs, .noHandle)
  | some f => g f

/-- One call: the goroutine's files and the answer; as `DiskClient.call` (stdos.go:98-193, file.go:14-73). -/
def callA (E : Env) (here : Info) (fs : List File) : Call → Acts (List File × Ans)
  | .openFile name => openA E here name >>= obtainedA fs
  | .openIn k name => withFileA fs k fun f => openA E here (GoPath.join2 f.path.name name) >>= obtainedA fs
  | .stat name => statA E here name >>= fun r => .ret (fs, .details (DiskClient.res r))
  | .fileStat k => withFileA fs k fun f => fileStatA f >>= fun r => .ret (fs.set k r.1, .details (DiskClient.res r.2))
  | .readdir k count =>
    withFileA fs k fun f => sysA (.readdir f.fd count) >>= fun r => .ret (fs, .entries (DiskClient.res r))
  | .read k n => withFileA fs k fun f => sysA (.read f.fd n) >>= fun r => .ret (fs, .bytes r.1 r.2)
  | .seek k off whence => withFileA fs k fun f => sysA (.seek f.fd off whence) >>= fun r => .ret (fs, .pos r.1 r.2)
  | .close k =>
    withFileA fs k fun f => sysA (.close f.fd) >>= fun r => .ret (fs, .closed (match r with
      | none => .ok ()
      | some e => .err e))
  | .walk p => walkA E here p >>= fun r => .ret (fs, .walked r.1 (match r.2 with
      | none => .ok ()
      | some e => .err e))
  | .fileName k => withFileA fs k fun f => .ret (fs, .name (Stdos.fileName f))

/-- A program that makes such calls. -/
def progA (E : Env) (here : Info) : Prog α → List File → Acts α
  | .ret a, _ => .ret a
  | .step c k, fs => callA E here fs c >>= fun r => progA E here (k r.2) r.1

/-! ### Goroutines -/

/-- Where a goroutine is. -/
inductive Thread (α : Type) where
  /-- It is about to do this. -/
  | run (a : Acts α)
  /-- It is in `Info` and has not found the package in the map (stdos.go:71-74). -/
  | asking (p : Str) (k : Except Err Info → Acts α)
  /-- It is in `Info` and the Go tool has answered (stdos.go:76-79). -/
  | storing (p : Str) (i : Info) (k : Except Err Info → Acts α)

/-- The Pkger and the goroutines. -/
structure State (S α : Type) where
  w : World S
  threads : Nat → Thread α

/-- The next step of a goroutine; for `Info` these are the lines stdos.go:71-74, :76-79 and :80-81. -/
def Thread.next (O : Host S) (I : Io S) (w : World S) : Thread α → World S × Thread α
  | .run (.ret a) => (w, .run (.ret a))
  | .run (.sys c k) => ({ w with host := (c.run O I w.host).1 }, .run (k (c.run O I w.host).2))
  | .run (.info p k) =>
    match AMap.get w.infos p with
    | some i => (w, .run (k (.ok i)))
    | none => (w, .asking p k)
  | .asking p k =>
    match O.package p w.host with
    | (h, .error e) => ({ w with host := h }, .run (k (.error e)))
    | (h, .ok i) => ({ w with host := h }, .storing p i k)
  | .storing p i k => ({ w with infos := AMap.set w.infos p i }, .run (k (.ok i)))

/-- Goroutine `t` makes its next step. -/
def State.step (O : Host S) (I : Io S) (s : State S α) (t : Nat) : State S α :=
  { w := ((s.threads t).next O I s.w).1, threads := upd s.threads t ((s.threads t).next O I s.w).2 }

/-- The goroutines make steps in the given order. -/
def State.run (O : Host S) (I : Io S) (s : State S α) (sched : List Nat) : State S α := sched.foldl (State.step O I) s

end DiskFine
end Verif
