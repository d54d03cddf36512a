import Verif.Model.Mem

/-!
Programs that use an in-memory Pkger without changing it.

A program decides after every call, from the answers so far, what to call next.  It names the file handles it has
obtained by their position in the list of its own handles, so that it cannot get hold of anybody else's.
-/

namespace Verif
namespace Client

open Mem

/-- A call that reads. -/
inductive Call where
  /-- `Pkger.Open`, pkging/mem/mem.go:165-192. -/
  | openFile (name : Str)
  /-- `File.Open`, pkging/mem/file.go:170-203. -/
  | openIn (k : Nat) (name : Str)
  /-- `Pkger.Stat` and looking at the result, pkging/mem/mem.go:195-205. -/
  | stat (name : Str)
  /-- `File.Stat` and looking at the result, pkging/mem/file.go:99-104. -/
  | fileStat (k : Nat)
  /-- `File.Readdir`, pkging/mem/file.go:125-167. -/
  | readdir (k : Nat) (count : Int)
  /-- `File.Read`, pkging/mem/file.go:72-82. -/
  | read (k : Nat) (n : Nat)
  /-- `File.Seek`, pkging/mem/file.go:33-42. -/
  | seek (k : Nat) (off whence : Int)
  /-- `File.Close`, pkging/mem/file.go:45-69. -/
  | close (k : Nat)
  /-- `Pkger.Walk` with a callback that writes down what it is told, pkging/mem/mem.go:208-252. -/
  | walk (p : Str)
  /-- `File.Name`, pkging/mem/file.go:107-109. -/
  | fileName (k : Nat)

/-- What a call returns.  A new handle is named by its position in the list of handles. -/
inductive Ans where
  | opened (r : Res Nat)
  | details (r : Res Details)
  | entries (r : Res (List Details))
  | bytes (b : Str) (e : Option Err)
  | pos (p : Int) (e : Option Err)
  | closed (r : Res Unit)
  | walked (l : List (Str × Details)) (r : Res Unit)
  | name (s : Str)
  /-- There is no such handle. -/
  | noHandle
deriving DecidableEq, Repr

/-- The details of the file object `id`. -/
def detailsOf (w : World) (id : Nat) : Res Details :=
  match (w.heap id).info with
  | none => .err .notExist
  | some d => .ok d

/-- The callback that writes down what it is told. -/
def note (p : Str) (d : Details) (l : List (Str × Details)) : List (Str × Details) × Option Err := (l ++ [(p, d)], none)

/-- Put a handle just obtained at the end of the list. -/
def obtained (hs : List Nat) (r : World × Res Nat) : World × List Nat × Ans :=
  match r with
  | (w, .ok id) => (w, hs ++ [id], .opened (.ok hs.length))
  | (w, .err e) => (w, hs, .opened (.err e))
  | (w, .panic) => (w, hs, .opened .panic)

/-- A call that works on handle `k`. -/
def withHandle (w : World) (hs : List Nat) (k : Nat) (f : Nat → World × List Nat × Ans) : World × List Nat × Ans :=
  match hs[k]? with
  | none => (w, hs, .noHandle)
  | some id => f id

/-- One call: the Pkger, the handles and the answer. -/
def call (E : Env) (w : World) (hs : List Nat) : Call → World × List Nat × Ans
  | .openFile name => obtained hs (Mem.openFile E w name)
  | .openIn k name => withHandle w hs k fun id => obtained hs (Mem.fileOpen E w id name)
  | .stat name =>
    (w, hs, .details (match Mem.stat E w name with
      | .ok id => detailsOf w id
      | .err e => .err e
      | .panic => .panic))
  | .fileStat k => withHandle w hs k fun id => (w, hs, .details (detailsOf w id))
  | .readdir k count => withHandle w hs k fun id => (w, hs, .entries (Mem.readdir E w id count))
  | .read k n => withHandle w hs k fun id => ((Mem.read w id n).1, hs, .bytes (Mem.read w id n).2.1 (Mem.read w id n).2.2)
  | .seek k off whence =>
    withHandle w hs k fun id =>
      ((Mem.seek w id off whence).1, hs, .pos (Mem.seek w id off whence).2.1 (Mem.seek w id off whence).2.2)
  | .close k => withHandle w hs k fun id => ((Mem.close w id).1, hs, .closed (Mem.close w id).2)
  | .walk p => (w, hs, .walked (Mem.walk E (fun _ => w) note [] p).1 (Mem.walk E (fun _ => w) note [] p).2)
  | .fileName k => withHandle w hs k fun id => (w, hs, .name (w.heap id).path.str)

/-- A program with result of type `α`: the next call and what to do with its answer. -/
inductive Prog (α : Type) where
  | ret (a : α)
  | step (c : Call) (k : Ans → Prog α)

namespace Prog

/-- One program after the other. -/
def bind {α β : Type} : Prog α → (α → Prog β) → Prog β
  | ret a, f => f a
  | step c k, f => step c fun r => (k r).bind f

instance : Monad Prog where
  pure := ret
  bind := bind

/-- A program that runs alone. -/
def exec {α : Type} (E : Env) : Prog α → World → List Nat → World × List Nat × α
  | ret a, w, hs => (w, hs, a)
  | step c k, w, hs =>
    let (w', hs', r) := call E w hs c
    (k r).exec E w' hs'

theorem exec_bind {α β : Type} (E : Env) (p : Prog α) (f : α → Prog β) (w : World) (hs : List Nat) :
    (p >>= f).exec E w hs =
      (f (p.exec E w hs).2.2).exec E (p.exec E w hs).1 (p.exec E w hs).2.1 := by
  show (p.bind f).exec E w hs = _
  induction p generalizing w hs with
  | ret a => rfl
  | step c k ih => simp only [bind, exec, ih]

@[simp] theorem exec_pure {α : Type} (E : Env) (a : α) (w : World) (hs : List Nat) :
    (pure a : Prog α).exec E w hs = (w, hs, a) := rfl

end Prog

/-! ### Single calls as programs -/

/-- `f.Read(buf)` with a buffer of `n` bytes. -/
def read (k n : Nat) : Prog (Str × Option Err) :=
  .step (.read k n) fun
    | .bytes b e => .ret (b, e)
    | _ => .ret ([], some .unableToRead)

/-- `f.Seek(off, io.SeekStart)`. -/
def seekStart (k : Nat) (off : Int) : Prog (Option Err) :=
  .step (.seek k off 0) fun
    | .pos _ e => .ret e
    | _ => .ret (some .unableToRead)

/-- `f.Stat()`. -/
def stat (k : Nat) : Prog (Res Details) :=
  .step (.fileStat k) fun
    | .details r => .ret r
    | _ => .ret .panic

/-- `f.Readdir(n)`. -/
def readdir (k : Nat) (n : Int) : Prog (Res (List Details)) :=
  .step (.readdir k n) fun
    | .entries r => .ret r
    | _ => .ret .panic

/-- `f.Close()`. -/
def close (k : Nat) : Prog Unit := .step (.close k) fun _ => .ret ()

/-- `f.Open(name)`. -/
def openIn (k : Nat) (name : Str) : Prog (Res Nat) :=
  .step (.openIn k name) fun
    | .opened r => .ret r
    | _ => .ret .panic

/-- `Open(name)` of the Pkger. -/
def openFile (name : Str) : Prog (Res Nat) :=
  .step (.openFile name) fun
    | .opened r => .ret r
    | _ => .ret .panic

/-! ### Several programs at once

The Pkger's methods lock its maps (pkging/mem/mem.go, internal/maps), but nothing locks a file object.  The programs
here take turns call by call. -/

/-- A Pkger, and for each goroutine its handles and the rest of its program. -/
structure Threads (α : Type) where
  w : World
  threads : Nat → List Nat × Prog α

/-- Goroutine `t` makes its next call. -/
def Threads.step {α : Type} (E : Env) (s : Threads α) (t : Nat) : Threads α :=
  match (s.threads t).2 with
  | .ret _ => s
  | .step c k =>
    { w := (call E s.w (s.threads t).1 c).1,
      threads := upd s.threads t ((call E s.w (s.threads t).1 c).2.1, k (call E s.w (s.threads t).1 c).2.2) }

/-- The goroutines make calls in the given order. -/
def Threads.run {α : Type} (E : Env) (s : Threads α) (sched : List Nat) : Threads α := sched.foldl (Threads.step E) s

/-- How many calls a program makes when it runs alone. -/
def Prog.calls {α : Type} (E : Env) : Prog α → World → List Nat → Nat
  | .ret _, _, _ => 0
  | .step c k, w, hs => (k (call E w hs c).2.2).calls E (call E w hs c).1 (call E w hs c).2.1 + 1

end Client
end Verif
