import Verif.Model.Wrap

/-!
Working with the files of a layered Pkger: histories of calls on a stack of in-memory Pkgers and on the files it gives
out, and `pkger.Dir`.
-/

namespace Verif
namespace Layer

open Mem (World)

/-- One call of a program that works with a layered Pkger: a call of the Pkger (pkging/wrap.go:63-145; `Stat` and `Walk` change
nothing unless the callback does, and then they amount to the calls it makes), or a call that concerns one layer only.
The latter are the calls on a file the stack gave out, which is a file of that layer (pkging/mem/file.go), and any call
by somebody who holds the layer itself. -/
inductive SOp where
  | create (name : Str)
  | mkdirAll (p : Str) (perm : Nat)
  | openFile (name : Str)
  | remove (name : Str)
  | removeAll (name : Str)
  | inLayer (n : Nat) (o : Mem.Op)

/-- The effect of one call; results are dropped.  `x` is the layered Pkger. -/
def sstep {C : Type} (E : Env) (x : Pkger (Store C) (Nat × Nat)) (s : Store C) : SOp → Store C
  | .create name => (x.create name s).1
  | .mkdirAll p perm => (x.mkdirAll p perm s).1
  | .openFile name => (x.openFile name s).1
  | .remove name => (x.remove name s).1
  | .removeAll name => (x.removeAll name s).1
  | .inLayer n o => (Mem.upd s.1 n (Mem.step E (s.1 n) o), s.2)

/-- A whole history. -/
def srun {C : Type} (E : Env) (x : Pkger (Store C) (Nat × Nat)) (s : Store C) (ops : List SOp) : Store C :=
  ops.foldl (sstep E x) s

/-- `f.Open(name)` of a file the stack gave out: the method of a file of that layer, pkging/mem/file.go:170-203. -/
def handleOpen {C : Type} (E : Env) (f : Nat × Nat) (name : Str) : Act (Store C) (Nat × Nat) := fun s =>
  let (w, r) := Mem.fileOpen E (s.1 f.1) f.2 name
  ((Mem.upd s.1 f.1 w, s.2), mapRes (fun h => (f.1, h)) r)

/-- `pkger.Dir(d).Open(name)`, pkger.go:34-40, where `impl()` is `x`. -/
def dirOpen {C : Type} (E : Env) (x : Pkger (Store C) (Nat × Nat)) (d name : Str) : Act (Store C) (Nat × Nat) := fun s =>
  match x.openFile d s with
  | (s1, .err e) => (s1, .err e)
  | (s1, .panic) => (s1, .panic)
  | (s1, .ok f) => handleOpen E f name s1

/-- `f.Readdir(count)` of a file the stack gave out: the method of a file of that layer, pkging/mem/file.go:125-167. -/
def handleReaddir {C : Type} (E : Env) (f : Nat × Nat) (count : Int) (s : Store C) : Res (List Mem.Details) :=
  Mem.readdir E (s.1 f.1) f.2 count

end Layer
end Verif
