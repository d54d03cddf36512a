import Verif.Model.Add

/-!
Histories of API calls on one in-memory Pkger and its file handles.

A handle is the number of a file object.  An operation may name any number, also one the program never
obtained, so the histories below include all real ones (and more).
-/

namespace Verif
namespace Mem

/-- One call of the public API of pkging/mem (`Walk` is absent: with a callback that does not touch the
Pkger it changes nothing, and with one that does it amounts to the calls the callback makes).
`tick` lets time pass. -/
inductive Op where
  | create (name : Str)
  | mkdirAll (p : Str) (perm : Nat)
  | openFile (name : Str)
  | stat (name : Str)
  | remove (name : Str)
  | removeAll (name : Str)
  | write (id : Nat) (b : Str)
  | close (id : Nat)
  | read (id : Nat) (n : Nat)
  | seek (id : Nat) (off whence : Int)
  | readdir (id : Nat) (count : Int)
  | fileOpen (id : Nat) (name : Str)
  | add (files : List OsFile)
  | tick (t : Int)

/-- The effect of one call on the Pkger and its files; results are dropped. -/
def step (E : Env) (w : World) : Op → World
  | .create name => (create E w name).1
  | .mkdirAll p perm => (mkdirAll E w p perm).1
  | .openFile name => (openFile E w name).1
  | .stat _ => w
  | .remove name => (remove E w name).1
  | .removeAll name => (removeAll E w name).1
  | .write id b => (write w id b).1
  | .close id => (close w id).1
  | .read id n => (read w id n).1
  | .seek id off whence => (seek w id off whence).1
  | .readdir _ _ => w
  | .fileOpen id name => (fileOpen E w id name).1
  | .add files => (add E w files).1
  | .tick t => { w with now := t }

/-- A whole history. -/
def run (E : Env) (w : World) (ops : List Op) : World := ops.foldl (step E) w

/-- A state reachable from a fresh Pkger. -/
def Reachable (E : Env) (w : World) : Prop := ∃ i t ops, w = run E (new i t) ops

/-- The handle an operation works on, if any. -/
def Op.target : Op → Option Nat
  | .write id _ => some id
  | .close id => some id
  | .read id _ => some id
  | .seek id _ _ => some id
  | .readdir id _ => some id
  | .fileOpen id _ => some id
  | _ => none

theorem run_append (E : Env) (w : World) (a b : List Op) : run E w (a ++ b) = run E (run E w a) b := by
  simp [run, List.foldl_append]

@[simp] theorem run_nil (E : Env) (w : World) : run E w [] = w := rfl

@[simp] theorem run_cons (E : Env) (w : World) (o : Op) (ops : List Op) :
    run E w (o :: ops) = run E (step E w o) ops := rfl

end Mem
end Verif
