import Verif.Model.Mem

/-!
The operating system's file tree as the code sees it, and Go's `filepath.Walk` over it.

Simplifications: no symbolic links, no permission errors, and the tree does not change while one
operation runs.
-/

namespace Verif
namespace Disk

open Mem (Details)

/-- A file or directory.  The children of a directory are listed in the order `readDirNames` sorts
them into, with pairwise different names (`Node.WF`). -/
inductive Node where
  | file (d : Details) (data : Str)
  | dir (d : Details) (kids : List (Str × Node))

namespace Node

/-- `Lstat`. -/
def details : Node → Details
  | file d _ => d
  | dir d _ => d

def isDir : Node → Bool
  | file _ _ => false
  | dir _ _ => true

/-- The bytes of a regular file; empty for a directory. -/
def data : Node → Str
  | file _ b => b
  | dir _ _ => []

/-- Descend along path elements. -/
def find : Node → List Str → Option Node
  | n, [] => some n
  | file _ _, _ :: _ => none
  | dir _ kids, w :: ws =>
    match kids.find? (fun e => e.1 == w) with
    | some (_, n) => find n ws
    | none => none

end Node

/-- What `filepath.Walk` calls: the path and the node found there (the code's callbacks open the path
and find this very node), with a state. -/
abbrev WalkFn (S : Type) := Str → Node → S → S × Option Err

mutual
/-- `filepath.walk(path, info, walkFn)` (Go standard library): a file is reported; a directory is
reported and then its children are walked. -/
def walkNode {S : Type} (cb : WalkFn S) (path : Str) : Node → S → S × Option Err
  | .file d b, s => cb path (.file d b) s
  | .dir d kids, s =>
    match cb path (.dir d kids) s with
    | (s', some e) => (s', some e)
    | (s', none) => walkKids cb path kids s'

/-- The loop over the sorted children: an error ends the walk, except `SkipDir` from a child that is a
directory. -/
def walkKids {S : Type} (cb : WalkFn S) (path : Str) : List (Str × Node) → S → S × Option Err
  | [], s => (s, none)
  | (name, n) :: rest, s =>
    match walkNode cb (GoPath.join2 path name) n s with
    | (s', none) => walkKids cb path rest s'
    | (s', some e) =>
      if n.isDir = true ∧ e = .skipDir then walkKids cb path rest s' else (s', some e)
end

/-- `filepath.Walk(root, walkFn)` on an existing root; `SkipDir` from the root ends the walk without
error. -/
def walk {S : Type} (cb : WalkFn S) (root : Str) (n : Node) (s : S) : S × Option Err :=
  match walkNode cb root n s with
  | (s', some .skipDir) => (s', none)
  | r => r

end Disk
end Verif
