import Verif.Model.Disk

/-! `Pkger.Add`, pkging/mem/add.go. -/

namespace Verif
namespace Mem

open Disk (Node)

/-- An open `*os.File`: its name and what it designates.  It is read from the start. -/
structure OsFile where
  name : Str
  node : Node

/-- The file object stored for a node, pkging/mem/add.go:58-72 and :84-98 (identical code): the details
are copied, and the bytes of a regular file are read completely. -/
def addedObj (her : Info) (pt : Path) (n : Node) : FileObj :=
  { here := her, info := some (newFileInfo n.details), path := pt, pkging := true,
    data := if n.isDir then none else some n.data,
    parent := Path.zero, writer := none, reader := none }

/-- Store one node under the path `pt`, pkging/mem/add.go:74 and :100. -/
def addNode (w : World) (her : Info) (pt : Path) (n : Node) : World :=
  let (w1, id) := alloc w (addedObj her pt n)
  store w1 pt id

/-- The callback of the `filepath.Walk` at pkging/mem/add.go:37-77. -/
def addWalkFn (E : Env) (path : Str) (n : Node) (w : World) : World × Option Err :=
  match parse E w path with
  | .error e => (w, some e)
  | .ok pt =>
    match E.pkgInfo pt.pkg with
    | .error e => (w, some e)
    | .ok her => (addNode w her pt n, none)

/-- One iteration of the loop of `Add`, pkging/mem/add.go:17-101. -/
def addOne (E : Env) (w : World) (f : OsFile) : World × Res Unit :=
  match parse E w f.name with
  | .error e => (w, .err e)
  | .ok pt =>
    let dir := if f.node.isDir then f.name else GoPath.dir f.name
    match E.dirInfo dir with
    | .error e => (w, .err e)
    | .ok her =>
      if f.node.isDir then
        match Disk.walk (addWalkFn E) f.name f.node w with
        | (w', none) => (w', .ok ())
        | (w', some e) => (w', .err e)
      else (addNode w her pt f.node, .ok ())

/-- `Pkger.Add`, pkging/mem/add.go:16-104: stops at the first error. -/
def add (E : Env) (w : World) : List OsFile → World × Res Unit
  | [] => (w, .ok ())
  | f :: fs =>
    match addOne E w f with
    | (w', .ok _) => add E w' fs
    | r => r

end Mem
end Verif
