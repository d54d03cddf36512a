import Verif.Model.Script
import Verif.Lemmas.Disk

/-!
Copying a directory of the disk into a Pkger, pkging/pkgtest/load_ref.go:61-153.
-/

namespace Verif
namespace LoadFiles

open Script (Plan)
open Disk (Node)

/-- `strings.HasPrefix(filepath.Base(path), ".")`, pkging/pkgtest/load_ref.go:90-92, for the path with these elements.
The base of `/` is `/`. -/
def hidden (es : List Str) : Bool :=
  match es.getLast? with
  | some (46 :: _) => true
  | _ => false

/-- Go on if it worked; an error ends the walk. -/
def andThen (k : Plan Bool) (o : Script.Out) : Plan Bool := if o = .done true then k else .ret false

mutual
/-- `filepath.Walk` with the function of pkging/pkgtest/load_ref.go:85-142, at one path, and then `k`.  What begins with a
dot is passed over (:90-92), but this does not keep the walk out of a directory.  A directory is made with the mode it
has (:104-107), a file is created (:120), `io.Copy` writes its content in the pieces `cut` gives (:136) and it is closed.
Left out: the copies made beside it in `her.Dir` (:108-110, :126-132).  An error from the deferred `Close` counts as an
error here.  The name that is used is the one `pkg.Parse` gives for `xp` (:99-102); as the Pkger parses it again the
model goes by `xp` alone. -/
def load (cut : Str → List Str) (es : List Str) : Node → Plan Bool → Plan Bool
  | .file _ b, k => if hidden es then k else .act (.put es (cut b)) (andThen k)
  | .dir d kids, k =>
    if hidden es then loadKids cut es kids k else .act (.mkdirAll es d.mode) (andThen (loadKids cut es kids k))

/-- The entries of a directory, in the order of their names (`filepath.Walk`). -/
def loadKids (cut : Str → List Str) (es : List Str) : List (Str × Node) → Plan Bool → Plan Bool
  | [], k => k
  | (x, n) :: rest, k => load cut (es ++ [x]) n (loadKids cut es rest k)
end

/-- `LoadFiles(name, ref, pkg)`, pkging/pkgtest/load_ref.go:61-153, for the name with the elements `es`, which is the node
`n` below `ref.root`: did it work?  It does not for what is not a directory (:76-78) and if nothing was added to `infos`
(:148-150).  Left out: errors from `here.Package` and `pkg.Current` (:64-67, :80-83). -/
def loadFiles (cut : Str → List Str) (es : List Str) (n : Node) : Plan Bool :=
  if n.isDir then load cut es n (.ret (n.tree.any fun e => !hidden (es ++ e.1))) else .ret false

end LoadFiles
end Verif
