import Verif.Model.Script
import Verif.Model.Disk

/-!
Copying one file of the disk into a Pkger, pkging/pkgtest/load_ref.go:14-59, and the tests that begin with it.
-/

namespace Verif
namespace LoadFile

open Script (Plan Out)
open Disk (Node)

/-- `LoadFile(name, ref, pkg)`, pkging/pkgtest/load_ref.go:14-59, for the name with the elements `es`, which is the node `n`
below `ref.root`, and then `k` with whether it worked.  It does not for a directory (:22-24).  The file is created (:37),
`io.Copy` writes its content in the pieces `cut` gives (:54), and it is closed when the function returns (:41).  Left out:
errors from `os.Stat`, `os.Open` and `pkg.Current` (:17-20, :26-35) and the copy made beside it in `ref.Dir` (:43-50).  An
error from the deferred `Close` counts as an error here. -/
def loadFile {α : Type} (cut : Str → List Str) (es : List Str) (n : Node) (k : Bool → Plan α) : Plan α :=
  match n with
  | .dir _ _ => k false
  | .file _ b => .act (.put es (cut b)) fun o => k (o = .done true)

/-- The tests that begin with `LoadFile`, one after the other: `Stat` (pkging/pkgtest/stat.go:12-25), `Open` and
`ioutil.ReadAll` with buffers of these sizes (pkging/pkgtest/open.go:14-45), and `Remove` and `Stat` again
(pkging/pkgtest/remove.go:10-24).  The answers are returned; what the tests compare them with is left to the properties. -/
def tests (cut : Str → List Str) (es : List Str) (n : Node) (sizes : List Nat) : Plan (Option (List Out)) :=
  loadFile cut es n fun ok =>
    if ok then
      .act (.stat es) fun a => .act (.get es sizes) fun b => .act (.remove es) fun c => .act (.stat es) fun d =>
        .ret (some [a, b, c, d])
    else .ret none

end LoadFile
end Verif
