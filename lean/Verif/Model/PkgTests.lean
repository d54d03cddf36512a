import Verif.Model.Script

/-!
The tests of pkging/pkgtest that begin with no file of the reference module, for any names and contents.  The answers are
returned; what the tests compare them with is left to the properties.
-/

namespace Verif
namespace PkgTests

open Script (Plan Out)

/-- `CreateTest`, pkging/pkgtest/create.go:12-42: `Stat`, then `Create`, `Write` and `Close`, and then `Open`,
`ioutil.ReadAll` and `Close`.  The test writes all at once; here it may be in pieces.  `Stat` on the open file (:32-33) is
left out. -/
def createTest (es : List Str) (chunks : List Str) (sizes : List Nat) : Plan (List Out) :=
  .act (.stat es) fun a => .act (.put es chunks) fun b => .act (.get es sizes) fun c => .ret [a, b, c]

/-- `MkdirAllTest`, pkging/pkgtest/mkdir_all.go:10-28: `Stat`, `MkdirAll`, and `Stat` again.  The test opens the directory
and asks the open file (:20-24), here it is the Pkger that is asked. -/
def mkdirAllTest (es : List Str) (perm : Nat) : Plan (List Out) :=
  .act (.stat es) fun a => .act (.mkdirAll es perm) fun b => .act (.stat es) fun c => .ret [a, b, c]

/-- `RemoveAllTest`, pkging/pkgtest/remove_all.go:10-23. -/
def removeAllTest (es : List Str) (perm : Nat) : Plan (List Out) :=
  .act (.mkdirAll es perm) fun a => .act (.stat es) fun b => .act (.removeAll es) fun c => .act (.stat es) fun d =>
    .ret [a, b, c, d]

end PkgTests
end Verif
