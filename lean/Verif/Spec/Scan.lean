import Verif.Spec.DiskTree
import Verif.Model.Parser

/-! Which directories of a module are scanned for declarations. -/

namespace Verif
namespace Spec

open Parser
open Disk (Node)

/-- The directories to be ignored: `vendor`, `node_modules`, `testdata` and those starting with `.` or `_`. -/
def IgnoredName (w : Str) : Prop :=
  w = b! "vendor" ∨ w = b! "node_modules" ∨ w = b! "testdata" ∨ w.head? = some 46 ∨ w.head? = some 95

instance : DecidablePred IgnoredName := fun w => by unfold IgnoredName; infer_instance

/-- The names the code ignores: all those starting with an ignored name. -/
def IgnoredPrefix (w : Str) : Prop :=
  b! "vendor" <+: w ∨ b! "node_modules" <+: w ∨ b! "testdata" <+: w ∨ w.head? = some 46 ∨ w.head? = some 95

instance : DecidablePred IgnoredPrefix := fun w => by unfold IgnoredPrefix; infer_instance

/-- The directories of the tree `n` on whose way from `n` no ignored name occurs. -/
def scannedDirs (ign : Str → Prop) [DecidablePred ign] (n : Node) : List (List Str × Node) :=
  (Node.tree n).filter fun e => e.2.isDir && decide (∀ w ∈ e.1, ¬ ign w)

/-- The Go files among the entries of a directory (test files too), with their contents. -/
def goFiles (kids : List (Str × Node)) : List (Str × Str) :=
  kids.filterMap fun e =>
    match e.2 with
    | .file _ data => if b! ".go" <:+ e.1 then some (e.1, data) else none
    | .dir _ _ => none

/-- The sources in the directory at `path` with the given entries: the directory belongs to a package and has a path in
it, and every Go file in it can be parsed. -/
def Sources (E : Env) (G : GoTool) (path : Str) (kids : List (Str × Node)) (srcs : List Source) : Prop :=
  ∃ (her : Info) (pt : Path) (ast : Str × Str → Ast × (Nat → Obj)),
    E.dirInfo path = .ok her ∧ E.parse her (Str.trimPrefix path (GoPath.dir path)) = .ok pt ∧
    (∀ e ∈ goFiles kids, G.parse (GoPath.join2 path e.1) e.2 = .ok (ast e)) ∧
    srcs = G.order ((goFiles kids).map fun e => ⟨GoPath.join2 path e.1, pt, her, (ast e).1, (ast e).2⟩)

/-- The Go files of the directory at `path` contain the declarations `dm`. -/
def DirDeclares (E : Env) (G : GoTool) (path : Str) (n : Node) (dm : DeclMap) : Prop :=
  ∃ d kids srcs, n = .dir d kids ∧ Sources E G path kids srcs ∧
    ∃ f : Source → DeclMap, (∀ src ∈ srcs, declsMap E G.depth src = .ok (f src, none)) ∧
      ∀ k, dm k = srcs.flatMap fun src => f src k

/-- The option `-include inc` of the package `her` stands for the declaration `d`: the file at that path of the module
the path names, which is the current one if the path names the current package. -/
def IncludeDeclares (E : Env) (her : Info) (inc : Str) (d : Decl) : Prop :=
  ∃ pt owner, E.parse her inc = .ok pt ∧
    (if pt.pkg = her.importPath then owner = her else E.pkgInfo pt.pkg = .ok owner) ∧
    d = ⟨.include, ⟨GoPath.join2 owner.module.dir pt.name, pt, owner⟩, inc⟩

/-- The options `-include` stand for the declarations `l`, one each and in this order. -/
inductive IncludesDeclare (E : Env) (her : Info) : List Str → List Decl → Prop where
  | nil : IncludesDeclare E her [] []
  | cons {i is d ds} : IncludeDeclares E her i d → IncludesDeclare E her is ds →
      IncludesDeclare E her (i :: is) (d :: ds)

/-- Only these included declarations. -/
def onlyIncludes (l : List Decl) : DeclMap := fun k => if k = .include then l else []

end Spec
end Verif
