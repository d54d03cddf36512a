import Verif.Model.Parser

/-! What the declarations of a program contribute to the list of files. -/

namespace Verif
namespace Spec

open Parser

/-- `Contributed E disk ds v cs`: with the paths `v` already known, the declarations `ds` contribute the files
`cs`, in this order.  `MkdirAll` and `Create` make a path known and contribute nothing; any other declaration
contributes the files it stands for, given the known paths, and makes their names on disk known. -/
inductive Contributed (E : Env) (disk : Disk.Node) : List Decl → List Str → List File → Prop where
  | nil (v) : Contributed E disk [] v []
  | creates {d ds v cs} : d.kind = .mkdirAll ∨ d.kind = .create →
      Contributed E disk ds (d.value :: v) cs → Contributed E disk (d :: ds) v cs
  | names {d ds v fs cs fl} : filer E disk d = some fl → fl (fun x => v.contains x) = .ok fs →
      Contributed E disk ds ((fs.map (·.abs)).reverse ++ v) cs → Contributed E disk (d :: ds) v (fs ++ cs)

/-- A correct outcome of collecting the values of a Go map and sorting them by path with an unstable sort. -/
def Sorts (sort : List File → List File) : Prop :=
  ∀ l, (sort l).Perm l ∧ (sort l).Pairwise fun f g => Str.lt g.path.str f.path.str = false

/-- `g` is the last file in `cs` with its name on disk. -/
def LastOf (cs : List File) (g : File) : Prop :=
  ∃ pre post, cs = pre ++ g :: post ∧ ∀ x ∈ post, x.abs ≠ g.abs

/-- The declarations of `m` that do not satisfy `p`. -/
def without (m : DeclMap) (p : Decl → Bool) : DeclMap := fun k => (m k).filter fun d => !p d

/-- The declarations of paths the program creates when it runs. -/
def created (m : DeclMap) : List Decl := m .mkdirAll ++ m .create

/-- Declarations that stand for something on disk. -/
def looksUp (d : Decl) : Bool := d.kind ≠ .mkdirAll && d.kind ≠ .create

/-- Go may range over maps in any order, but ranges over all of them. -/
def AnyOrder (G : GoTool) : Prop := ∀ l, (G.order l).Perm l

end Spec
end Verif
