import Verif.Go.Path
import Verif.Go.Space
import Verif.Go.Err

/-!
`here.Info`, `here.Path` and the outside world.

here/here.go:7-14 only re-exports types and functions of `github.com/gobuffalo/here` v0.6.0
(go.mod), which is not part of the repository.
-/

namespace Verif

/-- `here.Module` (here/here.go:8). -/
structure Module where
  path : Str
  main : Bool
  dir : Str
  goMod : Str
  goVersion : Str
deriving DecidableEq, Repr

/-- `here.Info` (here/here.go:7). -/
structure Info where
  dir : Str
  importPath : Str
  name : Str
  module : Module
deriving DecidableEq, Repr

/-- `here.Path` (here/here.go:9). -/
structure Path where
  pkg : Str
  name : Str
deriving DecidableEq, Repr

namespace Path

/-- `here.Path.String()`: `pkg:name`, with `/` for an empty name and no prefix for an empty package. -/
def str (p : Path) : Str :=
  let n := if p.name = [] then GoPath.rootS else p.name
  if p.pkg = [] then n else p.pkg ++ Str.colon :: n

/-- The zero value `here.Path{}`. -/
def zero : Path := ⟨[], []⟩

end Path

/-- The functions the code calls that live outside the repository. -/
structure Env where
  /-- `here.Info.Parse(p)`; called at pkging/mem/mem.go:52, pkging/mem/file.go:171,
  pkging/stdos/stdos.go:133, parser/source.go:176. -/
  parse : Info → Str → Except Err Path
  /-- `here.Dir(p)` (here/here.go:12). -/
  dirInfo : Str → Except Err Info
  /-- `here.Package(p)` (here/here.go:13). -/
  pkgInfo : Str → Except Err Info
  /-- gzip compression of a complete payload (pkging/embed/embed.go:31-45). -/
  gzip : Str → Str
  /-- gzip decompression of a complete stream (pkging/embed/embed.go:19-28). -/
  gunzip : Str → Except Err Str

/-- A path element as one writes it: not empty, not `.` or `..`, and free of the characters that mean
something to the path syntax (`/`, `:`, `\`, newline), not ending in white space. -/
def PlainElem (w : Str) : Prop :=
  GoPath.GoodElem w ∧ Str.colon ∉ w ∧ Str.backslash ∉ w ∧ Str.newline ∉ w ∧ ¬ Str.EndsInSpace w

instance (w : Str) : Decidable (PlainElem w) := by unfold PlainElem; infer_instance

/-- A list of plain elements. -/
def Plain (cs : List Str) : Prop := ∀ w ∈ cs, PlainElem w

instance (cs : List Str) : Decidable (Plain cs) := by unfold Plain; infer_instance

/-- A package path such as `github.com/markbates/pkger`: one or more plain elements joined by slashes,
not starting with white space. -/
def PlainPkg (p : Str) : Prop :=
  GoPath.elems p ≠ [] ∧ p = GoPath.joinSlash (GoPath.elems p) ∧ Plain (GoPath.elems p) ∧
    ¬ Str.StartsInSpace p

instance (p : Str) : Decidable (PlainPkg p) := by unfold PlainPkg; infer_instance

/-- `name` does not lie textually under the package's own directory on disk.  (`here.Info.Parse` strips
that directory from the front of a name, so that absolute file names can be passed.) -/
def Clear (i : Info) (name : Str) : Prop := i.dir = [] ∨ ¬ i.dir <+: name

instance (i : Info) (n : Str) : Decidable (Clear i n) := by unfold Clear; infer_instance

/-- What the proofs assume about `here.Info.Parse` for the info `i`, in the terms of README.md
("Reference Files"): an absolute path without package prefix belongs to the current module, a path with
prefix `pkg:` belongs to `pkg`, and the directory of the package is stripped. -/
structure ParseLaws (E : Env) (i : Info) : Prop where
  /-- A rooted path without special characters names its cleaned form in the current module. -/
  rooted : ∀ s, GoPath.rooted s = true →
    (∀ w ∈ GoPath.splitSlash s, Str.colon ∉ w ∧ Str.backslash ∉ w ∧ ¬ Str.EndsInSpace w) →
    Clear i (GoPath.clean s) → E.parse i s = .ok ⟨i.module.path, GoPath.clean s⟩
  /-- `pkg:/a/b` names `/a/b` in `pkg`. -/
  qualified : ∀ pkg cs, PlainPkg pkg → Plain cs → Clear i (GoPath.mk cs) →
    E.parse i (pkg ++ Str.colon :: GoPath.mk cs) = .ok ⟨pkg, GoPath.mk cs⟩
  /-- An absolute file name inside the package directory names the path relative to it. -/
  absolute : ∀ cs, i.dir ≠ [] → Plain cs → Clear i (GoPath.mk cs) →
    E.parse i (GoPath.join2 i.dir (GoPath.mk cs)) = .ok ⟨i.module.path, GoPath.mk cs⟩
  /-- The empty string names the root of the current module. -/
  empty : Clear i GoPath.rootS → E.parse i [] = .ok ⟨i.module.path, GoPath.rootS⟩
  /-- Whatever follows `pkg:`, the package is `pkg`. -/
  qualifiedPkg : ∀ pkg cs, PlainPkg pkg → Plain cs →
    ∃ n, E.parse i (pkg ++ Str.colon :: GoPath.mk cs) = .ok ⟨pkg, n⟩

/-- A package description as the Go tool produces it: module path as written in go.mod, an absolute
clean directory. -/
structure InfoOk (i : Info) : Prop where
  modulePlain : PlainPkg i.module.path
  dirOk : i.dir = [] ∨ ∃ ds, ds ≠ [] ∧ Plain ds ∧ i.dir = GoPath.mk ds

/-- Decompressing a compressed payload gives it back. -/
def GzipLaw (E : Env) : Prop := ∀ b, E.gunzip (E.gzip b) = .ok b

theorem Plain.good {cs : List Str} (h : Plain cs) : GoPath.Good cs := fun w hw => (h w hw).1

theorem plain_nil : Plain [] := by simp [Plain]

theorem plain_cons {w : Str} {cs : List Str} : Plain (w :: cs) ↔ PlainElem w ∧ Plain cs := by
  simp [Plain]

theorem plain_append {a b : List Str} : Plain (a ++ b) ↔ Plain a ∧ Plain b := by
  constructor
  · intro h
    exact ⟨fun w hw => h w (List.mem_append_left _ hw), fun w hw => h w (List.mem_append_right _ hw)⟩
  · rintro ⟨h1, h2⟩ w hw
    rcases List.mem_append.mp hw with h | h
    · exact h1 w h
    · exact h2 w h

theorem Clear.mono {i : Info} {a b : Str} (h : Clear i b) (hab : a <+: b) : Clear i a := by
  rcases h with h | h
  · exact Or.inl h
  · exact Or.inr fun hp => h (hp.trans hab)

theorem Clear.trim {i : Info} {n : Str} (h : Clear i n) : Str.trimPrefix n i.dir = n := by
  rcases h with h | h
  · simp [h]
  · exact Str.trimPrefix_of_not_prefix h

end Verif
