import Verif.Model.Positions
import Verif.Model.Cmd

/-!
Positions through the whole scan: parser/parser.go with the `FileSet` of each directory.  Without positions this is the
scan of Model/Parser.
-/

namespace Verif
namespace Parser

open Token (Position FileSet)
open Disk (Node)

/-- Declarations with their positions by kind: the map of parser/source.go:208 with the field `pos` of the
declarations. -/
abbrev PDeclMap := Kind → List (Decl × Position)

/-- What is outside the repository: `go/parser` on one file; for the files of a directory, given by name, the order in which
Go ranges over the maps `go/parser.ParseDir` returns, as indices; and the room on the stack. -/
structure PGoTool where
  parse : Str → Str → Except Err (PAst × (Nat → Obj))
  order : List Str → List Nat
  depth : Nat

/-- The entries of a list in the order given by indices. -/
def arrange {α : Type} (is : List Nat) (l : List α) : List α := is.filterMap fun i => l[i]?

/-- The tool without offsets. -/
def PGoTool.erase (G : PGoTool) : GoTool where
  parse := fun name text =>
    match G.parse name text with
    | .error e => .error e
    | .ok (tree, objs) => .ok (tree.erase, objs)
  order := fun l => arrange (G.order (l.map (·.abs))) l
  depth := G.depth

/-- The files `go/parser.ParseDir` adds to its `FileSet`, with name and text (Go standard library; the call is at
parser/parser.go:115). -/
def setFiles (abs : Str) : List (Str × Node) → List (Str × Str)
  | [] => []
  | (name, .file _ data) :: rest =>
    if Str.hasSuffix name (b! ".go") then (GoPath.join2 abs name, data) :: setFiles abs rest else setFiles abs rest
  | (_, .dir _ _) :: rest => setFiles abs rest

/-- `go/parser.ParseDir(fset, abs, filter, 0)` at parser/parser.go:115-119 with the loop at :121-135; `before` are the files
already added to the `FileSet`. -/
def pparseFiles (G : PGoTool) (abs : Str) (pt : Path) (her : Info) :
    List (Str × Str) → List (Str × Node) → Except Err (List PSource)
  | _, [] => .ok []
  | before, (name, .file _ data) :: rest =>
    if Str.hasSuffix name (b! ".go") then
      match G.parse (GoPath.join2 abs name) data with
      | .error e => .error e
      | .ok (tree, objs) =>
        match pparseFiles G abs pt her (before ++ [(GoPath.join2 abs name, data)]) rest with
        | .error e => .error e
        | .ok srcs => .ok (inSet (GoPath.join2 abs name) pt her tree objs data before (setFiles abs rest) :: srcs)
    else pparseFiles G abs pt her before rest
  | before, (_, .dir _ _) :: rest => pparseFiles G abs pt her before rest

/-- `Parser.ParseDir`, parser/parser.go:91-138, on a directory that exists. -/
def pparseDir (E : Env) (G : PGoTool) (abs : Str) (kids : List (Str × Node)) : Except Err (List PSource) :=
  match E.dirInfo abs with
  | .error e => .error (.text e)
  | .ok her =>
    match E.parse her (Str.trimPrefix abs (GoPath.dir abs)) with
    | .error e => .error (.text e)
    | .ok pt =>
      match pparseFiles G abs pt her [] kids with
      | .error e => .error (.text e)
      | .ok srcs => .ok (arrange (G.order (srcs.map (·.abs))) srcs)

/-- The loop over the sources of a directory, parser/parser.go:214-222. -/
def paddSources (E : Env) (depth : Nat) : List PSource → PDeclMap → Res PDeclMap
  | [], m => .ok m
  | src :: rest, m =>
    match pdecls E depth src with
    | .panic => .panic
    | .err e => .err e
    | .ok (_, some e) => .err (.text e)
    | .ok (mm, none) => paddSources E depth rest fun k => m k ++ mm k

/-- State of the scan; a panic ends it. -/
structure PScan where
  decls : PDeclMap
  panicked : Bool

/-- What the callback does with a directory that is not ignored, parser/parser.go:209-224. -/
def pvisitDir (E : Env) (G : PGoTool) : Disk.WalkFn PScan := fun path n s =>
  match n with
  | .file _ _ => (s, none)
  | .dir _ kids =>
    match pparseDir E G path kids with
    | .error e => (s, some (.text e))
    | .ok srcs =>
      match paddSources E G.depth srcs s.decls with
      | .ok m => ({ s with decls := m }, none)
      | .err e => (s, some (.text e))
      | .panic => ({ s with panicked := true }, some (.other 0))

/-- `token.Position{}`: `NewInclude` sets no position (parser/include.go:39-46). -/
def noPosition : Position := ⟨[], 0, 0, 0⟩

/-- `Parser.parseIncludes`, parser/parser.go:230-240. -/
def pparseIncludes (E : Env) (her : Info) : List Str → PDeclMap → Except Err PDeclMap
  | [], m => .ok m
  | i :: is, m =>
    match newInclude E her i with
    | .error e => .error e
    | .ok d => pparseIncludes E her is fun k => if k = .include then m .include ++ [(d, noPosition)] else m k

/-- `Parser.parse`, parser/parser.go:175-228. -/
def pparse (E : Env) (G : PGoTool) (disk : Node) (her : Info) (includes : List Str) : Res PDeclMap :=
  match pparseIncludes E her includes fun _ => [] with
  | .error e => .err e
  | .ok m =>
    match osStat disk her.dir with
    | none => .err .notExist
    | some (.file _ _) => .err (.other 0)
    | some (.dir d kids) =>
      match Disk.walk (scanFn (pvisitDir E G)) her.dir (.dir d kids) ⟨m, false⟩ with
      | (s, none) => .ok s.decls
      | (s, some e) => if s.panicked then .panic else .err e

/-- `Parser.Decls`, parser/parser.go:140-161, and `Parse`, :34-42. -/
def pdeclsAll (E : Env) (G : PGoTool) (disk : Node) (her : Info) (includes : List Str) : Res (List (Decl × Position)) :=
  match pparse E G disk her includes with
  | .ok m => .ok (orderedKinds.flatMap m)
  | .err e => .err e
  | .panic => .panic

end Parser
end Verif
