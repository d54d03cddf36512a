import Verif.Spec.Demo
import Verif.Spec.Decls
import Verif.Spec.DiskTree

/-! Small disks and programs for the examples about the parser. -/

namespace Verif
namespace Demo

open Disk (Node)
open Parser

/-- A regular file with the given bytes. -/
def fileNode (name : Str) (data : Str) : Str × Node :=
  (name, .file ⟨name, data.length, 420, 0, false⟩ data)

/-- A directory. -/
def dirNode (name : Str) (kids : List (Str × Node)) : Str × Node :=
  (name, .dir ⟨name, 4096, 2147484141, 0, true⟩ kids)

/-- The root directory with the given content. -/
def disk (kids : List (Str × Node)) : Node := (dirNode (b! "/") kids).2

/-- `pkger.F("text")`; the text is given with its quotes. -/
def callLit (f text : Str) : Ast := .call (.sel (.ident (b! "pkger") none) f) [.lit text]

/-- A source file containing the given expressions. -/
def program (as : List Ast) : Ast := .other as

/-- A Go tool that finds the given program in every file, without objects. -/
def tool (prog : Ast) : GoTool := ⟨fun _ _ => .ok (prog, fun _ => ⟨false, none⟩), id, 100⟩

theorem tool_anyOrder (prog : Ast) : Spec.AnyOrder (tool prog) := fun _ => List.Perm.refl _

/-- Sorting by path. -/
def sortFiles (l : List File) : List File := sortBy (fun f => f.path.str) l

theorem sortFiles_sorts : Spec.Sorts sortFiles := fun l =>
  ⟨sortBy_perm _ l, (sortBy_sorted (fun f : File => f.path.str) l).imp (by intro a b h; simpa [Str.lt] using h)⟩

/-- Sorting after ranging over the map in the opposite order. -/
def sortFilesRev (l : List File) : List File := sortFiles l.reverse

theorem sortFilesRev_sorts : Spec.Sorts sortFilesRev := fun l =>
  ⟨(sortFiles_sorts l.reverse).1.trans (List.reverse_perm l), (sortFiles_sorts l.reverse).2⟩

/-- The demo module with a source file and some assets. -/
def disk1 : Node :=
  disk [dirNode (b! "src") [dirNode (b! "app")
    [dirNode (b! "assets") [fileNode (b! "a.txt") (b! "aaa"), fileNode (b! "b.txt") (b! "bbb")],
     fileNode (b! "main.go") (b! "package main"), fileNode (b! "readme") (b! "hello")]]]

end Demo
end Verif

namespace Verif
namespace Demo

open Disk (Node)

/-- A module `sub` nested in the demo module, in directory `/src/app/sub`. -/
def subInfo : Info :=
  { dir := b! "/src/app/sub", importPath := b! "sub", name := b! "sub",
    module := { path := b! "sub", main := true, dir := b! "/src/app/sub", goMod := b! "/src/app/sub/go.mod",
                goVersion := b! "1.13" } }

/-- `here.Dir` with the nested module. -/
def dirInfo2 (d : Str) : Except Err Info :=
  if Str.hasPrefix d (b! "/src/app/sub") then .ok subInfo else dirInfo d

/-- `here.Package` with the nested module. -/
def pkgInfo2 (p : Str) : Except Err Info := if p = b! "sub" then .ok subInfo else pkgInfo p

def env2 : Env := HereParse.env dirInfo2 pkgInfo2 gzip gunzip

/-- The demo module with the nested module, which has a file `/src/app/z`, and a file `z` after it. -/
def disk2 : Node :=
  disk [dirNode (b! "src") [dirNode (b! "app")
    [fileNode (b! "main.go") (b! "package main"),
     dirNode (b! "sub") [dirNode (b! "src") [dirNode (b! "app") [fileNode (b! "z") (b! "inner")]]],
     fileNode (b! "z") (b! "outer")]]]

end Demo
end Verif
