import Verif.Model.Stuff

/-!
Packaging on a disk with symbolic links: parser/open.go, parser/walk.go, parser/decl.go, pkging/mem/add.go and
pkging/pkgutil/stuff.go once more, with the two ways in which they look at a path kept apart.  `os.Open`, `os.Stat` and
`f.Stat` follow symbolic links; `filepath.Walk` uses `os.Lstat` and does not.

The other models (Model/Disk.lean) know no symbolic links; `C103_conservative` shows that there this model says the same.

Simplifications: as in Model/Stuff.lean; and a path leading through a regular file is reported as not existing.
-/

namespace Verif
namespace Links

open Disk (Node)
open Mem (Details World)
open Parser (File Decl FState)

/-! ### Looking at a disk with symbolic links -/

/-- A disk as the operating system shows it.  In the trees of `lstat` a symbolic link is a node without children, with
the details of the link itself; a result of `stat` is what the links lead to, under the last element of the path asked
for. -/
structure OS where
  /-- `os.Lstat(path)`, and below a directory what `filepath.Walk` finds by reading directories and `os.Lstat` -/
  lstat : Str → Except Err Node
  /-- `os.Open(path)` with `f.Stat()`, and `os.Stat(path)` -/
  stat : Str → Except Err Node

/-- A file, a symbolic link with the text it contains, or a directory. -/
inductive LNode where
  | file (d : Details) (data : Str)
  | link (d : Details) (target : Str)
  | dir (d : Details) (kids : List (Str × LNode))

namespace LNode

/-- Descend along path elements without following links. -/
def find : LNode → List Str → Option LNode
  | n, [] => some n
  | file _ _, _ :: _ => none
  | link _ _, _ :: _ => none
  | dir _ kids, w :: ws =>
    match kids.find? (fun e => e.1 == w) with
    | some (_, n) => find n ws
    | none => none

mutual
/-- What `filepath.Walk` sees of a tree. -/
def lower : LNode → Node
  | file d b => .file d b
  | link d _ => .file d []
  | dir d kids => .dir d (lowerKids kids)

/-- `lower` of the children. -/
def lowerKids : List (Str × LNode) → List (Str × Node)
  | [] => []
  | (name, n) :: rest => (name, lower n) :: lowerKids rest
end

mutual
/-- A tree without links. -/
def up : Node → LNode
  | .file d b => file d b
  | .dir d kids => dir d (upKids kids)

/-- `up` of the children. -/
def upKids : List (Str × Node) → List (Str × LNode)
  | [] => []
  | (name, n) :: rest => (name, up n) :: upKids rest
end

end LNode

/-- Too many links (`ELOOP`). -/
def tooManyLinks : Err := .other 40

/-- Reading a directory as a file (`EISDIR`). -/
def isDirectory : Err := .other 21

/-- Path resolution (path_resolution(7)), element by element, from the directory `cur`, which contains no link.  `last`
says whether a link at the end of the path is followed as well; `follow` continues behind a link. -/
def steps (root : LNode) (last : Bool) (follow : List Str → List Str → Except Err (List Str)) :
    List Str → List Str → Except Err (List Str)
  | cur, [] => .ok cur
  | cur, w :: ws =>
    if w = b! ".." then steps root last follow cur.dropLast ws
    else
      match root.find (cur ++ [w]) with
      | none => .error .notExist
      | some (.dir _ _) => steps root last follow (cur ++ [w]) ws
      | some (.file _ _) => if ws = [] then .ok (cur ++ [w]) else .error .notExist
      | some (.link _ target) =>
        if ws = [] ∧ last = false then .ok (cur ++ [w])
        else if target = [] then .error .notExist
        else follow (if GoPath.rooted target then [] else cur) (GoPath.elems target ++ ws)

/-- Path resolution following at most `k` links. -/
def resolve (root : LNode) (last : Bool) : Nat → List Str → List Str → Except Err (List Str)
  | 0 => steps root last fun _ _ => .error tooManyLinks
  | k + 1 => steps root last (resolve root last k)

/-- The node with another name. -/
def renamed (name : Str) : Node → Node
  | .file d b => .file { d with name := name } b
  | .dir d kids => .dir { d with name := name } kids

/-- A tree as the operating system shows it, following at most `k` links (Linux: 40). -/
def os (root : LNode) (k : Nat) : OS where
  lstat p :=
    match resolve root false k [] (GoPath.elems p) with
    | .error e => .error e
    | .ok cs =>
      match root.find cs with
      | none => .error .notExist
      | some n => .ok n.lower
  stat p :=
    match resolve root true k [] (GoPath.elems p) with
    | .error e => .error e
    | .ok cs =>
      match root.find cs with
      | none => .error .notExist
      | some n => .ok (if resolve root false k [] (GoPath.elems p) = .ok cs then n.lower else renamed (GoPath.base p) n.lower)

/-! ### Listing the declared files -/

/-- `WalkDecl.Files`, parser/walk.go:53-96: `filepath.Walk` begins with `os.Lstat(root)`, and its error is returned by
the callback. -/
def walkFiles (E : Env) (O : OS) (virt : Str → Bool) (d : Decl) : Except Err (List File) :=
  let root := GoPath.join2 d.file.here.module.dir d.file.path.name
  match O.lstat root with
  | .error e => .error e
  | .ok n =>
    match Disk.walk (Parser.walkFn E virt) root n (d.file.here, []) with
    | (s, none) => .ok s.2
    | (_, some e) => .error e

/-- `OpenDecl.Files`, parser/open.go:50-78: `os.Stat` at :60. -/
def openFiles (E : Env) (O : OS) (virt : Str → Bool) (d : Decl) : Except Err (List File) :=
  if virt d.value then .ok []
  else
    match O.stat (GoPath.join2 d.file.here.module.dir d.file.path.name) with
    | .error e => .error e
    | .ok n => if n.isDir then walkFiles E O virt d else .ok [d.file]

/-- `Files` of the types that have it, as in `Parser.filer` (parser/open.go:50, walk.go:53, stat.go:49, http.go:49,
include.go:80). -/
def filer (E : Env) (O : OS) (d : Decl) : Option ((Str → Bool) → Except Err (List File)) :=
  match d.kind with
  | .mkdirAll => none
  | .create => none
  | .walk => some fun virt => walkFiles E O virt d
  | _ => some fun virt => openFiles E O virt d

/-- The loop of `Decls.Files`, parser/decl.go:29-50. -/
def filesLoop (E : Env) (O : OS) : List Decl → FState → Except Err FState
  | [], s => .ok s
  | d :: ds, s =>
    let s : FState := ⟨s.m, Parser.virtualPaths d ++ s.v⟩
    match filer E O d with
    | none => filesLoop E O ds s
    | some fl =>
      match fl (fun x => s.v.contains x) with
      | .error e => .error (.text e)
      | .ok fs => filesLoop E O ds (Parser.addFiles s fs)

/-- `Decls.Files`, parser/decl.go:25-60. -/
def files (E : Env) (O : OS) (sort : List File → List File) (ds : List Decl) : Except Err (List File) :=
  match filesLoop E O ds ⟨[], []⟩ with
  | .error e => .error e
  | .ok s => .ok (sort (s.m.map (·.2)))

/-! ### Adding -/

/-- The callback of the `filepath.Walk` at pkging/mem/add.go:37-77.  `n` is what `os.Lstat` shows; the path is opened
at :42, following links; the bytes are copied at :67, which fails if they belong to a directory. -/
def addWalkFn (E : Env) (O : OS) (path : Str) (n : Node) (w : World) : World × Option Err :=
  match O.stat path with
  | .error e => (w, some e)
  | .ok t =>
    match Mem.parse E w path with
    | .error e => (w, some e)
    | .ok pt =>
      match E.pkgInfo pt.pkg with
      | .error e => (w, some e)
      | .ok her =>
        if n.isDir then (Mem.addNode w her pt n, none)
        else if t.isDir then (w, some isDirectory)
        else (Mem.addNode w her pt (.file n.details t.data), none)

/-- One iteration of the loop of `Add`, pkging/mem/add.go:17-101, for the file `t` opened as `name`. -/
def addOne (E : Env) (O : OS) (w : World) (name : Str) (t : Node) : World × Res Unit :=
  match Mem.parse E w name with
  | .error e => (w, .err e)
  | .ok pt =>
    let dir := if t.isDir then name else GoPath.dir name
    match E.dirInfo dir with
    | .error e => (w, .err e)
    | .ok her =>
      if t.isDir then
        match O.lstat name with
        | .error e => (w, .err e)
        | .ok n =>
          match Disk.walk (addWalkFn E O) name n w with
          | (w', none) => (w', .ok ())
          | (w', some e) => (w', .err e)
      else (Mem.addNode w her pt t, .ok ())

/-- The loop of `Stuff`, pkging/pkgutil/stuff.go:26-47. -/
def stuffLoop (E : Env) (O : OS) : List File → World → World × Res Unit
  | [], w => (w, .ok ())
  | f :: fs, w =>
    if Str.hasSuffix f.abs Pack.tmp then stuffLoop E O fs w
    else
      match O.stat f.abs with
      | .error e => (w, .err (.text e))
      | .ok t =>
        match addOne E O w f.abs t with
        | (w', .ok _) => stuffLoop E O fs w'
        | r => r

/-- The surroundings of one run of `Stuff`: as `Pack.Setup`, with links. -/
structure Setup where
  os : OS
  sort : List File → List File
  here : Serial.HereJson
  zone : Int → Int
  now : Int

/-- The Pkger `Stuff` fills, pkging/pkgutil/stuff.go:16-47. -/
def stuffed (E : Env) (S : Setup) (c : Info) (ds : List Decl) : Res World :=
  match files E S.os S.sort ds with
  | .error e => .err e
  | .ok fs =>
    match stuffLoop E S.os fs (Mem.new c S.now) with
    | (w, .ok _) => .ok w
    | (_, .err e) => .err e
    | (_, .panic) => .panic

/-- The bytes `Stuff` writes, pkging/pkgutil/stuff.go:16-57. -/
def blob (E : Env) (S : Setup) (c : Info) (ds : List Decl) : Res Str :=
  match stuffed E S c ds with
  | .ok w => .ok (Embed.encode E (Serial.marshal S.here S.zone w))
  | .err e => .err e
  | .panic => .panic

end Links
end Verif
