import Verif.Model.Disk
import Verif.Go.Unquote

/-!
Finding the declarations in a program and the files they stand for: parser/.

Simplifications: source positions are left out here (see Model/Positions); `go/parser` is outside the
repository and appears as a parameter that gives the syntax tree of a file.
-/

namespace Verif
namespace Parser

open Disk (Node)

/-- `File`, parser/file.go:9-13. -/
structure File where
  abs : Str
  path : Path
  here : Info
deriving DecidableEq

/-- The kinds of declarations: the types `MkdirAllDecl`, `CreateDecl`, `IncludeDecl`, `StatDecl`, `OpenDecl`,
`HTTPDecl` (for `pkger.Dir`) and `WalkDecl`. -/
inductive Kind where
  | mkdirAll | create | include | stat | open | dir | walk
deriving DecidableEq

/-- A declaration; the seven types have the same fields (e.g. parser/open.go:12-16). -/
structure Decl where
  kind : Kind
  file : File
  value : Str
deriving DecidableEq

/-! ### Syntax trees -/

/-- A syntax tree (`go/ast`), as far as the code looks at it.  `other` is any other node with its children in
the order `ast.Walk` visits them. An identifier has the object it was resolved to, if any. The identifier in
`sel` is not resolved and has no children, so it is given by its name. -/
inductive Ast where
  | ident (name : Str) (obj : Option Nat)
  | lit (text : Str)
  | sel (x : Ast) (name : Str)
  | call (fn : Ast) (args : List Ast)
  | other (kids : List Ast)

/-- `ast.ValueSpec`: `names = values`. -/
structure ValueSpec where
  names : List Str
  values : List Ast

/-- `ast.Object`: whether `Kind == ast.Con`, and `Decl` if it is a `*ast.ValueSpec`. -/
structure Obj where
  isCon : Bool
  spec : Option ValueSpec

/-- `ParsedSource`, parser/source.go:14-27, before `Parse`; `objs` is where the object pointers lead. -/
structure Source where
  abs : Str
  path : Path
  here : Info
  ast : Ast
  objs : Nat → Obj

/-- `p.decls[k]` for each of the seven names. -/
abbrev DeclMap := Kind → List Decl

/-- `p.decls[k] = append(p.decls[k], ds...)`, parser/source.go:196, parser/parser.go:220 and :237. -/
def DeclMap.append (m : DeclMap) (k : Kind) (ds : List Decl) : DeclMap :=
  fun k' => if k' = k then m k ++ ds else m k'

/-- An empty map. -/
def DeclMap.empty : DeclMap := fun _ => []

/-- `valueNode` and `valueIdent`, parser/source.go:36-65.  `depth` is the number of nested calls the stack has
room for; exceeding it, a nil object (line 38) and a missing value (line 48) are run-time panics. -/
def valueNode (objs : Nat → Obj) : Nat → Ast → Res Str
  | 0, _ => .panic
  | depth + 1, node =>
    match node with
    | .lit text => .ok text
    | .ident name none => .panic
    | .ident name (some o) =>
      if (objs o).isCon then
        match (objs o).spec with
        | none => .ok name
        | some sp =>
          match sp.names.idxOf? name with
          | none => .ok name
          | some i =>
            match sp.values[i]? with
            | none => .panic
            | some v => valueNode objs depth v
      else .ok name
    | _ => .ok []

/-- `value`, parser/source.go:67-70. -/
def value (depth : Nat) (src : Source) (node : Ast) : Res Str :=
  match valueNode src.objs depth node with
  | .ok s =>
    match Unquote.unquote s with
    | .ok v => .ok v
    | .error e => .err e
  | .err e => .err e
  | .panic => .panic

/-- The function names recognised, parser/source.go:97-156. -/
def kindOf (name : Str) : Option Kind :=
  if name = b! "MkdirAll" then some .mkdirAll
  else if name = b! "Create" then some .create
  else if name = b! "Include" then some .include
  else if name = b! "Stat" then some .stat
  else if name = b! "Open" then some .open
  else if name = b! "Dir" then some .dir
  else if name = b! "Walk" then some .walk
  else none

/-- What parsing a source accumulates: `p.decls` and `p.err`. -/
structure PState where
  decls : DeclMap
  err : Option Err

/-- The file a declaration with value `val` stands for, parser/source.go:170-194. -/
def declFile (E : Env) (abs val : Str) : Except Err File :=
  match E.dirInfo (GoPath.dir abs) with
  | .error e => .error e
  | .ok info =>
    match E.parse info val with
    | .error e => .error e
    | .ok pt =>
      if pt.pkg ≠ info.module.path then
        match E.pkgInfo pt.pkg with
        | .error e => .error e
        | .ok info => .ok ⟨GoPath.join2 info.module.dir pt.name, pt, info⟩
      else .ok ⟨GoPath.join2 info.module.dir pt.name, pt, info⟩

/-- The function `fn` given to `ast.Walk`, parser/source.go:74-198; the result says whether to descend. -/
def enter (E : Env) (depth : Nat) (src : Source) (node : Ast) (s : PState) : Res (PState × Bool) :=
  match node with
  | .call (.sel (.ident pkg _) name) args =>
    if pkg ≠ b! "pkger" then .ok (s, true)
    else
      match kindOf name with
      | none => .ok (s, true)
      | some k =>
        match args with
        | [] => .ok ({ s with err := some (.other 0) }, false)
        | n :: _ =>
          match value depth src n with
          | .panic => .panic
          | .err e => .ok ({ s with err := some (.text e) }, false)
          | .ok val =>
            match declFile E src.abs val with
            | .error e => .ok ({ s with err := some (.text e) }, false)
            | .ok f => .ok ({ s with decls := s.decls.append k [⟨k, f, val⟩] }, true)
  | _ => .ok (s, true)

mutual
/-- `ast.Walk(fn, node)` (Go standard library) with the function above. -/
def walkAst (E : Env) (depth : Nat) (src : Source) : Ast → PState → Res PState
  | .ident n o, s =>
    match enter E depth src (.ident n o) s with
    | .ok (s, _) => .ok s
    | .err e => .err e
    | .panic => .panic
  | .lit t, s =>
    match enter E depth src (.lit t) s with
    | .ok (s, _) => .ok s
    | .err e => .err e
    | .panic => .panic
  | .sel x n, s =>
    match enter E depth src (.sel x n) s with
    | .ok (s, false) => .ok s
    | .ok (s, true) => walkAst E depth src x s
    | .err e => .err e
    | .panic => .panic
  | .call f args, s =>
    match enter E depth src (.call f args) s with
    | .ok (s, false) => .ok s
    | .ok (s, true) =>
      match walkAst E depth src f s with
      | .ok s => walkAsts E depth src args s
      | .err e => .err e
      | .panic => .panic
    | .err e => .err e
    | .panic => .panic
  | .other kids, s =>
    match enter E depth src (.other kids) s with
    | .ok (s, false) => .ok s
    | .ok (s, true) => walkAsts E depth src kids s
    | .err e => .err e
    | .panic => .panic

/-- The loop over a list of children. -/
def walkAsts (E : Env) (depth : Nat) (src : Source) : List Ast → PState → Res PState
  | [], s => .ok s
  | a :: as, s =>
    match walkAst E depth src a s with
    | .ok s => walkAsts E depth src as s
    | .err e => .err e
    | .panic => .panic
end

/-- `ParsedSource.parse`, parser/source.go:72-201: the state it leaves, and its result `nil`. -/
def parseSource (E : Env) (depth : Nat) (src : Source) : Res (PState × Option Err) :=
  match walkAst E depth src src.ast ⟨DeclMap.empty, none⟩ with
  | .ok s => .ok (s, none)
  | .err e => .err e
  | .panic => .panic

/-- `ParsedSource.Parse` on first use, parser/source.go:29-34: `p.err` is assigned the result of `parse`, which
overwrites what `parse` stored there. -/
def runParse (E : Env) (depth : Nat) (src : Source) : Res PState :=
  match parseSource E depth src with
  | .ok (s, r) => .ok { s with err := r }
  | .err e => .err e
  | .panic => .panic

/-- `ParsedSource.DeclsMap`, parser/source.go:203-206: declarations and error. -/
def declsMap (E : Env) (depth : Nat) (src : Source) : Res (DeclMap × Option Err) :=
  match runParse E depth src with
  | .ok s => .ok (s.decls, s.err)
  | .err e => .err e
  | .panic => .panic

/-! ### Scanning the module -/

/-- What is outside the repository: `go/parser` on one file, the order in which Go ranges over the maps
`go/parser.ParseDir` returns, and the room on the stack. -/
structure GoTool where
  parse : Str → Str → Except Err (Ast × (Nat → Obj))
  order : List Source → List Source
  depth : Nat

/-- The `.go` files of a directory, parsed: `go/parser.ParseDir(fset, abs, filter, 0)` at parser/parser.go:111-119
with the loop at :121-135 (before map iteration order comes in). -/
def parseFiles (G : GoTool) (abs : Str) (pt : Path) (her : Info) : List (Str × Node) → Except Err (List Source)
  | [] => .ok []
  | (name, .file _ data) :: rest =>
    if Str.hasSuffix name (b! ".go") then
      match G.parse (GoPath.join2 abs name) data with
      | .error e => .error e
      | .ok (ast, objs) =>
        match parseFiles G abs pt her rest with
        | .error e => .error e
        | .ok srcs => .ok (⟨GoPath.join2 abs name, pt, her, ast, objs⟩ :: srcs)
    else parseFiles G abs pt her rest
  | (_, .dir _ _) :: rest => parseFiles G abs pt her rest

/-- `Parser.ParseDir`, parser/parser.go:91-138, on a directory that exists. -/
def parseDir (E : Env) (G : GoTool) (abs : Str) (kids : List (Str × Node)) : Except Err (List Source) :=
  match E.dirInfo abs with
  | .error e => .error (.text e)
  | .ok her =>
    match E.parse her (Str.trimPrefix abs (GoPath.dir abs)) with
    | .error e => .error (.text e)
    | .ok pt =>
      match parseFiles G abs pt her kids with
      | .error e => .error (.text e)
      | .ok srcs => .ok (G.order srcs)

/-- The loop over `mm`, parser/parser.go:219-221: the maps are joined key by key, in whatever order. -/
def joinMaps (m mm : DeclMap) : DeclMap := fun k => m k ++ mm k

/-- The loop over the sources of a directory, parser/parser.go:214-222. -/
def addSources (E : Env) (depth : Nat) : List Source → DeclMap → Res DeclMap
  | [], m => .ok m
  | src :: rest, m =>
    match declsMap E depth src with
    | .panic => .panic
    | .err e => .err e
    | .ok (_, some e) => .err (.text e)
    | .ok (mm, none) => addSources E depth rest (joinMaps m mm)

/-- `defaultIgnoredFolders`, parser/parser.go:17. -/
def ignoredFolders : List Str := [b! ".", b! "_", b! "vendor", b! "node_modules", b! "testdata"]

/-- The test at parser/parser.go:202-207. -/
def ignored (path : Str) : Bool := ignoredFolders.any fun x => Str.hasPrefix (GoPath.base path) x

/-- The shape of the callback at parser/parser.go:193-225: files are passed over, ignored directories are
skipped, and `visit` is what is done with any other directory. -/
def scanFn {S : Type} (visit : Disk.WalkFn S) : Disk.WalkFn S := fun path n s =>
  if n.isDir = false then (s, none)
  else if ignored path then (s, some .skipDir)
  else visit path n s

/-- State of the scan; a panic ends it. -/
structure Scan where
  decls : DeclMap
  panicked : Bool

/-- What the callback does with a directory that is not ignored, parser/parser.go:209-224. -/
def visitDir (E : Env) (G : GoTool) : Disk.WalkFn Scan := fun path n s =>
  match n with
  | .file _ _ => (s, none)
  | .dir _ kids =>
    match parseDir E G path kids with
    | .error e => (s, some (.text e))
    | .ok srcs =>
      match addSources E G.depth srcs s.decls with
      | .ok m => ({ s with decls := m }, none)
      | .err e => (s, some (.text e))
      | .panic => ({ s with panicked := true }, some (.other 0))

/-- `NewInclude`, parser/include.go:21-47. -/
def newInclude (E : Env) (her : Info) (inc : Str) : Except Err Decl :=
  match E.parse her inc with
  | .error e => .error e
  | .ok pt =>
    if pt.pkg ≠ her.importPath then
      match E.pkgInfo pt.pkg with
      | .error e => .error e
      | .ok her => .ok ⟨.include, ⟨GoPath.join2 her.module.dir pt.name, pt, her⟩, inc⟩
    else .ok ⟨.include, ⟨GoPath.join2 her.module.dir pt.name, pt, her⟩, inc⟩

/-- `Parser.parseIncludes`, parser/parser.go:230-240. -/
def parseIncludes (E : Env) (her : Info) : List Str → DeclMap → Except Err DeclMap
  | [], m => .ok m
  | i :: is, m =>
    match newInclude E her i with
    | .error e => .error e
    | .ok d => parseIncludes E her is (m.append .include [d])

/-- `os.Stat(path)` on the disk with root directory `disk`, for an absolute path. -/
def osStat (disk : Node) (path : Str) : Option Node := disk.find (GoPath.elems path)

/-- `Parser.parse`, parser/parser.go:175-228. -/
def parse (E : Env) (G : GoTool) (disk : Node) (her : Info) (includes : List Str) : Res DeclMap :=
  match parseIncludes E her includes DeclMap.empty with
  | .error e => .err e
  | .ok m =>
    match osStat disk her.dir with
    | none => .err .notExist
    | some (.file _ _) => .err (.other 0)
    | some (.dir d kids) =>
      match Disk.walk (scanFn (visitDir E G)) her.dir (.dir d kids) ⟨m, false⟩ with
      | (s, none) => .ok s.decls
      | (s, some e) => if s.panicked then .panic else .err e

/-- `orderedNames`, parser/parser.go:146-154. -/
def orderedKinds : List Kind := [.mkdirAll, .create, .include, .stat, .open, .dir, .walk]

/-- The loop of `Parser.Decls`, parser/parser.go:145-160. -/
def ordered (m : DeclMap) : List Decl := orderedKinds.flatMap m

/-- `Parser.Decls`, parser/parser.go:140-161, and `Parse`, :34-42. -/
def decls (E : Env) (G : GoTool) (disk : Node) (her : Info) (includes : List Str) : Res (List Decl) :=
  match parse E G disk her includes with
  | .ok m => .ok (ordered m)
  | .err e => .err e
  | .panic => .panic

/-! ### From declarations to files -/

/-- `VirtualPaths`, parser/create.go:49-51 and parser/mkdir.go:49-51; the other types do not have it. -/
def virtualPaths (d : Decl) : List Str :=
  match d.kind with
  | .mkdirAll => [d.value]
  | .create => [d.value]
  | _ => []

/-- The callback of `WalkDecl.Files`, parser/walk.go:61-93; the state is the pair of captured variables `her` and
`files`. -/
def walkFn (E : Env) (virt : Str → Bool) : Disk.WalkFn (Info × List File) := fun path n s =>
  let her : Except Err Info := if n.isDir then E.dirInfo path else .ok s.1
  match her with
  | .error e => (s, some e)
  | .ok her =>
    let name := Str.trimPrefix path her.module.dir
    match E.parse her name with
    | .error e => ((her, s.2), some e)
    | .ok pt =>
      if virt name then ((her, s.2), if n.isDir then some .skipDir else none)
      else ((her, s.2 ++ [⟨path, pt, her⟩]), none)

/-- `WalkDecl.Files`, parser/walk.go:53-96; if the root does not exist the callback gets and returns the error. -/
def walkFiles (E : Env) (disk : Node) (virt : Str → Bool) (d : Decl) : Except Err (List File) :=
  let root := GoPath.join2 d.file.here.module.dir d.file.path.name
  match osStat disk root with
  | none => .error .notExist
  | some n =>
    match Disk.walk (walkFn E virt) root n (d.file.here, []) with
    | (s, none) => .ok s.2
    | (_, some e) => .error e

/-- `OpenDecl.Files`, parser/open.go:50-78. -/
def openFiles (E : Env) (disk : Node) (virt : Str → Bool) (d : Decl) : Except Err (List File) :=
  if virt d.value then .ok []
  else
    match osStat disk (GoPath.join2 d.file.here.module.dir d.file.path.name) with
    | none => .error .notExist
    | some n => if n.isDir then walkFiles E disk virt d else .ok [d.file]

/-- `Files` of the types that have it (parser/open.go:50, walk.go:53, stat.go:49, http.go:49, include.go:80; the
last three delegate to `OpenDecl`), or `none`. -/
def filer (E : Env) (disk : Node) (d : Decl) : Option ((Str → Bool) → Except Err (List File)) :=
  match d.kind with
  | .mkdirAll => none
  | .create => none
  | .walk => some fun virt => walkFiles E disk virt d
  | _ => some fun virt => openFiles E disk virt d

/-- The state of the loop of `Decls.Files`: the map `m` from absolute names to files, and the keys of `v`. -/
structure FState where
  m : AMap Str File
  v : List Str

/-- The loop over the files of one declaration, parser/decl.go:46-49. -/
def addFiles (s : FState) : List File → FState
  | [] => s
  | f :: fs => addFiles ⟨AMap.set s.m f.abs f, f.abs :: s.v⟩ fs

/-- The loop of `Decls.Files`, parser/decl.go:29-50. -/
def filesLoop (E : Env) (disk : Node) : List Decl → FState → Except Err FState
  | [], s => .ok s
  | d :: ds, s =>
    let s : FState := ⟨s.m, virtualPaths d ++ s.v⟩
    match filer E disk d with
    | none => filesLoop E disk ds s
    | some fl =>
      match fl (fun x => s.v.contains x) with
      | .error e => .error (.text e)
      | .ok fs => filesLoop E disk ds (addFiles s fs)

/-- `Decls.Files`, parser/decl.go:25-60.  `sort` is what ranging over the map `m` followed by `sort.Slice` does to
the values. -/
def files (E : Env) (disk : Node) (sort : List File → List File) (ds : List Decl) : Except Err (List File) :=
  match filesLoop E disk ds ⟨[], []⟩ with
  | .error e => .error e
  | .ok s => .ok (sort (s.m.map (·.2)))

end Parser
end Verif
