import Verif.Model.Stuff
import Verif.Spec.ParserDemo

/-!
The repository's own tests of the parser and of packaging, run on the model: the project in
pkging/pkgtest/testdata/ref and the example in examples/http/pkger, with the numbers the tests demand.

These are checks of the model on single cases, not proofs of properties.  They use the reconstruction of `here.Parse`,
and `here.Dir` as the tests show it: the package description of a directory has the directory itself as `Dir` and the
module's directory as `Module.Dir`.
-/

namespace Verif
namespace Conformance

open Disk (Node)
open Parser (Ast Obj ValueSpec GoTool File Decl)
open Demo (fileNode dirNode)

/-- The repository's directory. -/
def pkgerDir : Str := b! "/go/pkger"

/-- The directory `NewRef` makes, pkging/pkgtest/ref.go:40-47. -/
def refDir : Str := b! "/go/pkger/pkging/pkgtest/testdata/a1b2c3d4e5f6a7b8c9d0"

def pkgerModule : Module := ⟨b! "github.com/markbates/pkger", true, pkgerDir, b! "/go/pkger/go.mod", b! "go1.13"⟩

def refModule : Module := ⟨b! "app", true, refDir, refDir ++ b! "/go.mod", b! "go1.13"⟩

/-- `ref.Info`, pkging/pkgtest/ref.go:49-60. -/
def refInfo : Info := ⟨refDir, b! "app", b! "app", refModule⟩

def pkgerInfo : Info := ⟨pkgerDir, b! "github.com/markbates/pkger", b! "pkger", pkgerModule⟩

def httpDir : Str := b! "/go/pkger/examples/http/pkger"

def httpModule : Module := ⟨b! "app", true, httpDir, httpDir ++ b! "/go.mod", b! "go1.13"⟩

def testifyInfo : Info :=
  ⟨b! "/go/testify", b! "github.com/stretchr/testify", b! "testify",
    ⟨b! "github.com/stretchr/testify", false, b! "/go/testify", b! "/go/testify/go.mod", b! "go1.13"⟩⟩

/-- `here.Dir`. -/
def dirInfo (d : Str) : Except Err Info :=
  if Str.hasPrefix d refDir then
    .ok ⟨d, b! "app" ++ Str.trimPrefix d refDir, if d = refDir then b! "app" else GoPath.base d, refModule⟩
  else if Str.hasPrefix d httpDir then .ok ⟨d, b! "app" ++ Str.trimPrefix d httpDir, b! "main", httpModule⟩
  else if Str.hasPrefix d pkgerDir then
    .ok ⟨d, b! "github.com/markbates/pkger" ++ Str.trimPrefix d pkgerDir, b! "pkger", pkgerModule⟩
  else if Str.hasPrefix d testifyInfo.dir then .ok testifyInfo
  else .error (.other 1)

/-- `here.Package`. -/
def pkgInfo (p : Str) : Except Err Info :=
  if p = b! "app" then .ok refInfo
  else if p = b! "github.com/markbates/pkger" then .ok pkgerInfo
  else if p = b! "github.com/stretchr/testify" then .ok testifyInfo
  else .error (.other 2)

def env : Env := HereParse.env dirInfo pkgInfo Demo.gzip Demo.gunzip

/-! ### The syntax trees of the files -/

def id' (s : Str) : Ast := .ident s none
def qual (x f : Str) (as : List Ast) : Ast := .call (.sel (id' x) f) as

/-- A literal between quotes. -/
def quoted (s : Str) : Ast := .lit (34 :: (s ++ [34]))

/-- `if err != nil { return … }` -/
def ifErr (as : List Ast) : Ast := .other [id' (b! "err"), id' (b! "nil"), .other as]

/-- pkging/pkgtest/testdata/ref/main.go; object 0 is `pathAsset`. -/
def mainGo : Ast :=
  .other
    [.other [.other [quoted (b! "fmt")], .other [quoted (b! "io")], .other [quoted (b! "log")],
      .other [quoted (b! "os")],
      .other [quoted (b! "app/actions")], .other [quoted (b! "github.com/markbates/pkger")]],
     .other [.other [qual (b! "pkger") (b! "Include") [quoted (b! "/web")], .other [.call (id' (b! "run")) [],
       qual (b! "log") (b! "Fatal") [id' (b! "err")]]]],
     .other [.other [id' (b! "unused"), .ident (b! "pathAsset") (some 0), quoted (b! ""), quoted (b! "/assets")]],
     .other
      [.other [qual (b! "actions") (b! "WalkTemplates") [.sel (id' (b! "os")) (b! "Stdout")], ifErr [id' (b! "err")]],
       .other [id' (b! "err"), qual (b! "pkger") (b! "Walk") [.ident (b! "pathAsset") (some 0),
         .other [ifErr [id' (b! "err")], qual (b! "fmt") (b! "Println") [id' (b! "path")], .other [id' (b! "nil")]]]],
       ifErr [id' (b! "err")], .other [id' (b! "nil")]],
     .other
      [.other [id' (b! "info"), id' (b! "err"), qual (b! "pkger") (b! "Stat") [quoted (b! "/go.mod")]],
        ifErr [id' (b! "err")],
       qual (b! "fmt") (b! "Println") [id' (b! "info")],
       .other [qual (b! "pkger") (b! "MkdirAll") [quoted (b! "/foo/bar/baz"), .lit (b! "0755")],
         ifErr [id' (b! "err")]],
       .other [id' (b! "f"), id' (b! "err"), qual (b! "pkger") (b! "Create") [quoted (b! "/foo/bar/baz/biz.txt")]],
         ifErr [id' (b! "err")],
       qual (b! "f") (b! "Write") [.call (.other [id' (b! "byte")]) [quoted (b! "BIZ!!")]],
       .other [qual (b! "f") (b! "Close") [], ifErr [id' (b! "err")]],
       .other [id' (b! "f"), id' (b! "err"), qual (b! "pkger") (b! "Open") [quoted (b! "/foo/bar/baz/biz.txt")]],
         ifErr [id' (b! "err")],
       qual (b! "io") (b! "Copy") [.sel (id' (b! "os")) (b! "Stdout"), id' (b! "f")],
         .other [qual (b! "f") (b! "Close") []]]]

/-- pkging/pkgtest/testdata/ref/actions/actions.go -/
def actionsGo : Ast :=
  .other [.other [quoted (b! "fmt"), quoted (b! "io"), quoted (b! "os"), quoted (b! "github.com/markbates/pkger")],
    .other [qual (b! "pkger") (b! "Walk") [quoted (b! "/templates"),
      .other [ifErr [id' (b! "err")],
        .other [qual (b! "w") (b! "Write") [.call (.other [id' (b! "byte")]) [qual (b! "fmt") (b! "Sprintf") [quoted (b! "%s\\n"), id' (b! "path")]]]],
        id' (b! "err")]]]]

/-- pkging/pkgtest/testdata/ref/mod/mod.go -/
def modGo : Ast :=
  .other [.other [quoted (b! "io/ioutil"), quoted (b! "github.com/markbates/pkger")],
    .other [.other [id' (b! "f"), id' (b! "err"), qual (b! "pkger") (b! "Open") [quoted (b! "/go.mod")]],
      ifErr [quoted (b! ""), id' (b! "nil")],
      .other [qual (b! "f") (b! "Close") []],
        .other [id' (b! "b"), id' (b! "err"), qual (b! "ioutil") (b! "ReadAll") [id' (b! "f")]],
      ifErr [quoted (b! ""), id' (b! "nil")], .other [.call (id' (b! "string")) [id' (b! "b")], id' (b! "nil")]]]

/-- pkging/pkgtest/testdata/ref/models/models.go -/
def modelsGo : Ast :=
  .other [.other [quoted (b! "github.com/markbates/pkger")],
    .other [qual (b! "pkger") (b! "Stat") [quoted (b! "/locales/all.en-us.yaml")]]]

/-- pkging/pkgtest/testdata/ref/web/web.go -/
def webGo : Ast :=
  .other [.other [quoted (b! "net/http"), quoted (b! "github.com/markbates/pkger")],
    .other [qual (b! "pkger") (b! "Stat") [quoted (b! "github.com/markbates/pkger:/README.md")],
      .other [id' (b! "dir"),
        qual (b! "http") (b! "FileServer") [qual (b! "pkger") (b! "Dir") [quoted (b! "/public")]]],
      qual (b! "http") (b! "ListenAndServe") [quoted (b! ":3000"), id' (b! "dir")]]]

/-- examples/http/pkger/main.go -/
def httpGo : Ast :=
  .other [.other [quoted (b! "log"), quoted (b! "net/http"), quoted (b! "github.com/markbates/pkger")],
    .other [.other [.call (id' (b! "run")) [], ifErr [qual (b! "log") (b! "Fatal") [id' (b! "err")]]]],
    .other [.other [id' (b! "dir"),
      qual (b! "http") (b! "FileServer") [qual (b! "pkger") (b! "Dir") [quoted (b! "/public")]]],
      .other [qual (b! "http") (b! "ListenAndServe") [quoted (b! ":3000"), id' (b! "dir")]]]]

/-- The constants of main.go: `unused, pathAsset = "", "/assets"`. -/
def objects : Nat → Obj
  | _ => ⟨true, some ⟨[b! "unused", b! "pathAsset"], [quoted (b! ""), quoted (b! "/assets")]⟩⟩

/-- `go/parser` on these files. -/
def goTool : GoTool where
  parse abs _ :=
    if abs = refDir ++ b! "/main.go" then .ok (mainGo, objects)
    else if abs = refDir ++ b! "/actions/actions.go" then .ok (actionsGo, objects)
    else if abs = refDir ++ b! "/mod/mod.go" then .ok (modGo, objects)
    else if abs = refDir ++ b! "/models/models.go" then .ok (modelsGo, objects)
    else if abs = refDir ++ b! "/web/web.go" then .ok (webGo, objects)
    else if abs = httpDir ++ b! "/main.go" then .ok (httpGo, objects)
    else .error (.other 3)
  order := id
  depth := 100

/-! ### The disk -/

/-- The files of the project as `LoadFiles("/", ref, disk)` copies them: names beginning with a dot are left out
(pkging/pkgtest/load_ref.go:90-92). -/
def refKids : List (Str × Node) :=
  [dirNode (b! "actions") [fileNode (b! "actions.go") []],
   dirNode (b! "assets")
    [dirNode (b! "css") [fileNode (b! "_buffalo.scss") [], fileNode (b! "application.scss") (b! "body {}")],
     dirNode (b! "images") [fileNode (b! "favicon.ico") [1, 2], fileNode (b! "logo.svg") (b! "<svg/>")],
     dirNode (b! "js") [fileNode (b! "application.js") (b! "1;")]],
   fileNode (b! "go.mod") (b! "module app"),
   fileNode (b! "go.sum") [],
   dirNode (b! "locales") [fileNode (b! "all.en-us.yaml") (b! "- id: a")],
   fileNode (b! "main.go") [],
   dirNode (b! "mod") [fileNode (b! "mod.go") []],
   dirNode (b! "models") [fileNode (b! "models.go") []],
   dirNode (b! "public")
    [dirNode (b! "assets") [fileNode (b! "app.css") (b! "p {}")],
     dirNode (b! "images") [fileNode (b! "img1.png") [137, 80]],
     fileNode (b! "index.html") (b! "<html>"), fileNode (b! "robots.txt") (b! "User-agent")],
   dirNode (b! "templates")
    [fileNode (b! "_flash.plush.html") [], fileNode (b! "application.plush.html") [],
      fileNode (b! "index.plush.html") []],
   dirNode (b! "web") [fileNode (b! "web.go") []]]

def httpKids : List (Str × Node) :=
  [fileNode (b! "Dockerfile") [], fileNode (b! "Makefile") [], fileNode (b! "go.mod") [], fileNode (b! "go.sum") [],
   fileNode (b! "main.go") [],
   dirNode (b! "public")
    [dirNode (b! "images") [fileNode (b! "img1.png") [], fileNode (b! "img2.png") []], fileNode (b! "index.html") []]]

/-- The disk with the project, whose directory has the given content. -/
def diskWith (kids : List (Str × Node)) : Node :=
  Demo.disk [dirNode (b! "go")
    [dirNode (b! "pkger")
      [fileNode (b! "README.md") (b! "# Pkger"),
       dirNode (b! "examples") [dirNode (b! "http") [dirNode (b! "pkger") httpKids]],
       dirNode (b! "pkging") [dirNode (b! "pkgtest") [dirNode (b! "testdata") [dirNode (b! "a1b2c3d4e5f6a7b8c9d0") kids]]]],
     dirNode (b! "testify") [fileNode (b! "go.mod") []]]]

def refDisk : Node := diskWith refKids

/-- The declarations found, and then the files. -/
def found (disk : Node) (her : Info) (includes : List Str) : Option (List Decl × List File) :=
  match Parser.decls env goTool disk her includes with
  | .ok ds =>
    match Parser.files env disk Demo.sortFiles ds with
    | .ok fs => some (ds, fs)
    | .error _ => none
  | _ => none

/-- The numbers of declarations and files. -/
def counts (disk : Node) (her : Info) (includes : List Str) : Option (Nat × Nat) :=
  (found disk her includes).map fun r => (r.1.length, r.2.length)

/-- `Test_Parser_Ref`, parser/parser_test.go:17-44, and `Test_Stuff`, pkging/pkgutil/stuff_test.go:35-51: 11 declarations
and 25 files. -/
example : counts refDisk refInfo [] = some (11, 25) := by decide +kernel

/-- `Test_Parser_Ref_Include`, parser/parser_test.go:46-72: 26 files. -/
example : counts refDisk refInfo [b! "github.com/stretchr/testify:/go.mod"] = some (12, 26) := by decide +kernel

/-- `Test_Parser_dotGo_Directory`, parser/parser_test.go:74-93: a directory named `.go` makes no difference. -/
example : counts (diskWith (dirNode (b! ".go") [] :: refKids)) refInfo [] = some (11, 25) := by decide +kernel

/-- `Test_Parser_Example_HTTP`, parser/parser_test.go:95-122: 5 files, all below the package's directory and below
`/public`. -/
example : (found refDisk ⟨httpDir, b! "app", b! "main", httpModule⟩ []).map
      (fun r => (r.2.length,
        r.2.all fun f => Str.hasPrefix f.abs httpDir && Str.hasPrefix f.path.name (b! "/public"))) =
    some (5, true) := by decide +kernel

/-- `Test_Stuff`, pkging/pkgutil/stuff_test.go:43-49: the files of the module have its path as their package, the others
have not. -/
example : (found refDisk refInfo []).map (fun r => r.2.map fun f => f.path.pkg == b! "app") =
    some (List.replicate 24 true ++ [false]) := by decide +kernel

end Conformance
end Verif
