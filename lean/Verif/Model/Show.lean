import Verif.Model.Dump
import Verif.Model.Main
import Verif.Go.FileSet

/-!
What the sub-commands of `pkger` print, and the program as a whole: cmd/pkger/cmds, cmd/pkger/main.go.

Simplifications: printing succeeds, except that a failing `Encode` is not modelled; the position of a declaration in its
source is an input (Model/Positions follows it); what `http.ListenAndServe` does with its handler is
an input (the handler itself is in Model/Http).
-/

namespace Verif
namespace Cmd

open Mem (Details newFileInfo)
open Serial (HereJson encMap encFileInfo)

variable {S : Type}

/-! ### Documents -/

/-- What `Encode` writes after `SetIndent("", " ")`: cmd/pkger/cmds/info.go:37-39, list.go:66-68, parse.go:70-72,
path.go:55-57. -/
def encode (j : Json) : Str := Json.pretty [32] 0 j ++ [10]

/-- A slice in JSON: `null` if it is nil, which is what the slices here are if nothing was appended to them
(parser/parser.go:145, parser/decl.go:52). -/
def encSlice {α : Type} (enc : α → Json) : List α → Json
  | [] => .null
  | l => .arr (l.map enc)

/-- `*parser.File` in JSON, parser/file.go:9-13: a struct without tags. -/
def encPFile (H : HereJson) (f : Parser.File) : Json :=
  .obj [(b! "Abs", .str f.abs), (b! "Path", H.path f.path), (b! "Here", H.info f.here)]

/-- `token.Position` (Go standard library). -/
abbrev Position := Token.Position

/-- `token.Position` in JSON: a struct without tags. -/
def encPosition (p : Position) : Json :=
  .obj [(b! "Filename", .str p.filename), (b! "Offset", .num (Decimal.ofNat p.offset)),
    (b! "Line", .num (Decimal.ofNat p.line)), (b! "Column", .num (Decimal.ofNat p.column))]

/-- The texts at parser/mkdir.go:24, create.go:24, include.go:55, stat.go:24, open.go:25, http.go:24, walk.go:28. -/
def typeText : Parser.Kind → Str
  | .mkdirAll => b! "pkger.MkdirAll"
  | .create => b! "pkger.Create"
  | .include => b! "pkger.Include"
  | .stat => b! "pkger.Stat"
  | .open => b! "pkger.Open"
  | .dir => b! "pkger.Dir"
  | .walk => b! "pkger.Walk"

/-- `MarshalJSON` of the declarations, parser/mkdir.go:22-29, create.go:22-29, include.go:53-60, stat.go:22-29,
open.go:23-30, http.go:22-29, walk.go:26-33: a map, so the members are sorted. -/
def encDecl (H : HereJson) (d : Parser.Decl × Position) : Json :=
  .obj [(b! "file", encPFile H d.1.file), (b! "pos", encPosition d.2), (b! "type", .str (typeText d.1.kind)),
    (b! "value", .str d.1.value)]

/-- `(*FileInfo).String`, pkging/file_info.go:22-25. -/
def fileInfoString (Z : Int → Int) (d : Details) : Str := Json.pretty [32, 32] 0 (encFileInfo Z (some d))

/-! ### What is printed -/

/-- What `list` prints, cmd/pkger/cmds/list.go:63-79. -/
def listOutput (H : HereJson) (json : Bool) (importPath : Str) (files : List Parser.File) : Str :=
  if json then encode (.obj [(b! "ImportPath", .str importPath), (b! "Files", encSlice (encPFile H) files)])
  else listText importPath files

/-- What `path` prints, cmd/pkger/cmds/path.go:55-57. -/
def pathOutput (H : HereJson) (m : AMap Str Path) : Str := encode (encMap H.path m)

/-- What `parse` prints, cmd/pkger/cmds/parse.go:70-72.  `pos a k` is the position of the `k`-th declaration found for the
argument `a`. -/
def parseOutput (H : HereJson) (pos : Str → Nat → Position) (m : AMap Str (List Parser.Decl)) : Str :=
  encode (.obj ((sortBy (·.1) m).map fun e =>
    (e.1, encSlice (encDecl H) (e.2.zipIdx.map fun d => (d.1, pos e.1 d.2)))))

/-- What `info` prints, cmd/pkger/cmds/info.go:37-41. -/
def infoOutput (H : HereJson) (is : List Info) : Str := (is.map fun i => encode (H.info i)).flatten

/-- What `stat` prints, cmd/pkger/cmds/stat.go:47-49, :53. -/
def statOutput (Z : Int → Int) (ds : List Details) : Str := (ds.map fun d => fileInfoString Z d ++ [10]).flatten

/-! ### `serve` -/

/-- `(*serveCmd).Exec`, cmd/pkger/cmds/serve.go:41-60, with the disk Pkger: what was printed, and the error.  `listen` is
`http.ListenAndServe(":3000", http.FileServer(f))`, which does what it does with the file `f` and ends with an error. -/
def serveCmd (E : Env) (O : Stdos.Host S) (listen : Stdos.File → Stdos.World S → Stdos.World S × Err) (w : Stdos.World S)
    (args : List Str) : Stdos.World S × Str × Err :=
  match Stdos.openFile E O w ((orDot args).headD []) with
  | (w1, .error e) => (w1, [], e)
  | (w1, .ok f) =>
    match listen f w1 with
    | (w2, e) => ((Stdos.closeFile O w2 f).1, f.path.str ++ [10], e)

/-! ### Usage -/

/-- A flag as usage shows it: name, explanation, default. -/
structure FlagDoc where
  name : Str
  usage : Str
  dflt : Str
deriving DecidableEq, Repr

/-- The flags of each flag set, in the lexical order in which `VisitAll` gives them: cmd/pkger/cmds/pack.go:105-107,
list.go:86-87, path.go:27, parse.go:26, serve.go:34.  The default shown for a `slice` and for `arrayFlags` is the `String`
of a nil one (pack.go:19-21, serve.go:13-15). -/
def flagDocs (set : Str) : List FlagDoc :=
  if set = b! "pkger" then
    [⟨b! "h", b! "prints help information", b! "false"⟩,
     ⟨b! "include", b! "packages the specified file or directory", b! "[]"⟩,
     ⟨b! "o", b! "output directory for pkged.go", []⟩]
  else if set = b! "list" then
    [⟨b! "include", b! "packages the specified file or directory", b! "[]"⟩,
     ⟨b! "json", b! "prints in JSON format", b! "false"⟩]
  else if set = b! "path" ∨ set = b! "parse" then [⟨b! "h", b! "prints help information", b! "false"⟩]
  else if set = b! "serve" then [⟨b! "exclude", b! "slice of regexp patterns to exclude", b! "[]"⟩]
  else []

/-- The function made by `Usage`, cmd/pkger/cmds/usage.go:9-21; `%q` puts the defaults, which are plain text, in quotes. -/
def usageText (set : Str) : Str :=
  (if set = b! "pkger" then [] else b! "pkger ") ++ set ++ b! " [flags] [args...]\n" ++
    ((flagDocs set).map fun f =>
      b! "\t-" ++ f.name ++ b! "\t" ++ f.usage ++ b! " (\"" ++ f.dflt ++ b! "\")\n").flatten ++ [10]

/-- The usage of everything, cmd/pkger/cmds/pack.go:108-114. -/
def fullUsage : Str := b! "Usage:\n\n" ++ usageText (b! "pkger") ++ (subs.map usageText).flatten

end Cmd

namespace Main

open Go

variable {S : Type}

/-- Everything outside that a run of `pkger` depends on: the Go tool, the operating system and the disk (which for the
commands that read sources depends on the state of `pkged.go`), the JSON form of package here, time zone, positions of
declarations, the server loop, and the status with which the flag package ends the process. -/
structure Around (S : Type) where
  env : Env
  tool : Parser.GoTool
  setup : Pack.Setup
  disk : Option Str → Disk.Node
  host : Stdos.Host S
  pos : Str → Nat → Cmd.Position
  listen : Stdos.File → Stdos.World S → Stdos.World S × Err
  create : Option Err
  writer : Nat → Pack.Writer
  status : Nat

/-- What a run does: the Pkger on disk and the outside world afterwards, the states of the output file, what was printed
to standard output and to standard error (apart from what the flag package and `log.Fatal` print there), and its end. -/
structure Did (S : Type) where
  world : Stdos.World S
  states : List (Option Str)
  out : Str
  err : Str
  fin : RunEnd

/-- How a command that returned an error or nil ends. -/
def finOf : Option Err → RunEnd
  | none => .ok
  | some _ => .err

/-- The result of `path` or `parse`; `usage` is what the flag package prints if help is asked for inside (`-h=true`), which
is left out. -/
def shown {α : Type} (A : Around S) (w : Stdos.World S) (old : Option Str) (text : α → Str) : Cmd.Shown α → Did S
  | .exit => ⟨w, [old], [], [], .exit A.status⟩
  | .usage => ⟨w, [old], [], [], .ok⟩
  | .missing => ⟨w, [old], [], [], .err⟩
  | .err _ => ⟨w, [old], [], [], .err⟩
  | .panic => ⟨w, [old], [], [], .panic⟩
  | .ok a => ⟨w, [old], text a, [], .ok⟩

/-- `c.Exec(args)` of the sub-command with the given name (cmd/pkger/cmds/pack.go:87).  `pkger.Current`, `pkger.Parse`,
`pkger.Open` and `pkger.Info` are those of the disk Pkger, since nothing is applied in the tool. -/
def execSub (A : Around S) (w : Stdos.World S) (old : Option Str) (name : Str) (args : List Str) : Did S :=
  if name = b! "list" then
    match Cmd.list A.env A.tool A.setup.sort A.disk (.ok w.here) args old with
    | (states, .exit) => ⟨w, states, [], [], .exit A.status⟩
    | (states, .err _) => ⟨w, states, [], [], .err⟩
    | (states, .panic) => ⟨w, states, [], [], .panic⟩
    | (states, .files json ip fs) => ⟨w, states, Cmd.listOutput A.setup.here json ip fs, [], .ok⟩
  else if name = b! "path" then
    shown A w old (Cmd.pathOutput A.setup.here) (Cmd.pathCmd A.env w.here args)
  else if name = b! "parse" then
    shown A w old (Cmd.parseOutput A.setup.here A.pos) (Cmd.parseCmd A.env A.tool (A.disk old) args)
  else if name = b! "info" then
    match Cmd.infoCmd A.host w args with
    | (w', is, r) => ⟨w', [old], Cmd.infoOutput A.setup.here is, [], finOf r⟩
  else if name = b! "stat" then
    match Cmd.statCmd A.env A.host w args with
    | (w', ds, r) => ⟨w', [old], Cmd.statOutput A.setup.zone ds, [], finOf r⟩
  else
    match Cmd.serveCmd A.env A.host A.listen w args with
    | (w', out, _) => ⟨w', [old], out, [], .err⟩

/-- `run`, cmd/pkger/main.go:34-41, for the arguments `args`. -/
def run (A : Around S) (w : Stdos.World S) (old : Option Str) (args : List Str) : Did S :=
  match Cmd.route args with
  | .exit => ⟨w, [old], [], [], .exit A.status⟩
  | .usage => ⟨w, [old], [], Cmd.fullUsage, .ok⟩
  | .unknown _ => ⟨w, [old], [], [], .err⟩
  | .subUsage name => ⟨w, [old], [], Cmd.usageText name, .ok⟩
  | .pack out includes =>
    match Pack.exec A.env A.tool A.setup A.disk (.ok w.here) out includes A.create A.writer old with
    | (states, r) => ⟨w, states, [], [], packEnd r⟩
  | .sub name args' => execSub A w old name args'

/-- The whole program, cmd/pkger/main.go:11-41: what `run` does, and then what `main` does about it. -/
def program (A : Around S) (w : Stdos.World S) (old : Option Str) (args : List Str) : Did S × Ran (Effect Unit) :=
  (run A w old args, main [()] (run A w old args).fin)

end Main
end Verif
