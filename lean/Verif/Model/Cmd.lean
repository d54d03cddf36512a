import Verif.Go.Flag
import Verif.Go.Sort
import Verif.Model.Stuff
import Verif.Model.Stdos

/-! The command line tool: cmd/pkger/cmds. -/

namespace Verif
namespace Cmd

open Mem (Details newFileInfo)

/-- The flags of `pkger` itself, cmd/pkger/cmds/pack.go:104-107. -/
def packFlags (name : Str) : Option Flag.Kind :=
  if name = b! "h" then some .bool
  else if name = b! "o" then some .text
  else if name = b! "include" then some .text
  else none

/-- The sub-commands by name, cmd/pkger/cmds/pack.go:97-102, with the names given at serve.go:33, stat.go:21,
info.go:21, path.go:25, parse.go:24, list.go:85, sorted by name.  (The comparison at :101 is `<=`, which makes no
difference for different names.) -/
def subs : List Str :=
  sortBy id [b! "serve", b! "stat", b! "info", b! "path", b! "parse", b! "list"]

/-- What `Route` does. -/
inductive Action where
  /-- The flag package ended the process. -/
  | exit
  /-- Usage of everything (pack.go:67, :108-114). -/
  | usage
  /-- `packCmd.Exec` with the output directory and the includes (pack.go:74). -/
  | pack (out : Str) (includes : List Str)
  /-- Usage of one sub-command (pack.go:83). -/
  | subUsage (name : Str)
  /-- `Exec` of one sub-command (pack.go:87). -/
  | sub (name : Str) (args : List Str)
  /-- The error at pack.go:91, with its text. -/
  | unknown (text : Str)
deriving DecidableEq, Repr

/-- `strings.Join(args, " ")`. -/
def joinBlank : List Str → Str
  | [] => []
  | [s] => s
  | s :: t => s ++ 32 :: joinBlank t

/-- `(*packCmd).Route`, cmd/pkger/cmds/pack.go:63-92. -/
def route (args : List Str) : Action :=
  match Flag.parse packFlags args with
  | .exit => .exit
  | .done sets rest =>
    if Flag.lastBool sets (b! "h") = true then .usage
    else
      match rest with
      | [] => .pack (Flag.lastText sets (b! "o") []) (Flag.allTexts sets (b! "include"))
      | k :: args' =>
        match subs.find? (fun c => k == c) with
        | some c => if args'.any (· == b! "-h") then .subUsage c else .sub c args'
        | none => .unknown (b! "unknown arguments: " ++ joinBlank rest)

/-! ### Sub-commands -/

/-- The flags of `list`, cmd/pkger/cmds/list.go:86-87. -/
def listFlags (name : Str) : Option Flag.Kind :=
  if name = b! "json" then some .bool
  else if name = b! "include" then some .text
  else none

/-- The text `list` prints without `-json`, cmd/pkger/cmds/list.go:76-79. -/
def listText (importPath : Str) (files : List Parser.File) : Str :=
  importPath ++ 10 :: (files.map fun f => b! " > " ++ f.path.str ++ [10]).flatten

/-- What `listCmd.Exec` ends with: the process ended in the flag package, an error, a panic, or the import path and
the files it is about to print (with whether as JSON). -/
inductive Listed where
  | exit
  | err (e : Err)
  | panic
  | files (json : Bool) (importPath : Str) (fs : List Parser.File)

/-- `(*listCmd).Exec`, cmd/pkger/cmds/list.go:27-81, for the result of `pkger.Current` at :37: the successive states of
the file `pkged.go` in the directory of the package, starting with `old`, and the result.  The disk depends on the
state of that file; `sort` is the sorting of `Decls.Files`.  As in `Pack.exec`, `os.RemoveAll` succeeds.  The flag `-h`
is not defined by `list` (`help` at list.go:17 is never set), so :30-33 is unreachable. -/
def list (E : Env) (G : Parser.GoTool) (sort : List Parser.File → List Parser.File) (disk : Option Str → Disk.Node)
    (current : Except Err Info) (args : List Str) (old : Option Str) : List (Option Str) × Listed :=
  match Flag.parse listFlags args with
  | .exit => ([old], .exit)
  | .done sets _ =>
    match current with
    | .error e => ([old], .err e)
    | .ok info =>
      match Parser.decls E G (disk none) info (Flag.allTexts sets (b! "include")) with
      | .err e => ([old, none], .err e)
      | .panic => ([old, none], .panic)
      | .ok ds =>
        match Parser.files E (disk none) sort ds with
        | .error e => ([old, none], .err e)
        | .ok fs => ([old, none], .files (Flag.lastBool sets (b! "json")) info.importPath fs)

variable {S : Type}

/-- `if len(args) == 0 { args = []string{"."} }`, cmd/pkger/cmds/stat.go:27-29 and info.go:27-29. -/
def orDot (args : List Str) : List Str := if args = [] then [b! "."] else args

/-- The loop of `infoCmd.Exec`, cmd/pkger/cmds/info.go:30-42; printing succeeds.  The result is what was printed. -/
def infoLoop (O : Stdos.Host S) (w : Stdos.World S) : List Str → Stdos.World S × List Info × Option Err
  | [] => (w, [], none)
  | a :: rest =>
    match Stdos.info O w a with
    | (w1, .error e) => (w1, [], some e)
    | (w1, .ok i) =>
      match infoLoop O w1 rest with
      | (w2, out, r) => (w2, i :: out, r)

/-- `(*infoCmd).Exec`, cmd/pkger/cmds/info.go:26-45, with the disk Pkger. -/
def infoCmd (O : Stdos.Host S) (w : Stdos.World S) (args : List Str) : Stdos.World S × List Info × Option Err :=
  infoLoop O w (orDot args)

/-- The flags of `path` and `parse`, cmd/pkger/cmds/path.go:27, parse.go:26. -/
def helpFlags (name : Str) : Option Flag.Kind := if name = b! "h" then some .bool else none

/-- The loop of `pathCmd.Exec`, cmd/pkger/cmds/path.go:46-53: the map that is printed, or the error. -/
def pathLoop (E : Env) (here : Info) : List Str → AMap Str Path → Except Err (AMap Str Path)
  | [], m => .ok m
  | a :: rest, m =>
    match E.parse here a with
    | .error e => .error e
    | .ok pt => pathLoop E here rest (AMap.set m a pt)

/-- What `pathCmd.Exec` and `parseCmd.Exec` end with, apart from the printing. -/
inductive Shown (α : Type) where
  | exit
  | usage
  | missing
  | err (e : Err)
  | panic
  | ok (a : α)

/-- `(*pathCmd).Exec`, cmd/pkger/cmds/path.go:32-58, with the disk Pkger of the package `here`. -/
def pathCmd (E : Env) (here : Info) (args : List Str) : Shown (AMap Str Path) :=
  match Flag.parse helpFlags args with
  | .exit => .exit
  | .done sets rest =>
    if Flag.lastBool sets (b! "h") = true then .usage
    else if rest = [] then .missing
    else
      match pathLoop E here rest [] with
      | .error e => .err e
      | .ok m => .ok m

/-- The loop of `parseCmd.Exec`, cmd/pkger/cmds/parse.go:45-68. -/
def parseLoop (E : Env) (G : Parser.GoTool) (disk : Disk.Node) :
    List Str → AMap Str (List Parser.Decl) → Shown (AMap Str (List Parser.Decl))
  | [], m => .ok m
  | a :: rest, m =>
    match if a = b! "." then E.dirInfo a else E.pkgInfo a with
    | .error e => .err e
    | .ok info =>
      match Parser.decls E G disk info [] with
      | .err e => .err e
      | .panic => .panic
      | .ok ds => parseLoop E G disk rest (AMap.set m a ds)

/-- `(*parseCmd).Exec`, cmd/pkger/cmds/parse.go:31-73. -/
def parseCmd (E : Env) (G : Parser.GoTool) (disk : Disk.Node) (args : List Str) : Shown (AMap Str (List Parser.Decl)) :=
  match Flag.parse helpFlags args with
  | .exit => .exit
  | .done sets rest =>
    if Flag.lastBool sets (b! "h") = true then .usage else parseLoop E G disk (orDot rest) []

/-- The loop of `statCmd.Exec`, cmd/pkger/cmds/stat.go:30-54: what was printed, the files whose `Close` is deferred
(the last one first), and the error. -/
def statLoop (E : Env) (O : Stdos.Host S) (w : Stdos.World S) (deferred : List Stdos.File) :
    List Str → Stdos.World S × List Details × List Stdos.File × Option Err
  | [] => (w, [], deferred, none)
  | a :: rest =>
    match Stdos.openFile E O w a with
    | (w1, .error e) => (w1, [], deferred, some e)
    | (w1, .ok f) =>
      match Stdos.fileStat O w1 f with
      | (w2, f', .error e) => (w2, [], f' :: deferred, some e)
      | (w2, f', .ok fi) =>
        if fi.isDir = true then
          match Stdos.fileReaddir O w2 f' (-1) with
          | (w3, .error e) => (w3, [], f' :: deferred, some e)
          | (w3, .ok l) =>
            match statLoop E O w3 (f' :: deferred) rest with
            | (w4, out, ds, r) => (w4, l.map newFileInfo ++ out, ds, r)
        else
          match statLoop E O w2 (f' :: deferred) rest with
          | (w4, out, ds, r) => (w4, newFileInfo fi :: out, ds, r)

/-- Running the deferred calls. -/
def closeAll (O : Stdos.Host S) : List Stdos.File → Stdos.World S → Stdos.World S
  | [], w => w
  | f :: fs, w => closeAll O fs (Stdos.closeFile O w f).1

/-- `(*statCmd).Exec`, cmd/pkger/cmds/stat.go:26-57, with the disk Pkger: what was printed, and the error. -/
def statCmd (E : Env) (O : Stdos.Host S) (w : Stdos.World S) (args : List Str) :
    Stdos.World S × List Details × Option Err :=
  match statLoop E O w [] (orDot args) with
  | (w1, out, ds, r) => (closeAll O ds w1, out, r)

end Cmd
end Verif
