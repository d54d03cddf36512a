import Verif.Model.Add
import Verif.Model.Parser
import Verif.Model.Serial

/-!
Packaging: pkging/pkgutil/stuff.go and `Package` of cmd/pkger/cmds/pack.go.

Simplifications: the disk does not change while packaging reads it (except for the output file, which is followed
separately); `os.Open` fails only for files that do not exist.
-/

namespace Verif
namespace Pack

open Disk (Node)
open Mem (World OsFile)
open Parser (File Decl)

/-- The suffix tested at pkging/pkgutil/stuff.go:28. -/
def tmp : Str := b! ".tmp"

/-- The loop of `Stuff`, pkging/pkgutil/stuff.go:26-47. -/
def stuffLoop (E : Env) (disk : Node) : List File → World → World × Res Unit
  | [], w => (w, .ok ())
  | f :: fs, w =>
    if Str.hasSuffix f.abs tmp then stuffLoop E disk fs w
    else
      match Parser.osStat disk f.abs with
      | none => (w, .err (.text .notExist))
      | some n =>
        match Mem.add E w [⟨f.abs, n⟩] with
        | (w', .ok _) => stuffLoop E disk fs w'
        | r => r

/-- The surroundings of one run of `Stuff`: the disk, the order in which maps are visited, the JSON form of package
here, the time zone and the time. -/
structure Setup where
  disk : Node
  sort : List File → List File
  here : Serial.HereJson
  zone : Int → Int
  now : Int

/-- The Pkger `Stuff` fills, pkging/pkgutil/stuff.go:16-47. -/
def stuffed (E : Env) (S : Setup) (c : Info) (ds : List Decl) : Res World :=
  match Parser.files E S.disk S.sort ds with
  | .error e => .err e
  | .ok fs =>
    match stuffLoop E S.disk fs (Mem.new c S.now) with
    | (w, .ok _) => .ok w
    | (_, .err e) => .err e
    | (_, .panic) => .panic

/-- The bytes `Stuff` writes, pkging/pkgutil/stuff.go:16-57. -/
def blob (E : Env) (S : Setup) (c : Info) (ds : List Decl) : Res Str :=
  match stuffed E S c ds with
  | .ok w => .ok (Embed.encode E (Serial.marshal S.here S.zone w))
  | .err e => .err e
  | .panic => .panic

/-- An `io.Writer`: how many of the given bytes a call takes, and the error it returns. -/
abbrev Writer := Str → Nat × Option Err

/-- `pkgutil.Stuff`, pkging/pkgutil/stuff.go:15-61: what is written, and the result.  The error of the write at :59
is assigned and then dropped at :60. -/
def stuff (E : Env) (S : Setup) (c : Info) (ds : List Decl) (wr : Writer) : Str × Res Unit :=
  match blob E S c ds with
  | .ok b => (b.take (wr b).1, .ok ())
  | .err e => ([], .err e)
  | .panic => ([], .panic)

/-! ### The generated file -/

/-- The texts written before the blob, cmd/pkger/cmds/pack.go:145-150. -/
def headers (pkgName : Str) : List Str :=
  [b! "// Code generated by pkger; DO NOT EDIT.\n\n",
   b! "// +build !skippkger\n\n",
   b! "package " ++ pkgName ++ b! "\n\n",
   b! "import (\n\t\"github.com/markbates/pkger\"\n\t",
   b! "\"github.com/markbates/pkger/pkging/mem\"\n)\n\n",
   b! "var _ = pkger.Apply(mem.UnmarshalEmbed([]byte(`"]

/-- The text written after the blob, cmd/pkger/cmds/pack.go:156. -/
def footer : Str := b! "`)))\n"

/-- A complete generated file. -/
def complete (pkgName b : Str) : Str := (headers pkgName).flatten ++ b ++ footer

/-- The contents of the output file after each of a row of writes, the last one first; the errors of the writes are
ignored (cmd/pkger/cmds/pack.go:145-150).  `wr n` is the behaviour of the `n`-th write. -/
def writes (wr : Nat → Writer) : Nat → List Str → Str → List Str
  | _, [], _ => []
  | n, s :: ss, old => (old ++ s.take (wr n s).1) :: writes wr (n + 1) ss (old ++ s.take (wr n s).1)

/-- `Package`, cmd/pkger/cmds/pack.go:126-159, for the result of `here.Dir` at :127 and the error of `os.Create`
at :139: the successive states of the output file (`none`: it does not exist), starting with `old`, and the result.
`st h` is `pkgutil.Stuff` running while the output file contains `h`.  A recovered panic removes the file and leaves
the result nil (:133-137).  `os.RemoveAll` is taken to succeed. -/
def packageWith (c : Except Err Info) (create : Option Err) (wr : Nat → Writer) (st : Str → Writer → Str × Res Unit)
    (old : Option Str) : List (Option Str) × Res Unit :=
  match c with
  | .error e => ([old], .err e)
  | .ok c =>
    match create with
    | some e => ([old, none], .err e)
    | none =>
      let hs := writes wr 0 (headers c.name) []
      let h := hs.getLast?.getD []
      let states := old :: none :: some [] :: hs.map some
      match st h (wr 6) with
      | (_, .panic) => (states ++ [none], .ok ())
      | (_, .err e) => (states, .err e)
      | (b, .ok _) => (states ++ (some (h ++ b) :: (writes wr 7 [footer] (h ++ b)).map some), .ok ())

/-- `Package`, cmd/pkger/cmds/pack.go:126-159, on a disk that depends on the state of the output file only. -/
def package (E : Env) (S : Setup) (disk : Option Str → Node) (info : Info) (out : Str) (ds : List Decl)
    (create : Option Err) (wr : Nat → Writer) (old : Option Str) : List (Option Str) × Res Unit :=
  packageWith (E.dirInfo (GoPath.dir out)) create wr (fun h => stuff E { S with disk := disk (some h) } info ds) old

/-- `outName`, cmd/pkger/cmds/pack.go:28. -/
def outName : Str := b! "pkged.go"

/-- `packCmd.Exec`, cmd/pkger/cmds/pack.go:42-61, for the result of `pkger.Current` at :43: the successive states of
the output file and the result. -/
def exec (E : Env) (G : Parser.GoTool) (S : Setup) (disk : Option Str → Node) (current : Except Err Info) (outDir : Str)
    (includes : List Str) (create : Option Err) (wr : Nat → Writer) (old : Option Str) :
    List (Option Str) × Res Unit :=
  match current with
  | .error e => ([old], .err e)
  | .ok info =>
    let fp := GoPath.join2 (GoPath.join2 info.dir outDir) outName
    match Parser.decls E G (disk none) info includes with
    | .err e => ([old, none], .err e)
    | .panic => ([old, none], .panic)
    | .ok ds =>
      let r := package E S disk info fp ds create wr none
      (old :: r.1, r.2)

end Pack
end Verif
