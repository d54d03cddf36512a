import Verif.Go.Base64
import Verif.Go.Time
import Verif.Model.Embed
import Verif.Model.Mem

/-!
Writing an in-memory Pkger as JSON and reading it back: pkging/mem/embed.go with the types of
pkging/embed/embed.go:51-55, pkging/embed/file.go and pkging/file_info.go.

Simplifications:
* `Details.Sys` (pkging/file_info.go:15) is written as `null` and ignored when reading.
* Member names are compared exactly or ignoring ASCII case; Go also folds U+212A and U+017F.
* A JSON array for the `[]byte` field (which Go accepts) is an error.
* After a type mismatch Go goes on decoding and returns the error at the end; the model stops at once.  The decoded
  value is discarded in both cases (pkging/mem/embed.go:52-54).
-/

namespace Verif
namespace Serial

open Mem (Details FileObj World)

/-! ### Typed JSON decoding (`encoding/json`) -/

/-- ASCII lower case. -/
def lower (s : Str) : Str := s.map fun c => if 65 ≤ c ∧ c ≤ 90 then c + 32 else c

/-- Reading a JSON value into a variable holding a value of type `α`. -/
abbrev Dec (α : Type) := α → Json → Option α

/-- The struct field a member belongs to: exact name, else ignoring case. -/
def field {α : Type} (fs : List (Str × Dec α)) (k : Str) : Option (Dec α) :=
  match fs.find? fun f => f.1 == k with
  | some f => some f.2
  | none => (fs.find? fun f => lower f.1 == lower k).map (·.2)

/-- The members of an object, read into a struct one after the other; unknown members are ignored. -/
def members {α : Type} (fs : List (Str × Dec α)) : α → List (Str × Json) → Option α
  | a, [] => some a
  | a, (k, j) :: ms =>
    match field fs k with
    | none => members fs a ms
    | some g => (g a j).bind fun a' => members fs a' ms

/-- A struct. -/
def struct {α : Type} (fs : List (Str × Dec α)) : Dec α
  | a, .null => some a
  | a, .obj ms => members fs a ms
  | _, _ => none

/-- A string. -/
def decStr : Dec Str
  | a, .null => some a
  | _, .str s => some s
  | _, _ => none

/-- A bool. -/
def decBool : Dec Bool
  | a, .null => some a
  | _, .bool b => some b
  | _, _ => none

/-- An `int64`. -/
def decInt64 : Dec Int
  | a, .null => some a
  | _, .num t =>
    match Decimal.toInt t with
    | some n => if -9223372036854775808 ≤ n ∧ n < 9223372036854775808 then some n else none
    | none => none
  | _, _ => none

/-- A `uint32` (`os.FileMode`). -/
def decUint32 : Dec Nat
  | a, .null => some a
  | _, .num t =>
    match Decimal.toNat t with
    | some n => if n < 4294967296 then some n else none
    | none => none
  | _, _ => none

/-- A `[]byte`: standard base64. -/
def decBytes : Dec (Option Str)
  | _, .null => some none
  | _, .str s => (Base64.decode s).map some
  | _, _ => none

/-- The entries of a map, read one after the other into fresh values. -/
def decEntries {α : Type} (dec : Json → Option α) : AMap Str α → List (Str × Json) → Option (AMap Str α)
  | m, [] => some m
  | m, (k, j) :: ms => (dec j).bind fun v => decEntries dec (AMap.set m k v) ms

/-- A map with string keys. -/
def decMap {α : Type} (dec : Json → Option α) : Dec (AMap Str α)
  | _, .null => some []
  | m, .obj ms => decEntries dec m ms
  | _, _ => none

/-! ### The types of package here -/

/-- How `encoding/json` treats `here.Info` and `here.Path` (types of github.com/gobuffalo/here, which is not part of
the repository). -/
structure HereJson where
  info : Info → Json
  infoOf : Dec Info
  path : Path → Json
  pathOf : Dec Path

/-! ### The embedded data -/

/-- `embed.File`, pkging/embed/file.go:8-14. -/
structure EFile where
  info : Option Details
  here : Info
  path : Path
  data : Option Str
  parent : Path
deriving DecidableEq, Repr

/-- `embed.Data`, pkging/embed/embed.go:51-55. -/
structure EData where
  infos : AMap Str Info
  files : AMap Str EFile
  here : Info

/-- The zero `Details`; the zero `time.Time` is the first of January of year 1. -/
def detailsZero : Details := ⟨[], 0, 0, -62135596800000000000, false⟩

/-- The zero `embed.File`. -/
def fileZero : EFile := ⟨none, Mem.infoZero, Path.zero, none, Path.zero⟩

/-- `Details` in JSON, pkging/file_info.go:9-16; the time as in pkging/mod_time.go:12-15.  `Z` gives the offset from
UTC, in seconds, of the location the time is expressed in. -/
def encDetails (Z : Int → Int) (d : Details) : Json :=
  .obj [(b! "name", .str d.name), (b! "size", .num (Decimal.ofInt d.size)), (b! "mode", .num (Decimal.ofNat d.mode)),
    (b! "mod_time", .str (Time.format d.modTime (Z d.modTime))), (b! "is_dir", .bool d.isDir), (b! "sys", .null)]

/-- `ModTime.UnmarshalJSON`, pkging/mod_time.go:17-24: `null` gives the zero time. -/
def decTime : Dec Int
  | _, .null => some detailsZero.modTime
  | _, .str s => Time.parse s
  | _, _ => none

/-- The fields of `Details`, pkging/file_info.go:9-16. -/
def detailsFields : List (Str × Dec Details) :=
  [(b! "name", fun d j => (decStr d.name j).map fun x => { d with name := x }),
   (b! "size", fun d j => (decInt64 d.size j).map fun x => { d with size := x }),
   (b! "mode", fun d j => (decUint32 d.mode j).map fun x => { d with mode := x }),
   (b! "mod_time", fun d j => (decTime d.modTime j).map fun x => { d with modTime := x }),
   (b! "is_dir", fun d j => (decBool d.isDir j).map fun x => { d with isDir := x }),
   (b! "sys", fun d _ => some d)]

/-- `pkging.FileInfo`, pkging/file_info.go:18-20. -/
def fileInfoFields : List (Str × Dec Details) := [(b! "details", struct detailsFields)]

/-- A `*pkging.FileInfo` in JSON. -/
def encFileInfo (Z : Int → Int) : Option Details → Json
  | none => .null
  | some d => .obj [(b! "details", encDetails Z d)]

/-- Reading a `*pkging.FileInfo`: `null` gives nil, anything else is read into the value pointed to, a new one if
there is none. -/
def decFileInfo : Dec (Option Details)
  | _, .null => some none
  | a, j => (struct fileInfoFields (a.getD detailsZero) j).map some

/-- A `[]byte` in JSON. -/
def encBytes : Option Str → Json
  | none => .null
  | some b => .str (Base64.encode b)

/-- `embed.File` in JSON, pkging/embed/file.go:8-14. -/
def encFile (H : HereJson) (Z : Int → Int) (f : EFile) : Json :=
  .obj [(b! "info", encFileInfo Z f.info), (b! "her", H.info f.here), (b! "path", H.path f.path),
    (b! "data", encBytes f.data), (b! "parent", H.path f.parent)]

/-- The fields of `embed.File`, pkging/embed/file.go:8-14. -/
def fileFields (H : HereJson) : List (Str × Dec EFile) :=
  [(b! "info", fun f j => (decFileInfo f.info j).map fun x => { f with info := x }),
   (b! "her", fun f j => (H.infoOf f.here j).map fun x => { f with here := x }),
   (b! "path", fun f j => (H.pathOf f.path j).map fun x => { f with path := x }),
   (b! "data", fun f j => (decBytes f.data j).map fun x => { f with data := x }),
   (b! "parent", fun f j => (H.pathOf f.parent j).map fun x => { f with parent := x })]

/-- A map in JSON: the members are sorted by name. -/
def encMap {α : Type} (enc : α → Json) (m : AMap Str α) : Json :=
  .obj ((sortBy (·.1) m).map fun e => (e.1, enc e.2))

/-- `embed.Data` in JSON, pkging/embed/embed.go:51-55. -/
def encData (H : HereJson) (Z : Int → Int) (d : EData) : Json :=
  .obj [(b! "infos", encMap H.info d.infos), (b! "files", encMap (encFile H Z) d.files), (b! "here", H.info d.here)]

/-- The fields of `embed.Data`, pkging/embed/embed.go:51-55. -/
def dataFields (H : HereJson) : List (Str × Dec EData) :=
  [(b! "infos", fun d j => (decMap (H.infoOf Mem.infoZero) d.infos j).map fun x => { d with infos := x }),
   (b! "files", fun d j => (decMap (struct (fileFields H) fileZero) d.files j).map fun x => { d with files := x }),
   (b! "here", fun d j => (H.infoOf d.here j).map fun x => { d with here := x })]

/-! ### The Pkger -/

/-- The `embed.File` of a stored file, pkging/mem/embed.go:21-27. -/
def efile (f : FileObj) : EFile := ⟨f.info, f.here, f.path, f.data, f.parent⟩

/-- The data written for a Pkger, pkging/mem/embed.go:14-41: every stored file under the text of its path, and the
infos.  Should two paths have the same text, the one visited last wins. -/
def embedData (w : World) : EData :=
  { infos := w.infos.foldl (fun m e => AMap.set m e.1 e.2) []
    files := w.files.foldl (fun m e => AMap.set m e.1.str (efile (w.heap e.2))) []
    here := w.here }

/-- `Pkger.MarshalJSON`, pkging/mem/embed.go:13-43. -/
def marshal (H : HereJson) (Z : Int → Int) (w : World) : Str := (encData H Z (embedData w)).print

/-- The file object made for an embedded file, pkging/mem/embed.go:69-75. -/
def fileOf (v : EFile) : FileObj :=
  { here := v.here, info := v.info, path := v.path, data := v.data, parent := v.parent, writer := none,
    reader := none, pkging := false }

/-- The loop over the embedded files, pkging/mem/embed.go:63-77. -/
def loadFiles (E : Env) : World → List (Str × EFile) → World × Res Unit
  | w, [] => (w, .ok ())
  | w, (k, v) :: l =>
    match Mem.parse E w k with
    | .error e => (w, .err e)
    | .ok pt => loadFiles E (Mem.store (Mem.alloc w (fileOf v)).1 pt (Mem.alloc w (fileOf v)).2) l

/-- `Pkger.UnmarshalJSON`, pkging/mem/embed.go:46-79.  `ord` is the order in which the map of files is visited
at :63.  For the value `null`, `json.Unmarshal(b, &y)` at :52 sets the pointer `y` to nil, and :56 dereferences it. -/
def unmarshal (E : Env) (H : HereJson) (ord : AMap Str EFile → List (Str × EFile)) (w : World) (b : Str) :
    World × Res Unit :=
  match Json.parse b with
  | none => (w, .err .codec)
  | some .null => (w, .panic)
  | some j =>
    match struct (dataFields H) ⟨[], [], Mem.infoZero⟩ j with
    | none => (w, .err .codec)
    | some y => loadFiles E { w with here := y.here, infos := y.infos, files := [] } (ord y.files)

/-- The zero `Pkger`, pkging/mem/embed.go:87. -/
def zero (now : Int) : World :=
  { here := Mem.infoZero, infos := [], files := [], heap := fun _ => FileObj.zero, next := 0, now := now }

/-- `mem.UnmarshalEmbed`, pkging/mem/embed.go:81-92. -/
def unmarshalEmbed (E : Env) (H : HereJson) (ord : AMap Str EFile → List (Str × EFile)) (now : Int) (inp : Str) :
    Res World :=
  match Embed.decode E inp with
  | .error e => .err e
  | .ok b =>
    match unmarshal E H ord (zero now) b with
    | (w, .ok _) => .ok w
    | (_, .err e) => .err e
    | (_, .panic) => .panic

/-! ### The assumption on package here -/

/-- All strings of an info are valid UTF-8. -/
def InfoText (i : Info) : Prop :=
  Utf8.Valid i.dir ∧ Utf8.Valid i.importPath ∧ Utf8.Valid i.name ∧ Utf8.Valid i.module.path ∧
    Utf8.Valid i.module.dir ∧ Utf8.Valid i.module.goMod ∧ Utf8.Valid i.module.goVersion

instance (i : Info) : Decidable (InfoText i) := by unfold InfoText; infer_instance

/-- All strings of a path are valid UTF-8. -/
def PathText (p : Path) : Prop := Utf8.Valid p.pkg ∧ Utf8.Valid p.name

instance (p : Path) : Decidable (PathText p) := by unfold PathText; infer_instance

/-- What the proofs assume about `here.Info` and `here.Path` in JSON: a written value is read back, as far as it is
`kept`.  (Plain structs keep everything; a `MarshalJSON` that leaves out a directory would not.) -/
structure HereLaw (H : HereJson) (kept : Info → Info) : Prop where
  infoInts : ∀ i, (H.info i).Ints
  pathInts : ∀ p, (H.path p).Ints
  info : ∀ i, InfoText i → H.infoOf Mem.infoZero (H.info i).sane = some (kept i)
  path : ∀ p, PathText p → H.pathOf Path.zero (H.path p).sane = some p

/-! ### Plain structs -/

/-- `here.Module` as a plain struct. -/
def encModule (m : Module) : Json :=
  .obj [(b! "Path", .str m.path), (b! "Main", .bool m.main), (b! "Dir", .str m.dir), (b! "GoMod", .str m.goMod),
    (b! "GoVersion", .str m.goVersion)]

def moduleFields : List (Str × Dec Module) :=
  [(b! "Path", fun d j => (decStr d.path j).map fun x => { d with path := x }),
   (b! "Main", fun d j => (decBool d.main j).map fun x => { d with main := x }),
   (b! "Dir", fun d j => (decStr d.dir j).map fun x => { d with dir := x }),
   (b! "GoMod", fun d j => (decStr d.goMod j).map fun x => { d with goMod := x }),
   (b! "GoVersion", fun d j => (decStr d.goVersion j).map fun x => { d with goVersion := x })]

/-- `here.Info` as a plain struct. -/
def encInfo (i : Info) : Json :=
  .obj [(b! "Dir", .str i.dir), (b! "ImportPath", .str i.importPath), (b! "Name", .str i.name),
    (b! "Module", encModule i.module)]

def infoFields : List (Str × Dec Info) :=
  [(b! "Dir", fun d j => (decStr d.dir j).map fun x => { d with dir := x }),
   (b! "ImportPath", fun d j => (decStr d.importPath j).map fun x => { d with importPath := x }),
   (b! "Name", fun d j => (decStr d.name j).map fun x => { d with name := x }),
   (b! "Module", fun d j => (struct moduleFields d.module j).map fun x => { d with module := x })]

/-- `here.Path` as a plain struct. -/
def encPath (p : Path) : Json := .obj [(b! "Pkg", .str p.pkg), (b! "Name", .str p.name)]

def pathFields : List (Str × Dec Path) :=
  [(b! "Pkg", fun d j => (decStr d.pkg j).map fun x => { d with pkg := x }),
   (b! "Name", fun d j => (decStr d.name j).map fun x => { d with name := x })]

/-- Package here with plain structs, the reconstruction used in examples. -/
def plainHere : HereJson := ⟨encInfo, struct infoFields, encPath, struct pathFields⟩

end Serial
end Verif
