import Verif.Go.JsonIndent
import Verif.Model.Serial

/-! `pkgutil.Dump`, pkging/pkgutil/dump.go, applied to an in-memory Pkger. -/

namespace Verif
namespace Dump

open Mem Serial

/-- The callback given to `Walk`, pkging/pkgutil/dump.go:29-36; an in-memory Pkger never passes it an error. -/
def collect (p : Str) (d : Details) (s : World × AMap Str Details) : (World × AMap Str Details) × Option Err :=
  ((s.1, AMap.set s.2 p d), none)

/-- The document, pkging/pkgutil/dump.go:14-21: a struct without tags, the paths as a map to `*pkging.FileInfo`. -/
def document (H : HereJson) (Z : Int → Int) (typ : Str) (info : Info) (paths : AMap Str Details) : Json :=
  .obj [(b! "Type", .str typ), (b! "Info", H.info info),
    (b! "Paths", encMap (fun d => encFileInfo Z (some d)) paths)]

/-- `fmt.Sprintf("%T", pkg)` for an in-memory Pkger, pkging/pkgutil/dump.go:19. -/
def typeName : Str := b! "*mem.Pkger"

/-- What `Dump` hands to its writer, pkging/pkgutil/dump.go:14-44: `Encode` writes the indented document and a newline
in one call. -/
def text (E : Env) (H : HereJson) (Z : Int → Int) (w : World) : Res Str :=
  match current w with
  | .err e => .err e
  | .panic => .panic
  | .ok info =>
    match walk E Prod.fst collect (w, []) GoPath.rootS with
    | (_, .err e) => .err e
    | (_, .panic) => .panic
    | (s, .ok ()) => .ok (Json.pretty [32] 0 (document H Z typeName info s.2) ++ [10])

/-- `Dump`, pkging/pkgutil/dump.go:13-49.  `write` tells with which error, if any, the writer answers. -/
def dump (E : Env) (H : HereJson) (Z : Int → Int) (write : Str → Option Err) (w : World) : Res Unit :=
  match text E H Z w with
  | .err e => .err e
  | .panic => .panic
  | .ok t =>
    match write t with
    | some e => .err e
    | none => .ok ()

end Dump
end Verif
