import Verif.Go.Hex
import Verif.Model.Here

/-! The blob codec, pkging/embed/embed.go. -/

namespace Verif
namespace Embed

/-- `embed.Encode`, pkging/embed/embed.go:31-49: gzip, then hex.  Writing to an in-memory buffer cannot
fail, so the error results at :35-45 are not modelled. -/
def encode (E : Env) (b : Str) : Str := Hex.encode (E.gzip b)

/-- `embed.Decode`, pkging/embed/embed.go:12-29: hex, then gunzip; the first error is returned. -/
def decode (E : Env) (src : Str) : Except Err Str :=
  match Hex.decode src with
  | .error e => .error e
  | .ok dst => E.gunzip dst

end Embed
end Verif
