import Verif.Go.Bytes

/-! Text, as Lean's standard library has it: a list of Unicode characters, each written in UTF-8. -/

namespace Verif
namespace Spec

/-- The bytes are text: the UTF-8 encoding of some list of Unicode characters (Lean's `Char`, the scalar values). -/
def IsText (s : Str) : Prop := ∃ cs : List Char, s = cs.flatMap String.utf8EncodeChar

end Spec
end Verif
