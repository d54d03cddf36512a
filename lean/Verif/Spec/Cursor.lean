import Verif.Go.Err

/-!
An abstract reader: immutable bytes and a position.
-/

namespace Verif
namespace Spec

/-- A call on a file handle. -/
inductive Cmd where
  | read (n : Nat)
  | seek (off whence : Int)

/-- Its results. -/
inductive Out where
  | read (bytes : Str) (err : Option Err)
  | seek (pos : Int) (err : Option Err)
deriving DecidableEq, Repr

/-- The target of a seek: relative to the start, the current position, or the end. -/
def seekTarget (len pos off : Int) : Int → Option Int
  | 0 => some off
  | 1 => some (pos + off)
  | 2 => some (len + off)
  | _ => none

/-- One call on the abstract cursor over `content` at `pos`. -/
def cursorStep (content : Str) (pos : Int) : Cmd → Int × Out
  | .read n =>
    if pos < content.length then
      let bytes := (content.drop pos.toNat).take n
      (pos + bytes.length, .read bytes none)
    else (pos, .read [] (some .eof))
  | .seek off whence =>
    match seekTarget content.length pos off whence with
    | none => (pos, .seek 0 (some .badWhence))
    | some t => if 0 ≤ t then (t, .seek t none) else (pos, .seek 0 (some .negativePosition))

/-- A sequence of calls on the abstract cursor. -/
def cursorRun (content : Str) : Int → List Cmd → List Out
  | _, [] => []
  | pos, c :: cs => (cursorStep content pos c).2 :: cursorRun content (cursorStep content pos c).1 cs

end Spec
end Verif
