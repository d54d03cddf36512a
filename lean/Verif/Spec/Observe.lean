import Verif.Model.History

/-!
What a caller can observe of an in-memory Pkger, in terms of its API calls only.
-/

namespace Verif
namespace Mem

/-- The results of reading handle `id` with buffers of the given sizes, one after the other. -/
def readMany (w : World) (id : Nat) : List Nat → List (Str × Option Err)
  | [] => []
  | n :: ns =>
    let (w', out, e) := read w id n
    (out, e) :: readMany w' id ns

/-- All bytes delivered by a sequence of reads. -/
def delivered (rs : List (Str × Option Err)) : Str := (rs.map (·.1)).flatten

/-- Handle `id` delivers exactly `content`: whatever buffer sizes are used, the bytes obtained are the
first `n₁ + n₂ + ...` bytes of `content`. -/
def Delivers (w : World) (id : Nat) (content : Str) : Prop :=
  ∀ ns : List Nat, delivered (readMany w id ns) = content.take ns.sum

/-- What `Stat(name)` reports. -/
def statView (E : Env) (w : World) (name : Str) : Res Details :=
  match stat E w name with
  | .ok id =>
    match (w.heap id).info with
    | some d => .ok d
    | none => .panic
  | .err e => .err e
  | .panic => .panic

/-- What `Open(name)` yields: the details of the handle and the bytes it holds (`Delivers` relates the
bytes to what reading returns, see `delivers_bytes`). -/
def openView (E : Env) (w : World) (name : Str) : Res (Details × Str) :=
  match openFile E w name with
  | (w', .ok id) =>
    match (w'.heap id).info with
    | some d => .ok (d, (w'.heap id).bytes)
    | none => .panic
  | (_, .err e) => .err e
  | (_, .panic) => .panic

/-- `name` looks the same in both worlds, to `Stat` and to `Open`. -/
def SameAt (E : Env) (w w' : World) (name : Str) : Prop :=
  statView E w' name = statView E w name ∧ openView E w' name = openView E w name

/-- Every name looks the same in both worlds. -/
def SameView (E : Env) (w w' : World) : Prop := ∀ name, SameAt E w w' name

/-- The path is stored. -/
def Stored (w : World) (pt : Path) : Prop := ∃ id, AMap.get w.files pt = some id

/-- The stored object at a path. -/
def lookup (w : World) (pt : Path) : Option FileObj := (AMap.get w.files pt).map w.heap

end Mem
end Verif
