import Verif.Model.Serial
import Verif.Go.Sort

/-!
The generated map types of internal/maps (`Infos` and `Files` are the same code up to the key and value types), used by
one goroutine.  What several goroutines do at first use is `Model/ConcMap`.

`sync.Map` is a map; the order in which `Range` visits it is a parameter.  Only `Store` puts values in, so the type
assertions in `Load` and `Range` succeed, except for a nil `pkging.File`: an assertion to an interface type fails for a
nil interface value.  `bad` tells for which values the assertion fails; for `Infos` there are none.
-/

namespace Verif

/-- `Infos`, internal/maps/infos.go:17-20, and `Files`, internal/maps/files.go:18-21: whether `once` is there and has
run, and the `sync.Map`, if any. -/
structure TMap (κ ν : Type) where
  once : Bool
  data : Option (AMap κ ν)

namespace TMap

variable {κ ν : Type} [DecidableEq κ]

/-- The zero value. -/
def zero : TMap κ ν := ⟨false, none⟩

/-- `Data`, internal/maps/infos.go:22-32, internal/maps/files.go:23-33. -/
def getData (m : TMap κ ν) : TMap κ ν × Option (AMap κ ν) :=
  if m.once then (m, m.data)
  else
    match m.data with
    | none => (⟨true, some []⟩, some [])
    | some d => (⟨true, some d⟩, some d)

/-- `Store`, internal/maps/infos.go:90-92, internal/maps/files.go:105-107. -/
def store (m : TMap κ ν) (k : κ) (v : ν) : TMap κ ν × Res Unit :=
  match m.getData with
  | (m, none) => (m, .panic)
  | (m, some d) => ({ m with data := some (AMap.set d k v) }, .ok ())

/-- `Delete`, internal/maps/infos.go:56-58, internal/maps/files.go:72-74. -/
def delete (m : TMap κ ν) (k : κ) : TMap κ ν × Res Unit :=
  match m.getData with
  | (m, none) => (m, .panic)
  | (m, some d) => ({ m with data := some (AMap.erase d k) }, .ok ())

/-- `Load`, internal/maps/infos.go:64-72, internal/maps/files.go:80-87. -/
def load (bad : ν → Bool) (m : TMap κ ν) (k : κ) : TMap κ ν × Res (Option ν) :=
  match m.getData with
  | (m, none) => (m, .panic)
  | (m, some d) => (m, .ok ((AMap.get d k).filter fun v => !bad v))

/-- The loop of `sync.Map.Range` with the closures of internal/maps/infos.go:76-86 and internal/maps/files.go:91-101: the
callback says whether to go on, and a failed assertion ends the loop. -/
def loop {S : Type} (bad : ν → Bool) (f : κ → ν → S → S × Bool) : List (κ × ν) → S → S
  | [], s => s
  | (k, v) :: rest, s =>
    if bad v then s
    else
      match f k v s with
      | (s, true) => loop bad f rest s
      | (s, false) => s

/-- `Range`, internal/maps/infos.go:75-87, internal/maps/files.go:90-102, with a callback that keeps a state. -/
def range {S : Type} (bad : ν → Bool) (ord : AMap κ ν → List (κ × ν)) (f : κ → ν → S → S × Bool) (m : TMap κ ν)
    (s : S) : TMap κ ν × Res S :=
  match m.getData with
  | (m, none) => (m, .panic)
  | (m, some d) => (m, .ok (loop bad f (ord d) s))

/-- `Keys`, internal/maps/infos.go:95-103, internal/maps/files.go:110-120. -/
def keys (bad : ν → Bool) (ord : AMap κ ν → List (κ × ν)) (sort : List κ → List κ) (m : TMap κ ν) :
    TMap κ ν × Res (List κ) :=
  match m.range bad ord (fun k _ l => (l ++ [k], true)) [] with
  | (m, .ok l) => (m, .ok (sort l))
  | (m, .err e) => (m, .err e)
  | (m, .panic) => (m, .panic)

/-- The calls that make up a history. -/
inductive Op (κ ν : Type) where
  | store (k : κ) (v : ν)
  | delete (k : κ)
  | load (k : κ)
  | range
  | keys

/-- What a call does to the map; what `Range` and `Keys` do to it does not depend on callback, order or sorting. -/
def apply (m : TMap κ ν) : Op κ ν → TMap κ ν
  | .store k v => (m.store k v).1
  | .delete k => (m.delete k).1
  | .load k => (m.load (fun _ => false) k).1
  | .range => (m.range (fun _ => false) id (fun _ _ s => (s, true)) ()).1
  | .keys => (m.keys (fun _ => false) id id).1

/-- Calls one after the other. -/
def after (h : List (Op κ ν)) (m : TMap κ ν) : TMap κ ν := h.foldl apply m

/-- Storing one after the other, internal/maps/infos.go:49-51. -/
def storeAll (m : TMap κ ν) : List (κ × ν) → TMap κ ν × Res Unit
  | [] => (m, .ok ())
  | (k, v) :: rest =>
    match m.store k v with
    | (m, .ok _) => storeAll m rest
    | (m, r) => (m, r)

end TMap

namespace Serial

/-- `Infos.MarshalJSON`, internal/maps/infos.go:34-41: it reads the field `data` without `Data()`. -/
def infosMarshal (H : HereJson) (m : TMap Str Info) : Res Str :=
  match m.data with
  | none => .panic
  | some d => .ok (encMap H.info d).print

/-- `Infos.UnmarshalJSON`, internal/maps/infos.go:43-53. -/
def infosUnmarshal (H : HereJson) (ord : AMap Str Info → List (Str × Info)) (m : TMap Str Info) (b : Str) :
    TMap Str Info × Res Unit :=
  match Json.parse b with
  | none => (m, .err .codec)
  | some j =>
    match decMap (H.infoOf Mem.infoZero) [] j with
    | none => (m, .err .codec)
    | some mm => m.storeAll (ord mm)

/-- `Files.MarshalJSON`, internal/maps/files.go:35-53: a key is the JSON text of the path.  `enc` is what
`encoding/json` makes of a file (no error: simplification). -/
def filesMarshal {ν : Type} (H : HereJson) (ord : AMap Path ν → List (Path × ν)) (enc : ν → Json) (m : TMap Path ν) :
    TMap Path ν × Res Str :=
  match m.getData with
  | (m, none) => (m, .panic)
  | (m, some d) => (m, .ok (encMap enc ((ord d).foldl (fun mm e => AMap.set mm (H.path e.1).print e.2) [])).print)

/-- Reading into a variable of the interface type `pkging.File`: only `null` can be read. -/
def decFileIface : Json → Option Unit
  | .null => some ()
  | _ => none

/-- The loop of `Files.UnmarshalJSON` over entries that are all nil, internal/maps/files.go:61-67. -/
def storeNils {ν : Type} (H : HereJson) (nil : ν) (m : TMap Path ν) : List (Str × Unit) → TMap Path ν × Res Unit
  | [] => (m, .ok ())
  | (k, _) :: rest =>
    match (Json.parse k).bind (H.pathOf Path.zero) with
    | none => (m, .err .codec)
    | some pt =>
      match m.store pt nil with
      | (m, .ok _) => storeNils H nil m rest
      | (m, r) => (m, r)

/-- `Files.UnmarshalJSON`, internal/maps/files.go:55-69; `nil` is the nil interface value. -/
def filesUnmarshal {ν : Type} (H : HereJson) (ord : AMap Str Unit → List (Str × Unit)) (nil : ν) (m : TMap Path ν)
    (b : Str) : TMap Path ν × Res Unit :=
  match Json.parse b with
  | none => (m, .err .codec)
  | some j =>
    match decMap decFileIface [] j with
    | none => (m, .err .codec)
    | some mm => storeNils H nil m (ord mm)

end Serial
end Verif
