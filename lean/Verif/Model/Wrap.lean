import Verif.Model.History

/-!
Layered Pkgers: the interface pkging/pkger.go, its implementation pkging/wrap.go, and the package-level
functions of apply.go and pkger.go.
-/

namespace Verif
namespace Layer

open Mem (Details World)

/-- A call: it may change the program's state `S`, and returns a value, an error or panics.  A value
returned next to an error is dropped. -/
abbrev Act (S α : Type) := S → S × Res α

/-- `filepath.WalkFunc`.  Its error argument is always nil: neither implementation passes another one
(pkging/mem/mem.go:242, pkging/stdos/stdos.go:173-192). -/
abbrev WalkFunc (S : Type) := Str → Details → S → S × Option Err

/-- The interface `pkging.Pkger`, pkging/pkger.go:10-43.  `F` is the type of file references; `os.FileInfo`
values are named by the file they belong to. -/
structure Pkger (S F : Type) where
  parse : Str → Act S Path
  current : Act S Info
  info : Str → Act S Info
  create : Str → Act S F
  mkdirAll : Str → Nat → Act S Unit
  openFile : Str → Act S F
  stat : Str → Act S F
  walk : Str → WalkFunc S → Act S Unit
  remove : Str → Act S Unit
  removeAll : Str → Act S Unit

/-- A method call on an interface value, which may be nil: then it panics. -/
def call {S F α : Type} (p : Option (Pkger S F)) (m : Pkger S F → Act S α) : Act S α :=
  match p with
  | none => fun s => (s, .panic)
  | some p => m p

/-- The shape of `withPkger.Parse`, `Current`, `Info`, `Create`, `Open` and `Stat`, e.g. pkging/wrap.go:88-97:
call the base; on an error call the parent, if there is one. -/
def fallback {S F α : Type} (base parent : Option (Pkger S F)) (m : Pkger S F → Act S α) : Act S α := fun s =>
  match call base m s with
  | (s', .err e) =>
    match parent with
    | some p => m p s'
    | none => (s', .err e)
  | r => r

/-- The shape of `withPkger.MkdirAll`, `Walk`, `Remove` and `RemoveAll`, e.g. pkging/wrap.go:124-133: call the
base; return its error; otherwise call the parent, if there is one. -/
def inTurn {S F : Type} (base parent : Option (Pkger S F)) (m : Pkger S F → Act S Unit) : Act S Unit := fun s =>
  match call base m s with
  | (s', .err e) => (s', .err e)
  | (s', .panic) => (s', .panic)
  | (s', .ok ()) =>
    match parent with
    | some p => m p s'
    | none => (s', .ok ())

/-- `pkging.Wrap(parent, with)` and the methods of `withPkger`, pkging/wrap.go:11-145. -/
def wrap {S F : Type} (parent base : Option (Pkger S F)) : Pkger S F where
  parse p := fallback base parent fun x => x.parse p           -- :30-39
  current := fallback base parent fun x => x.current           -- :41-50
  info p := fallback base parent fun x => x.info p             -- :52-61
  create p := fallback base parent fun x => x.create p         -- :64-73
  mkdirAll p perm := inTurn base parent fun x => x.mkdirAll p perm  -- :76-85
  openFile p := fallback base parent fun x => x.openFile p     -- :88-97
  stat p := fallback base parent fun x => x.stat p             -- :100-109
  walk p wf := inTurn base parent fun x => x.walk p wf         -- :112-121
  remove p := inTurn base parent fun x => x.remove p           -- :124-133
  removeAll p := inTurn base parent fun x => x.removeAll p     -- :136-145

/-- `pkger.Apply(pkg, err)`, apply.go:10-19: panics on an error, before taking the lock; otherwise wraps the
current implementation.  The result tells whether the call panicked. -/
def apply {S F : Type} (current : Option (Pkger S F)) (pkg : Option (Pkger S F)) (err : Option Err) :
    Option (Pkger S F) × Res Unit :=
  match err with
  | some _ => (current, .panic)
  | none => (some (wrap current pkg), .ok ())

/-- `pkger.impl()`, pkger.go:23-30. -/
def impl {S F : Type} (disk : Pkger S F) (current : Option (Pkger S F)) : Pkger S F :=
  match current with
  | none => disk
  | some c => c

/-- The value of the variable `current` (pkger.go:14) after a sequence of `Apply` calls, whose panics are
recovered. -/
def applyAll {S F : Type} (current : Option (Pkger S F)) :
    List (Option (Pkger S F) × Option Err) → Option (Pkger S F)
  | [] => current
  | (pkg, err) :: rest => applyAll (apply current pkg err).1 rest

/-- Change the value of a result. -/
def mapRes {α β : Type} (f : α → β) : Res α → Res β
  | .ok a => .ok (f a)
  | .err e => .err e
  | .panic => .panic

/-- A result of `Parse` as a call result. -/
def ofExcept {α : Type} : Except Err α → Res α
  | .ok a => .ok a
  | .error e => .err e

/-- An in-memory Pkger (pkging/mem) whose state is a part of the program's state; `tag` names its files. -/
def memPkger {S F : Type} (E : Env) (get : S → World) (set : S → World → S) (tag : Nat → F) : Pkger S F where
  parse p s := (s, ofExcept (Mem.parse E (get s) p))
  current s := (s, Mem.current (get s))
  info p s := (s, Mem.info (get s) p)
  create p s := let (w, r) := Mem.create E (get s) p; (set s w, mapRes tag r)
  mkdirAll p perm s := let (w, r) := Mem.mkdirAll E (get s) p perm; (set s w, r)
  openFile p s := let (w, r) := Mem.openFile E (get s) p; (set s w, mapRes tag r)
  stat p s := (s, mapRes tag (Mem.stat E (get s) p))
  walk p wf s := Mem.walk E get wf s p
  remove p s := let (w, r) := Mem.remove E (get s) p; (set s w, r)
  removeAll p s := let (w, r) := Mem.removeAll E (get s) p; (set s w, r)

/-- The program state of the layer examples: any number of in-memory Pkgers, and whatever else (`C`) the
program's callbacks work on. -/
abbrev Store (C : Type) := (Nat → World) × C

/-- The in-memory Pkger number `i`. -/
def memLayer {C : Type} (E : Env) (i : Nat) : Pkger (Store C) (Nat × Nat) :=
  memPkger E (fun s => s.1 i) (fun s w => (Mem.upd s.1 i w, s.2)) (fun h => (i, h))

end Layer
end Verif
