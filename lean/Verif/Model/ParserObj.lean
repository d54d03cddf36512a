import Verif.Model.Parser

/-!
A `Parser` used more than once (parser/parser.go:19-32 and :140-228), and `ParseFile` (:44-89).

`Model/Parser` gives what one parse of the disk yields.  Here is the object with its fields, so that what one call
leaves behind for the next can be seen, also when it fails half-way.

Simplifications: one goroutine uses the object; after a panic nothing more is called; the caller does not write to the
maps it is given.
-/

namespace Verif
namespace Parser

open Disk (Node)

/-- How a part of `parse` ends: with its error, or with a panic. -/
inductive Stop where
  | err (e : Err)
  | panic

/-- The loop over the sources of a directory, parser/parser.go:214-222, with the map it leaves when it stops. -/
def addSourcesTo (E : Env) (depth : Nat) : List Source → DeclMap → DeclMap × Option Stop
  | [], m => (m, none)
  | src :: rest, m =>
    match declsMap E depth src with
    | .panic => (m, some .panic)
    | .err e => (m, some (.err e))
    | .ok (_, some e) => (m, some (.err (.text e)))
    | .ok (mm, none) => addSourcesTo E depth rest (joinMaps m mm)

/-- What the callback does with a directory that is not ignored, parser/parser.go:209-224, with the map it leaves. -/
def visitDirTo (E : Env) (G : GoTool) : Disk.WalkFn Scan := fun path n s =>
  match n with
  | .file _ _ => (s, none)
  | .dir _ kids =>
    match parseDir E G path kids with
    | .error e => (s, some (.text e))
    | .ok srcs =>
      match addSourcesTo E G.depth srcs s.decls with
      | (m, none) => ({ s with decls := m }, none)
      | (m, some (.err e)) => ({ s with decls := m }, some (.text e))
      | (m, some .panic) => (⟨m, true⟩, some (.other 0))

/-- `Parser.parseIncludes`, parser/parser.go:230-240, with the map it leaves. -/
def parseIncludesTo (E : Env) (her : Info) : List Str → DeclMap → DeclMap × Option Err
  | [], m => (m, none)
  | i :: is, m =>
    match newInclude E her i with
    | .error e => (m, some e)
    | .ok d => parseIncludesTo E her is (m.append .include [d])

/-- `Parser.parse`, parser/parser.go:175-228: what it leaves in the map made at :176, and how it ends. -/
def parseTo (E : Env) (G : GoTool) (disk : Node) (her : Info) (includes : List Str) : DeclMap × Option Stop :=
  match parseIncludesTo E her includes DeclMap.empty with
  | (m, some e) => (m, some (.err e))
  | (m, none) =>
    match osStat disk her.dir with
    | none => (m, some (.err .notExist))
    | some (.file _ _) => (m, some (.err (.other 0)))
    | some (.dir d kids) =>
      match Disk.walk (scanFn (visitDirTo E G)) her.dir (.dir d kids) ⟨m, false⟩ with
      | (s, none) => (s.decls, none)
      | (s, some e) => (s.decls, some (if s.panicked then .panic else .err e))

/-- `Parser`, parser/parser.go:26-32, without the two fields that never change.  A Go map is a reference: `maps` is
what has been made so far and `cur` is the one in the field `decls`. `done` says that `once` has run. -/
structure Object where
  maps : List DeclMap
  cur : Nat
  done : Bool
  err : Option Err

/-- `New`, parser/parser.go:19-24. -/
def Object.new : Object := ⟨[DeclMap.empty], 0, false, none⟩

/-- What is in the map `r`. -/
def Object.look (o : Object) (r : Nat) : DeclMap := (o.maps[r]?).getD DeclMap.empty

/-- The calls, parser/parser.go:140, :163, :168. -/
inductive Call where
  | decls | declsMap | parse
deriving DecidableEq

/-- What a call returns: `Decls` the declarations or an error, `DeclsMap` a map together with an error or nil, `Parse`
an error or nil. -/
inductive Answer where
  | decls (r : Except Err (List Decl))
  | map (r : Nat) (err : Option Err)
  | parse (err : Option Err)
  | panic

/-- `p.parse()`, parser/parser.go:175-228: `p.decls` becomes a new map (:176), which is then filled. -/
def Object.scan (E : Env) (G : GoTool) (her : Info) (includes : List Str) (disk : Node) (o : Object) :
    Object × Option Stop :=
  match parseTo E G disk her includes with
  | (m, r) => ({ o with maps := o.maps ++ [m], cur := o.maps.length }, r)

/-- `Parser.Parse`, parser/parser.go:168-173; the second result is that it panics. -/
def Object.parse (E : Env) (G : GoTool) (her : Info) (includes : List Str) (disk : Node) (o : Object) :
    Object × Bool :=
  if o.done then (o, false)
  else
    match o.scan E G her includes disk with
    | (o, none) => ({ o with done := true, err := none }, false)
    | (o, some (.err e)) => ({ o with done := true, err := some e }, false)
    | (o, some .panic) => ({ o with done := true }, true)

/-- One call while the disk is `disk`: parser/parser.go:140-173. -/
def Object.call (E : Env) (G : GoTool) (her : Info) (includes : List Str) (disk : Node) (o : Object) :
    Call → Object × Answer
  | .decls =>
    match o.scan E G her includes disk with
    | (o, none) => (o, .decls (.ok (ordered (o.look o.cur))))
    | (o, some (.err e)) => (o, .decls (.error e))
    | (o, some .panic) => (o, .panic)
  | .declsMap =>
    match o.parse E G her includes disk with
    | (o, false) => (o, .map o.cur o.err)
    | (o, true) => (o, .panic)
  | .parse =>
    match o.parse E G her includes disk with
    | (o, false) => (o, .parse o.err)
    | (o, true) => (o, .panic)

/-- Calls one after the other, each with the disk as it is at that time. -/
def Object.calls (E : Env) (G : GoTool) (her : Info) (includes : List Str) : List (Call × Node) → Object → Object
  | [], o => o
  | (c, disk) :: rest, o => Object.calls E G her includes rest (o.call E G her includes disk c).1

/-- `Parser.ParseFile`, parser/parser.go:65-89, and `ParseSource`, :44-63: the error of `Here.Parse` at :86 is ignored
and leaves the zero path. -/
def parseFile (E : Env) (G : GoTool) (disk : Node) (abs : Str) : Except Err Source :=
  match osStat disk abs with
  | none => .error .notExist
  | some (.dir _ _) => .error (.other 0)
  | some (.file _ data) =>
    match E.dirInfo (GoPath.dir abs) with
    | .error e => .error e
    | .ok her =>
      match G.parse abs data with
      | .error e => .error e
      | .ok (ast, objs) =>
        match E.parse her (Str.trimPrefix abs (GoPath.dir abs)) with
        | .error _ => .ok ⟨abs, ⟨[], []⟩, her, ast, objs⟩
        | .ok pt => .ok ⟨abs, pt, her, ast, objs⟩

end Parser
end Verif
