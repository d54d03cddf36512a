import Verif.Model.Parser
import Verif.Go.FileSet

/-!
Where declarations stand in their source: parser/source.go with positions.  The syntax trees here know the offset of
their first byte; without offsets they are those of Model/Parser, and so are the declarations found.
-/

namespace Verif
namespace Parser

open Token (Position FileSet)

/-- A syntax tree with offsets in its file.  A selector and a call start where their first part starts. -/
inductive PAst where
  | ident (off : Nat) (name : Str) (obj : Option Nat)
  | lit (off : Nat) (text : Str)
  | sel (x : PAst) (name : Str)
  | call (fn : PAst) (args : List PAst)
  | other (off : Nat) (kids : List PAst)

namespace PAst

/-- `Pos()` of the nodes (`go/ast`), as an offset in the file. -/
def off : PAst → Nat
  | ident o _ _ => o
  | lit o _ => o
  | sel x _ => x.off
  | call f _ => f.off
  | other o _ => o

mutual
/-- The tree without offsets. -/
def erase : PAst → Ast
  | ident _ n o => .ident n o
  | lit _ t => .lit t
  | sel x n => .sel x.erase n
  | call f args => .call f.erase (eraseAll args)
  | other _ kids => .other (eraseAll kids)

def eraseAll : List PAst → List Ast
  | [] => []
  | a :: as => a.erase :: eraseAll as
end

end PAst

/-- `ParsedSource`, parser/source.go:20-27, with the `FileSet`; `base` is what `FileSet` added to the offsets of the
file. -/
structure PSource where
  abs : Str
  path : Path
  here : Info
  tree : PAst
  objs : Nat → Obj
  fset : FileSet
  base : Nat

/-- The source without offsets. -/
def PSource.erase (p : PSource) : Source := ⟨p.abs, p.path, p.here, p.tree.erase, p.objs⟩

/-- What parsing accumulates, the declarations with their field `pos` (e.g. parser/open.go:12-16). -/
structure PPState where
  decls : Kind → List (Decl × Position)
  err : Option Err

/-- `p.decls[name] = append(p.decls[name], …)`, parser/source.go:196. -/
def PPState.push (s : PPState) (k : Kind) (d : Decl × Position) : PPState :=
  { s with decls := fun k' => if k' = k then s.decls k ++ [d] else s.decls k' }

/-- The function given to `ast.Walk`, parser/source.go:74-198. -/
def penter (E : Env) (depth : Nat) (p : PSource) (node : PAst) (s : PPState) : Res (PPState × Bool) :=
  match node with
  | .call (.sel (.ident _ pkg _) name) args =>
    if pkg ≠ b! "pkger" then .ok (s, true)
    else
      match kindOf name with
      | none => .ok (s, true)
      | some k =>
        match args with
        | [] => .ok ({ s with err := some (.other 0) }, false)
        | n :: _ =>
          match value depth p.erase n.erase with
          | .panic => .panic
          | .err e => .ok ({ s with err := some (.text e) }, false)
          | .ok val =>
            match declFile E p.abs val with
            | .error e => .ok ({ s with err := some (.text e) }, false)
            | .ok f => .ok (s.push k (⟨k, f, val⟩, p.fset.position (p.base + n.off)), true)
  | _ => .ok (s, true)

mutual
/-- `ast.Walk(fn, node)` (Go standard library) with the function above. -/
def pwalk (E : Env) (depth : Nat) (p : PSource) : PAst → PPState → Res PPState
  | .ident _ _ _, s => .ok s
  | .lit _ _, s => .ok s
  | .sel x n, s =>
    match penter E depth p (.sel x n) s with
    | .ok (s, false) => .ok s
    | .ok (s, true) => pwalk E depth p x s
    | .err e => .err e
    | .panic => .panic
  | .call f args, s =>
    match penter E depth p (.call f args) s with
    | .ok (s, false) => .ok s
    | .ok (s, true) =>
      match pwalk E depth p f s with
      | .ok s => pwalkAll E depth p args s
      | .err e => .err e
      | .panic => .panic
    | .err e => .err e
    | .panic => .panic
  | .other o kids, s =>
    match penter E depth p (.other o kids) s with
    | .ok (s, false) => .ok s
    | .ok (s, true) => pwalkAll E depth p kids s
    | .err e => .err e
    | .panic => .panic

/-- The loop over a list of children. -/
def pwalkAll (E : Env) (depth : Nat) (p : PSource) : List PAst → PPState → Res PPState
  | [], s => .ok s
  | a :: as, s =>
    match pwalk E depth p a s with
    | .ok s => pwalkAll E depth p as s
    | .err e => .err e
    | .panic => .panic
end

/-- `ParsedSource.DeclsMap` on first use, parser/source.go:29-34 and :72-206: the error stored by `parse` is overwritten
by its result `nil`. -/
def pdecls (E : Env) (depth : Nat) (p : PSource) : Res ((Kind → List (Decl × Position)) × Option Err) :=
  match pwalk E depth p p.tree ⟨fun _ => [], none⟩ with
  | .ok s => .ok (s.decls, none)
  | .err e => .err e
  | .panic => .panic

/-- `ParseSource`, parser/parser.go:44-63, and `ParseDir`, parser/parser.go:115-137: the files parsed with this one into
the same `FileSet`, `before` it and `after` it, each with its name and text. -/
def inSet (abs : Str) (path : Path) (here : Info) (tree : PAst) (objs : Nat → Obj) (text : Str)
    (before after : List (Str × Str)) : PSource :=
  ⟨abs, path, here, tree, objs, ((FileSet.new.addAll before).add abs text).addAll after,
    (FileSet.new.addAll before).base⟩

end Parser
end Verif
