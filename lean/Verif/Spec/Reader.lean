import Verif.Model.Reader
import Verif.Props.DiskHttp

/-! What a program that only reads should see: the answers to its questions, from the files alone. -/

namespace Verif
namespace Reader

open Mem (Details)
open Disk (Node)
open Disk.Node (tree)
open Stdos (Host)
open DiskClient (Io)
open Site (Posix BelowFile)
open Props (Wanted Separate)

/-- A file the program has opened: where it is, how far it has been read, whether it has been listed, and whether it has
not been closed. -/
structure Handle where
  place : List Str
  pos : Nat
  listed : Bool
  isOpen : Bool
deriving DecidableEq, Repr

/-- A file just opened. -/
def Handle.new (es : List Str) : Handle := ⟨es, 0, false, true⟩

/-- The answer to a question about an open file. -/
def at_ (hs : List Handle) (k : Nat) (g : Handle → List Handle × Seen) : List Handle × Seen :=
  match hs[k]? with
  | none => (hs, .trouble)
  | some h => g h

/-- What one should see when one opens `/e₁/.../eₙ`. -/
def opening (root : Node) (hs : List Handle) (es : List Str) : List Handle × Seen :=
  match root.find es with
  | none => (hs, .missing)
  | some _ => (hs ++ [.new es], .handle hs.length)

/-- What one should see, in the module `pkg` with the files `root`. -/
def step (pkg : Str) (root : Node) (hs : List Handle) : Ask → List Handle × Seen
  | .openFile name => opening root hs (GoPath.rootedElems name)
  | .openIn k cs => at_ hs k fun h => opening root hs (h.place ++ cs)
  | .stat name =>
    (hs, match root.find (GoPath.rootedElems name) with
      | none => .missing
      | some n => .details n.details)
  | .has name => (hs, .yes (root.find (GoPath.rootedElems name)).isSome)
  | .fileStat k => at_ hs k fun h =>
    (hs, match root.find h.place with
      | none => .missing
      | some n => .details n.details)
  | .list k => at_ hs k fun h =>
    match root.find h.place with
    | some (.dir _ kids) => (hs.set k { h with listed := true }, .entries ((sortBy (·.1) kids).map (·.2.details)))
    | _ => (hs, .trouble)
  | .read k n => at_ hs k fun h =>
    match root.find h.place with
    | some (.file _ b) =>
      (hs.set k { h with pos := h.pos + ((b.drop h.pos).take n).length }, .bytes ((b.drop h.pos).take n))
    | _ => (hs, .trouble)
  | .seek k off => at_ hs k fun h => (hs.set k { h with pos := off }, .pos off)
  | .close k => at_ hs k fun h => (hs.set k { h with isOpen := false }, .closed)
  | .fileName k => at_ hs k fun h => (hs, .name (Path.str ⟨pkg, GoPath.mk h.place⟩))
  | .walk name =>
    (hs, match root.find (GoPath.rootedElems name) with
      | none => .missing
      | some n => .walked ((tree n).map fun e => (Path.str ⟨pkg, GoPath.mk (GoPath.rootedElems name ++ e.1)⟩, e.2.details)))

/-- What a program should return. -/
def Plan.run {α : Type} (pkg : Str) (root : Node) : Plan α → List Handle → α
  | .ret a, _ => a
  | .ask q k, hs => (k (step pkg root hs q).2).run pkg root (step pkg root hs q).1

/-- The operating system also answers `Stat` and lets one walk: of what is there it tells the details and what is below,
and of what is not there it says that something is wrong. -/
structure Looks {S : Type} {O : Host S} {I : Io S} {disk : Node} (P : Posix O I disk) : Prop where
  statThere : ∀ h es k, P.ok h → GoPath.Good es → disk.find es = some k →
    ∃ h', O.stat (GoPath.mk es) h = (h', .ok k.details) ∧ P.ok h' ∧ P.holds h' = P.holds h
  statAbsent : ∀ h es, P.ok h → GoPath.Good es → disk.find es = none →
    ∃ h' e, O.stat (GoPath.mk es) h = (h', .error e) ∧ P.ok h' ∧ P.holds h' = P.holds h
  treeThere : ∀ h es k, P.ok h → GoPath.Good es → disk.find es = some k →
    ∃ h', O.tree (GoPath.mk es) h = (h', .ok k) ∧ P.ok h' ∧ P.holds h' = P.holds h

/-- The path is at or below one of those in `R`. -/
def Declared (R : List Str → Prop) (es : List Str) : Prop := ∃ rel, R rel ∧ rel <+: es

/-- The questions that get the answers they should get, both from the disk and from embedded files: those about names that
are paths of the own module, at or below a declared path, and not below a regular file; those about files that have been
opened; and, of these, listing an open directory once, reading and positioning an open regular file that is not empty, and
closing an open file.  To look at a name or to walk from it, it has to be there.  No name may start with the letters of a
listed or walked one without being below it, and the paths that a walk visits have to be in the order of their letters. -/
def Fits (c hi : Info) (R : List Str → Prop) (root : Node) (hs : List Handle) : Ask → Prop
  | .openFile name => Ordinary c name ∧ Declared R (GoPath.rootedElems name) ∧ ¬ BelowFile root (GoPath.rootedElems name)
  | .openIn k cs => ∃ h d kids, hs[k]? = some h ∧ root.find h.place = some (.dir d kids) ∧ Wanted c hi h.place cs ∧
      cs ≠ h.place ∧ ¬ BelowFile root (h.place ++ cs)
  | .stat name => Ordinary c name ∧ Declared R (GoPath.rootedElems name) ∧ (root.find (GoPath.rootedElems name)).isSome
  | .has name => Ordinary c name ∧ Declared R (GoPath.rootedElems name)
  | .fileStat k => ∃ h, hs[k]? = some h
  | .fileName k => ∃ h, hs[k]? = some h
  | .list k => ∃ h d kids, hs[k]? = some h ∧ h.isOpen = true ∧ h.listed = false ∧ root.find h.place = some (.dir d kids) ∧
      Separate root h.place
  | .read k _ => ∃ h d b, hs[k]? = some h ∧ h.isOpen = true ∧ root.find h.place = some (.file d b) ∧ b ≠ []
  | .seek k _ => ∃ h d b, hs[k]? = some h ∧ h.isOpen = true ∧ root.find h.place = some (.file d b) ∧ b ≠ []
  | .close k => ∃ h, hs[k]? = some h ∧ h.isOpen = true
  | .walk name => Ordinary c name ∧ Declared R (GoPath.rootedElems name) ∧
      ∃ n, root.find (GoPath.rootedElems name) = some n ∧
        (∀ es k, root.find es = some k → GoPath.mk (GoPath.rootedElems name) <+: GoPath.mk es → GoPath.rootedElems name <+: es) ∧
        ((tree n).map fun e => Path.str ⟨c.module.path, GoPath.mk (GoPath.rootedElems name ++ e.1)⟩).Pairwise
          (fun a b => Str.lt a b = true)

/-- A program all of whose questions are such, as long as it gets the answers it should get. -/
def Plan.Fits {α : Type} (c hi : Info) (R : List Str → Prop) (root : Node) : Plan α → List Handle → Prop
  | .ret _, _ => True
  | .ask q k, hs => Reader.Fits c hi R root hs q ∧
      (k (step c.module.path root hs q).2).Fits c hi R root (step c.module.path root hs q).1

end Reader
end Verif
