import Verif.Model.DiskClient
import Verif.Go.Sort

/-!
What a file server should answer for a tree of files, and what the proofs assume of the operating system that shows the
tree to it.
-/

namespace Verif
namespace Site

open Mem (Details)
open Disk (Node)
open Http (Request Resp)
open Stdos (Host)
open DiskClient (Io)

/-- The path of the request, with a slash in front. -/
def rootedPath (p : Str) : Str := if Str.hasPrefix p [Str.slash] then p else Str.slash :: p

/-- Ranges as `parseRange` returns them for a file of this size. -/
def RangesOk (size : Nat) (rs : List (Int × Int)) : Prop := ∀ r ∈ rs, 0 ≤ r.1 ∧ 0 ≤ r.2 ∧ r.1 + r.2 ≤ (size : Int)

/-- The bytes of a range. -/
def slice (content : Str) (r : Int × Int) : Str := (content.drop r.1.toNat).take r.2.toNat

/-- The answer to a request for these ranges of `content`. -/
def contentAnswer (head : Bool) (content : Str) : List (Int × Int) → Resp
  | [] => .content 200 content.length none (if head then [] else content)
  | [r] => .content 206 r.2 (some r) (if head then [] else slice content r)
  | rs => .parts (if head then [] else rs.map fun r => (r, slice content r))

/-- The answer to a request for a regular file: the conditions, then the ranges; the whole file if these are longer
than it. -/
def fileAnswer (r : Request) (d : Details) (data : Str) : Resp :=
  match r.cond d.modTime with
  | some code => .status code
  | none =>
    match r.ranges d.modTime d.size with
    | .bad => .status 416
    | .ok rs => contentAnswer r.head data (if (rs.map (·.2)).sum > (data.length : Int) then [] else rs)

/-- The answer to a request for a directory without an index page: links to its entries in lexical order, directories
with a slash at the end. -/
def pageAnswer (r : Request) (d : Details) (kids : List (Str × Node)) : Resp :=
  match r.cond d.modTime with
  | some code => .status code
  | none => .page ((sortBy (·.1) kids).map fun e => if e.2.isDir then e.1 ++ [Str.slash] else e.1)

/-- The answer for what is found. -/
def found (r : Request) : Node → Resp
  | .file d data => fileAnswer r d data
  | .dir d kids => pageAnswer r d kids

/-- The answer to a request when the directory `site` is served. -/
def answer (site : Node) (r : Request) : Resp :=
  let p := rootedPath r.path
  if Str.hasSuffix p (b! "/index.html") then .redirect (b! "./")
  else
    match site.find (GoPath.rootedElems p) with
    | none => .status 404
    | some (.file d data) =>
      if p.getLast? = some Str.slash then .redirect (b! "../" ++ GoPath.base p) else fileAnswer r d data
    | some (.dir d kids) =>
      if p.getLast? = some Str.slash then
        match (Node.dir d kids).find [b! "index.html"] with
        | some n => found r n
        | none => pageAnswer r d kids
      else .redirect (GoPath.base p ++ [Str.slash])

/-- `parseRange` keeps its promises. -/
def RequestOk (r : Request) : Prop := ∀ t n rs, r.ranges t n = .ok rs → RangesOk n.toNat rs

/-- Some proper part of the path leads to a regular file; asking for more below it fails with another error than asking
for what does not exist (`ENOTDIR`). -/
def BelowFile (disk : Node) (es : List Str) : Prop := ∃ a b n, es = a ++ b ∧ b ≠ [] ∧ disk.find a = some n ∧ n.isDir = false

/-- Every entry's details carry its name, as `Lstat` reports them, and say truly whether it is a directory and how long it
is. -/
inductive Named : Node → Prop where
  | file (d : Details) (b : Str) : d.isDir = false → d.size = (b.length : Int) → Named (.file d b)
  | dir (d : Details) (kids : List (Str × Node)) :
      d.isDir = true → (∀ e ∈ kids, e.2.details.name = e.1) → (∀ e ∈ kids, Named e.2) → Named (.dir d kids)

/-- An operating system that shows the files of `disk`, which do not change.  `ok` holds in all states it gets into;
`holds h fd` is the entry an open file refers to and the position in it. -/
structure Posix {S : Type} (O : Host S) (I : Io S) (disk : Node) where
  ok : S → Prop
  holds : S → Nat → Option (Node × Nat)
  /-- What the Go tool says of a package; it says the same whenever it is asked, and opens nothing. -/
  tool : Str → Except Err Info
  package : ∀ h p, ok h → ∃ h', O.package p h = (h', tool p) ∧ ok h' ∧ holds h' = holds h
  openThere : ∀ h es k, ok h → GoPath.Good es → disk.find es = some k →
    ∃ h' fd, O.openFile (GoPath.mk es) h = (h', .ok fd) ∧ ok h' ∧ holds h fd = none ∧ holds h' fd = some (k, 0) ∧
      ∀ g, g ≠ fd → holds h' g = holds h g
  openAbsent : ∀ h es, ok h → GoPath.Good es → disk.find es = none →
    ∃ h' e, O.openFile (GoPath.mk es) h = (h', .error e) ∧ ok h' ∧ holds h' = holds h ∧
      (e.isNotExist = true ↔ ¬ BelowFile disk es)
  fstat : ∀ h fd k p, ok h → holds h fd = some (k, p) →
    ∃ h', O.fstat fd h = (h', .ok k.details) ∧ ok h' ∧ holds h' = holds h
  /-- The entries come in any order. -/
  readdir : ∀ h fd d kids n, ok h → holds h fd = some (.dir d kids, 0) → n ≤ 0 →
    ∃ h' l p, O.readdir fd n h = (h', .ok l) ∧ l.Perm (kids.map (·.2.details)) ∧ ok h' ∧
      holds h' fd = some (.dir d kids, p) ∧ ∀ g, g ≠ fd → holds h' g = holds h g
  /-- Some of the bytes that are left. -/
  read : ∀ h fd d b p n, ok h → holds h fd = some (.file d b, p) → 0 < n → p < b.length →
    ∃ h' m, I.read fd n h = (h', (b.drop p).take m, none) ∧ 0 < m ∧ m ≤ n ∧ p + m ≤ b.length ∧ ok h' ∧
      holds h' fd = some (.file d b, p + m) ∧ ∀ g, g ≠ fd → holds h' g = holds h g
  readEnd : ∀ h fd d b p n, ok h → holds h fd = some (.file d b, p) → 0 < n → ¬ p < b.length →
    ∃ h', I.read fd n h = (h', [], some .eof) ∧ ok h' ∧ holds h' = holds h
  seek : ∀ h fd d b p off, ok h → holds h fd = some (.file d b, p) → 0 ≤ off →
    ∃ h', I.seek fd off 0 h = (h', off, none) ∧ ok h' ∧ holds h' fd = some (.file d b, off.toNat) ∧
      ∀ g, g ≠ fd → holds h' g = holds h g
  close : ∀ h fd k, ok h → holds h fd = some k →
    ∃ h', O.close fd h = (h', none) ∧ ok h' ∧ holds h' fd = none ∧ ∀ g, g ≠ fd → holds h' g = holds h g

/-- What is known of a package: what the Pkger remembers, and otherwise what the Go tool says. -/
def Posix.told {S : Type} {O : Host S} {I : Io S} {disk : Node} (P : Posix O I disk) (w : Stdos.World S) (p : Str) : Except Err Info :=
  match AMap.get w.infos p with
  | some i => .ok i
  | none => P.tool p

end Site
end Verif
