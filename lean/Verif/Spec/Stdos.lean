import Verif.Model.Stdos
import Verif.Spec.Demo

/-!
Watching what the disk Pkger does to the outside world: a host that keeps a record beside its state.
-/

namespace Verif
namespace Stdos

open Mem (Details)

/-- What to record: a path handed to the operating system, a question to the Go tool with whether it was
answered, a file that came to be open, and one that was closed. -/
structure Watch (L : Type) where
  path : Str → L → L
  tool : Str → Bool → L → L
  opened : Nat → L → L
  closed : Nat → L → L

/-- The host, with the record kept beside its state.  It answers exactly as the host does. -/
def Host.watched {S L : Type} (O : Host S) (W : Watch L) : Host (S × L) where
  create p s := match O.create p s.1 with
    | (h, .ok fd) => ((h, W.opened fd (W.path p s.2)), .ok fd)
    | (h, .error e) => ((h, W.path p s.2), .error e)
  openFile p s := match O.openFile p s.1 with
    | (h, .ok fd) => ((h, W.opened fd (W.path p s.2)), .ok fd)
    | (h, .error e) => ((h, W.path p s.2), .error e)
  fstat fd s := match O.fstat fd s.1 with | (h, r) => ((h, s.2), r)
  readdir fd c s := match O.readdir fd c s.1 with | (h, r) => ((h, s.2), r)
  close fd s := match O.close fd s.1 with | (h, r) => ((h, W.closed fd s.2), r)
  stat p s := match O.stat p s.1 with | (h, r) => ((h, W.path p s.2), r)
  mkdirAll p m s := match O.mkdirAll p m s.1 with | (h, r) => ((h, W.path p s.2), r)
  remove p s := match O.remove p s.1 with | (h, r) => ((h, W.path p s.2), r)
  removeAll p s := match O.removeAll p s.1 with | (h, r) => ((h, W.path p s.2), r)
  tree p s := match O.tree p s.1 with | (h, r) => ((h, W.path p s.2), r)
  package p s := match O.package p s.1 with
    | (h, .ok i) => ((h, W.tool p true s.2), .ok i)
    | (h, .error e) => ((h, W.tool p false s.2), .error e)

/-- Record the paths handed to the operating system, in order. -/
def Watch.paths : Watch (List Str) where
  path p l := l ++ [p]
  tool _ _ l := l
  opened _ l := l
  closed _ l := l

/-- Record the questions to the Go tool, in order, each with whether it was answered. -/
def Watch.questions : Watch (List (Str × Bool)) where
  path _ l := l
  tool p ok l := l ++ [(p, ok)]
  opened _ l := l
  closed _ l := l

/-- Record the files that are open. -/
def Watch.handles : Watch (List Nat) where
  path _ l := l
  tool _ _ l := l
  opened fd l := fd :: l
  closed fd l := l.erase fd

end Stdos

namespace Demo

open Stdos

/-- A small disk for the examples: every file exists, has number 7 for `Create`, its path's length for `Open`,
and the Go tool knows `app` and `lib`. -/
def details : Mem.Details := ⟨b! "x", 3, 0o644, 5, false⟩

def host : Host Unit where
  create _ s := (s, .ok 7)
  openFile p s := (s, .ok p.length)
  fstat _ s := (s, .ok details)
  readdir _ _ s := (s, .ok [details])
  close _ s := (s, none)
  stat _ s := (s, .ok details)
  mkdirAll _ _ s := (s, none)
  remove _ s := (s, none)
  removeAll _ s := (s, none)
  tree _ s := (s, .ok (.dir ⟨b! "d", 0, 0o755, 4, true⟩ [(b! "src", .dir ⟨b! "src", 0, 0o755, 4, true⟩
    [(b! "app", .dir ⟨b! "app", 0, 0o755, 4, true⟩ [(b! "x", .file details (b! "abc"))])])]))
  package p s := (s, pkgInfo p)

end Demo
end Verif
