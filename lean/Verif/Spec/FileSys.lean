import Verif.Model.Script

/-!
A tree of files as one thinks of it, what the things a program does should do to it, and what the proofs assume of an
operating system whose files a program changes.
-/

namespace Verif
namespace FileSys

open Script (Act Out)

/-- A directory or a regular file with its content. -/
inductive Entry where
  | dir
  | file (b : Str)
deriving DecidableEq

/-- Is it a directory? -/
def Entry.isDir : Entry → Bool
  | .dir => true
  | .file _ => false

/-- What a program looks at. -/
def Entry.about : Entry → Option Int
  | .dir => none
  | .file b => some (b.length : Int)

/-- What there is at each path. -/
abbrev Fs := List Str → Option Entry

/-- Something else at one path. -/
def Fs.set (fs : Fs) (es : List Str) (e : Entry) : Fs := fun q => if q = es then some e else fs q

/-- Nothing at one path. -/
def Fs.unset (fs : Fs) (es : List Str) : Fs := fun q => if q = es then none else fs q

/-- Directories on the way. -/
def Fs.mkdirs (fs : Fs) (es : List Str) : Fs := fun q => if q <+: es then some .dir else fs q

/-- Nothing from here on. -/
def Fs.prune (fs : Fs) (es : List Str) : Fs := fun q => if es <+: q then none else fs q

/-- The part of the tree at `m`. -/
def Fs.sub (fs : Fs) (m : List Str) : Fs := fun q => fs (m ++ q)

/-- Some path on the way, or the path itself, is a regular file. -/
def OverFile (fs : Fs) (es : List Str) : Prop := ∃ a b, a <+: es ∧ fs a = some (.file b)

/-- Some path on the way, not the path itself, is a regular file. -/
def BelowFile (fs : Fs) (es : List Str) : Prop := ∃ a b, a <+: es ∧ a ≠ es ∧ fs a = some (.file b)

/-- The directory holds something. -/
def Full (fs : Fs) (es : List Str) : Prop := ∃ x, fs (es ++ [x]) ≠ none

/-- The names in a directory, in lexical order, each once. -/
def Listing (fs : Fs) (es : List Str) (l : List (Str × Bool)) : Prop :=
  l.Pairwise (fun a b => Str.lt a.1 b.1 = true) ∧
    ∀ x b, (x, b) ∈ l ↔ ∃ e, fs (es ++ [x]) = some e ∧ e.isDir = b

/-- What should be done, and answered. -/
inductive Does (fs : Fs) : Act → Fs → Out → Prop where
  | put (es : List Str) (chunks : List Str) : fs es.dropLast = some .dir → fs es ≠ some .dir →
      Does fs (.put es chunks) (fs.set es (.file chunks.flatten)) (.done true)
  | putFails (es : List Str) (chunks : List Str) : (fs es.dropLast ≠ some .dir ∨ fs es = some .dir) →
      Does fs (.put es chunks) fs (.done false)
  | get (es : List Str) (sizes : List Nat) (b : Str) : fs es = some (.file b) →
      Does fs (.get es sizes) fs (.content (some b))
  | getFails (es : List Str) (sizes : List Nat) : (∀ b, fs es ≠ some (.file b)) → Does fs (.get es sizes) fs (.content none)
  | mkdirAll (es : List Str) (perm : Nat) : ¬ OverFile fs es → Does fs (.mkdirAll es perm) (fs.mkdirs es) (.done true)
  | mkdirAllFails (es : List Str) (perm : Nat) : OverFile fs es → Does fs (.mkdirAll es perm) fs (.done false)
  | stat (es : List Str) : Does fs (.stat es) fs (.about ((fs es).map Entry.about))
  | list (es : List Str) (l : List (Str × Bool)) : fs es = some .dir → Listing fs es l →
      Does fs (.list es) fs (.names (some l))
  | listFails (es : List Str) : fs es ≠ some .dir → Does fs (.list es) fs (.names none)
  | remove (es : List Str) : fs es ≠ none → ¬ Full fs es → Does fs (.remove es) (fs.unset es) (.done true)
  | removeFails (es : List Str) : (fs es = none ∨ Full fs es) → Does fs (.remove es) fs (.done false)
  | removeAll (es : List Str) : ¬ BelowFile fs es → Does fs (.removeAll es) (fs.prune es) (.done true)
  | removeAllFails (es : List Str) : BelowFile fs es → Does fs (.removeAll es) fs (.done false)

/-- A tree: the root is a directory, everything else is in a directory, the names are names. -/
structure Tree (fs : Fs) : Prop where
  root : fs [] = some .dir
  up : ∀ es x, fs (es ++ [x]) ≠ none → fs es = some .dir
  good : ∀ es, fs es ≠ none → GoPath.Good es

open Stdos (Host)
open DiskClient (Io)
open Script (Writes)
open Mem (Details)

/-- The details say truly what there is. -/
def Told (d : Details) (e : Entry) : Prop := d.isDir = e.isDir ∧ ∀ b, e = .file b → d.size = (b.length : Int)

/-- An operating system on which one program works, with all permissions and with room enough.  `ok` holds in all states
it gets into, `fs` are the files, `inp` and `out` are the paths of the files open for reading, with the position, and for
writing.  Nothing is assumed of a file that is open while something else than reading or writing it is done, or while
another is read or written. -/
structure Unix {S : Type} (O : Host S) (I : Io S) (W : Writes S) where
  ok : S → Prop
  fs : S → Fs
  inp : S → Nat → Option (List Str × Nat)
  out : S → Nat → Option (List Str)
  tree : ∀ h, ok h → Tree (fs h)
  openThere : ∀ h es e, ok h → GoPath.Good es → fs h es = some e →
    ∃ h' fd, O.openFile (GoPath.mk es) h = (h', .ok fd) ∧ ok h' ∧ fs h' = fs h ∧ inp h' fd = some (es, 0)
  openAbsent : ∀ h es, ok h → GoPath.Good es → fs h es = none →
    ∃ h' e, O.openFile (GoPath.mk es) h = (h', .error e) ∧ ok h' ∧ fs h' = fs h
  create : ∀ h es, ok h → GoPath.Good es → es ≠ [] → fs h es.dropLast = some .dir → fs h es ≠ some .dir →
    ∃ h' fd, O.create (GoPath.mk es) h = (h', .ok fd) ∧ ok h' ∧ fs h' = (fs h).set es (.file []) ∧ out h' fd = some es
  createFails : ∀ h es, ok h → GoPath.Good es → es ≠ [] → (fs h es.dropLast ≠ some .dir ∨ fs h es = some .dir) →
    ∃ h' e, O.create (GoPath.mk es) h = (h', .error e) ∧ ok h' ∧ fs h' = fs h
  fstatIn : ∀ h fd es p e, ok h → inp h fd = some (es, p) → fs h es = some e →
    ∃ h' d, O.fstat fd h = (h', .ok d) ∧ Told d e ∧ ok h' ∧ fs h' = fs h ∧ inp h' fd = some (es, p)
  fstatOut : ∀ h fd es, ok h → out h fd = some es →
    ∃ h' d, O.fstat fd h = (h', .ok d) ∧ ok h' ∧ fs h' = fs h ∧ out h' fd = some es
  write : ∀ h fd es b c, ok h → out h fd = some es → fs h es = some (.file b) →
    ∃ h', W.write fd c h = (h', c.length, none) ∧ ok h' ∧ fs h' = (fs h).set es (.file (b ++ c)) ∧ out h' fd = some es
  /-- Some of the bytes that are left. -/
  read : ∀ h fd es p b n, ok h → inp h fd = some (es, p) → fs h es = some (.file b) → 0 < n → p < b.length →
    ∃ h' m, I.read fd n h = (h', (b.drop p).take m, none) ∧ 0 < m ∧ m ≤ n ∧ p + m ≤ b.length ∧ ok h' ∧ fs h' = fs h ∧
      inp h' fd = some (es, p + m)
  readEnd : ∀ h fd es p b n, ok h → inp h fd = some (es, p) → fs h es = some (.file b) → 0 < n → ¬ p < b.length →
    ∃ h', I.read fd n h = (h', [], some .eof) ∧ ok h' ∧ fs h' = fs h ∧ inp h' fd = some (es, p)
  readDir : ∀ h fd es p n, ok h → inp h fd = some (es, p) → fs h es = some .dir → 0 < n →
    ∃ h' e, I.read fd n h = (h', [], some e) ∧ e ≠ .eof ∧ ok h' ∧ fs h' = fs h ∧ inp h' fd = some (es, p)
  /-- The entries come in any order. -/
  readdir : ∀ h fd es, ok h → inp h fd = some (es, 0) → fs h es = some .dir →
    ∃ h' l p, O.readdir fd (-1) h = (h', .ok l) ∧ (l.map (·.name)).Nodup ∧
      (∀ x b, (∃ d ∈ l, d.name = x ∧ d.isDir = b) ↔ ∃ e, fs h (es ++ [x]) = some e ∧ e.isDir = b) ∧
      ok h' ∧ fs h' = fs h ∧ inp h' fd = some (es, p)
  readdirFails : ∀ h fd es b, ok h → inp h fd = some (es, 0) → fs h es = some (.file b) →
    ∃ h' e p, O.readdir fd (-1) h = (h', .error e) ∧ ok h' ∧ fs h' = fs h ∧ inp h' fd = some (es, p)
  close : ∀ h fd, ok h → (inp h fd ≠ none ∨ out h fd ≠ none) → ∃ h', O.close fd h = (h', none) ∧ ok h' ∧ fs h' = fs h
  stat : ∀ h es e, ok h → GoPath.Good es → fs h es = some e →
    ∃ h' d, O.stat (GoPath.mk es) h = (h', .ok d) ∧ Told d e ∧ ok h' ∧ fs h' = fs h
  statFails : ∀ h es, ok h → GoPath.Good es → fs h es = none →
    ∃ h' e, O.stat (GoPath.mk es) h = (h', .error e) ∧ ok h' ∧ fs h' = fs h
  mkdirAll : ∀ h es perm, ok h → GoPath.Good es → ¬ OverFile (fs h) es →
    ∃ h', O.mkdirAll (GoPath.mk es) perm h = (h', none) ∧ ok h' ∧ fs h' = (fs h).mkdirs es
  mkdirAllFails : ∀ h es perm, ok h → GoPath.Good es → OverFile (fs h) es →
    ∃ h' e, O.mkdirAll (GoPath.mk es) perm h = (h', some e) ∧ ok h' ∧ fs h' = fs h
  remove : ∀ h es, ok h → GoPath.Good es → es ≠ [] → fs h es ≠ none → ¬ Full (fs h) es →
    ∃ h', O.remove (GoPath.mk es) h = (h', none) ∧ ok h' ∧ fs h' = (fs h).unset es
  removeFails : ∀ h es, ok h → GoPath.Good es → es ≠ [] → (fs h es = none ∨ Full (fs h) es) →
    ∃ h' e, O.remove (GoPath.mk es) h = (h', some e) ∧ ok h' ∧ fs h' = fs h
  removeAll : ∀ h es, ok h → GoPath.Good es → es ≠ [] → ¬ BelowFile (fs h) es →
    ∃ h', O.removeAll (GoPath.mk es) h = (h', none) ∧ ok h' ∧ fs h' = (fs h).prune es
  removeAllFails : ∀ h es, ok h → GoPath.Good es → es ≠ [] → BelowFile (fs h) es →
    ∃ h' e, O.removeAll (GoPath.mk es) h = (h', some e) ∧ ok h' ∧ fs h' = fs h

end FileSys
end Verif
