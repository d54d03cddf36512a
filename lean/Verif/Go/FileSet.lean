import Verif.Go.Bytes

/-!
`go/token.FileSet` (Go standard library): positions in several files as one range of numbers, and back.

Simplifications: no `//line` directives; the file of a position is found by looking at all files (Go keeps the last file
found and searches otherwise; the ranges of files do not overlap, so that makes no difference); one goroutine.
-/

namespace Verif
namespace Token

/-- `token.Position`. -/
structure Position where
  filename : Str
  offset : Nat
  line : Nat
  column : Nat
deriving DecidableEq, Repr

/-- `token.File`: `lines` holds the offset of the first byte of each line. -/
structure TFile where
  name : Str
  base : Nat
  size : Nat
  lines : List Nat
deriving DecidableEq, Repr

/-- `token.FileSet`. -/
structure FileSet where
  base : Nat
  files : List TFile
deriving DecidableEq, Repr

/-- `token.NewFileSet`. -/
def FileSet.new : FileSet := ⟨1, []⟩

/-- What the scanner adds for the text after the first `n` bytes: `AddLine` after each newline, which leaves out an
offset at the end of the file. -/
def starts (size : Nat) : Nat → Str → List Nat
  | _, [] => []
  | n, c :: s =>
    if c = 10 ∧ n + 1 < size then (n + 1) :: starts size (n + 1) s
    else starts size (n + 1) s

/-- The line table of a scanned text. -/
def lineStarts (text : Str) : List Nat := 0 :: starts text.length 0 text

/-- `AddFile(name, -1, size)` and scanning the text. -/
def FileSet.add (fs : FileSet) (name text : Str) : FileSet :=
  ⟨fs.base + text.length + 1, fs.files ++ [⟨name, fs.base, text.length, lineStarts text⟩]⟩

/-- Adding files one after the other. -/
def FileSet.addAll (fs : FileSet) (l : List (Str × Str)) : FileSet := l.foldl (fun fs e => fs.add e.1 e.2) fs

/-- The loop of `searchInts`; the first number is at least the number of rounds. -/
def search (a : List Nat) (x : Nat) : Nat → Nat → Nat → Nat
  | 0, i, _ => i
  | fuel + 1, i, j =>
    if i < j then
      if a.getD ((i + j) / 2) 0 ≤ x then search a x fuel ((i + j) / 2 + 1) j
      else search a x fuel i ((i + j) / 2)
    else i

/-- `searchInts`, one more than what Go answers: 0 is "not found". -/
def searchInts (a : List Nat) (x : Nat) : Nat := search a x a.length 0 a.length

/-- `(*File).unpack`. -/
def TFile.position (f : TFile) (offset : Nat) : Position :=
  match searchInts f.lines offset with
  | 0 => ⟨f.name, offset, 0, 0⟩
  | i + 1 => ⟨f.name, offset, i + 1, offset - f.lines.getD i 0 + 1⟩

/-- `(*FileSet).Position`. -/
def FileSet.position (fs : FileSet) (p : Nat) : Position :=
  match fs.files.find? fun f => f.base ≤ p ∧ p ≤ f.base + f.size with
  | none => ⟨[], 0, 0, 0⟩
  | some f => f.position (p - f.base)

end Token
end Verif
