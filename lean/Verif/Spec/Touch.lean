import Verif.Model.Fine

/-! Which paths of a Pkger a call may change. -/

namespace Verif
namespace Fine

open Mem

/-- `MkdirAll` of `s` makes an entry at `q`: at the path named, or at a directory above it. -/
inductive Makes (E : Env) (here : Info) : Str → Path → Prop where
  | self {s : Str} {q : Path} (h : E.parse here s = .ok q) : Makes E here s q
  | above {s : Str} {pt q : Path} (h : E.parse here s = .ok pt) (hd : (GoPath.split pt.name).1 ≠ GoPath.rootS)
      (h' : Makes E here (GoPath.split pt.name).1 q) : Makes E here s q

/-- The call may put an entry at `q`. -/
def Call.Stores (E : Env) (here : Info) : Call → Path → Prop
  | .create name, q => Makes E here GoPath.rootS q ∨ E.parse here name = .ok q
  | .mkdirAll s _, q => Makes E here s q
  | _, _ => False

/-- The call may delete the entry at `q`. -/
def Call.Deletes (E : Env) (here : Info) : Call → Path → Prop
  | .remove name, q => E.parse here name = .ok q
  | .removeAll name, q => ∃ pt, E.parse here name = .ok pt ∧ Str.hasPrefix q.name pt.name = true
  | _, _ => False

/-- The call creates the file `q`. -/
def Call.Creates (E : Env) (here : Info) : Call → Path → Prop
  | .create name, q => E.parse here name = .ok q
  | _, _ => False

/-- The call may look at the file object stored at `q`.  What a call on a handle looks at depends on the handle: `Open` and
`Readdir` of a handle count as looking at everything. -/
def Call.Looks (E : Env) (here : Info) : Call → Path → Prop
  | .reads (.openFile name), q => E.parse here name = .ok q
  | .reads (.openIn _ _), _ => True
  | .reads (.stat name), q => E.parse here name = .ok q
  | .reads (.readdir _ _), _ => True
  | .reads (.walk name), q => ∃ root, E.parse here name = .ok root ∧ q.pkg = root.pkg ∧ Str.hasPrefix q.name root.name = true
  | .create name, q => ∃ pt, E.parse here name = .ok pt ∧ E.parse here (GoPath.dir pt.name) = .ok q
  | _, _ => False

/-- Every call the program may make satisfies `φ`. -/
def Prog.All {α : Type} (φ : Call → Prop) : Prog α → Prop
  | .ret _ => True
  | .step c k => φ c ∧ ∀ a, (k a).All φ

theorem Prog.All.mono {α : Type} {φ ψ : Call → Prop} (h : ∀ c, φ c → ψ c) : ∀ {p : Prog α}, p.All φ → p.All ψ
  | .ret _, _ => trivial
  | .step _ _, h' => ⟨h _ h'.1, fun a => (h'.2 a).mono h⟩

/-- Write the pieces `bs` to handle `k`, then `end_`. -/
def writes {α : Type} (k : Nat) : List Str → Prog α → Prog α
  | [], end_ => end_
  | b :: bs, end_ => .step (.write k b) fun _ => writes k bs end_

/-- Create the file `name`, write the pieces `bs` to it and close it; `yes` if `Create` returned a file. -/
def writeAll {α : Type} (name : Str) (bs : List Str) (yes no : α) : Prog α :=
  .step (.create name) fun
    | .reads (.opened (.ok k)) => writes k bs (.step (.reads (.close k)) fun _ => .ret yes)
    | _ => .ret no

/-- Open the file `name` and read up to `n` bytes; `fin` is told the answer of the last call. -/
def readOnce {α : Type} (name : Str) (n : Nat) (fin : Ans → α) : Prog α :=
  .step (.reads (.openFile name)) fun
    | .reads (.opened (.ok k)) => .step (.reads (.read k n)) fun a => .ret (fin a)
    | a => .ret (fin a)

/-- `Walk` of `root` is to visit `q`: it is in the package, its name begins with the name of `root` and not with `!`. -/
def Under (root q : Path) : Prop :=
  q.pkg = root.pkg ∧ Str.hasPrefix q.name root.name = true ∧ Str.hasPrefix q.name (b! "!") = false

instance (root q : Path) : Decidable (Under root q) := inferInstanceAs (Decidable (_ ∧ _))

/-- The file `p` made by `Create(name)`, with the content `s`, closed. -/
structure Written (p : Path) (name s : Str) (f : FileObj) : Prop where
  bytes : f.bytes = s
  path : f.path = p
  pkging : f.pkging = true
  closed : f.reader = none ∧ f.writer = none
  info : ∃ d, f.info = some d ∧ d.name = GoPath.base name ∧ d.size = s.length ∧ d.mode = 0o644 ∧ d.isDir = false

/-! ### Data races -/

/-- The file object an access is about, and whether the access writes to it.  Accesses to a `sync.Map` and to an object that
nobody else knows are not about any. -/
def Acc.object : {β : Type} → Acc β → Option (Nat × Bool)
  | _, .get id => some (id, false)
  | _, .setReader id _ => some (id, true)
  | _, .setWriter id _ => some (id, true)
  | _, .setData id _ => some (id, true)
  | _, .setSize id _ => some (id, true)
  | _, .setModTime id _ => some (id, true)
  | _, _ => none

/-- What the next access is about. -/
def Code.next {α : Type} : Code α → Option (Nat × Bool)
  | .acc a _ => a.object
  | _ => none

/-- Goroutines `t` and `u` are both about to access the same file object, at least one of them writing. -/
def Sys.Races {α : Type} (s : Sys α) (t u : Nat) : Prop :=
  ∃ id a b, (s.code t).next = some (id, a) ∧ (s.code u).next = some (id, b) ∧ (a = true ∨ b = true)

end Fine
end Verif
