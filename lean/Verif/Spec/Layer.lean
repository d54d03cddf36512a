import Verif.Model.Wrap

/-! What a stack of layers should do. -/

namespace Verif
namespace Layer

/-- The reading calls of the interface (`Create` counts: it answers with a file or an error). -/
inductive Question where
  | parse (p : Str)
  | current
  | info (p : Str)
  | create (p : Str)
  | openFile (p : Str)
  | stat (p : Str)

/-- Their answers. -/
inductive Answer (F : Type) where
  | path (p : Path)
  | info (i : Info)
  | file (f : F)
  | fileInfo (f : F)

/-- Ask a Pkger. -/
def ask {S F : Type} (x : Pkger S F) : Question → Act S (Answer F)
  | .parse p => fun s => ((x.parse p s).1, mapRes .path (x.parse p s).2)
  | .current => fun s => ((x.current s).1, mapRes .info (x.current s).2)
  | .info p => fun s => ((x.info p s).1, mapRes .info (x.info p s).2)
  | .create p => fun s => ((x.create p s).1, mapRes .file (x.create p s).2)
  | .openFile p => fun s => ((x.openFile p s).1, mapRes .file (x.openFile p s).2)
  | .stat p => fun s => ((x.stat p s).1, mapRes .fileInfo (x.stat p s).2)

/-- The commands of the interface. -/
inductive Command (S : Type) where
  | mkdirAll (p : Str) (perm : Nat)
  | walk (p : Str) (wf : WalkFunc S)
  | remove (p : Str)
  | removeAll (p : Str)

/-- Give a command to a Pkger. -/
def tell {S F : Type} (x : Pkger S F) : Command S → Act S Unit
  | .mkdirAll p perm => x.mkdirAll p perm
  | .walk p wf => x.walk p wf
  | .remove p => x.remove p
  | .removeAll p => x.removeAll p

/-- Ask one after the other until one does not answer with an error; the last error if all do. -/
def firstAnswer {S α : Type} : Act S α → List (Act S α) → Act S α
  | a, [] => a
  | a, b :: bs => fun s =>
    match a s with
    | (s', .err _) => firstAnswer b bs s'
    | r => r

/-- Do one after the other until one fails. -/
def allOf {S : Type} : List (Act S Unit) → Act S Unit
  | [] => fun s => (s, .ok ())
  | a :: as => fun s =>
    match a s with
    | (s', .ok ()) => allOf as s'
    | r => r

/-- The stack with the given layers, newest first. -/
def stackOf {S F : Type} : List (Pkger S F) → Option (Pkger S F)
  | [] => none
  | b :: bs => some (wrap (stackOf bs) (some b))

end Layer
end Verif
