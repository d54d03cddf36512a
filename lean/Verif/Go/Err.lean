import Verif.Go.Bytes

/-!
Error values.  Go errors are compared by identity (`err == filepath.SkipDir`, `err == io.EOF`) or by
dynamic type (`err.(*os.PathError)`); the constructors keep exactly these distinctions.
-/

namespace Verif

deriving instance DecidableEq for Except

inductive Err where
  /-- `os.ErrNotExist` (also the `ENOENT` an OS call returns). -/
  | notExist
  /-- `&os.PathError{op, path, inner}`; operation and path text are dropped. -/
  | pathError (inner : Err)
  /-- `io.EOF`. -/
  | eof
  /-- `filepath.SkipDir`. -/
  | skipDir
  /-- `fmt.Errorf("no such package %q", p)`, pkging/mem/mem.go:44. -/
  | noSuchPackage (p : Str)
  /-- `fmt.Errorf("could not stat %s", pt)`, pkging/mem/mem.go:204. -/
  | couldNotStat
  /-- `fmt.Errorf("unable to read %s", f.Name())`, pkging/mem/file.go:81. -/
  | unableToRead
  /-- `fmt.Errorf("no such file or directory")`, pkging/mem/mem.go:63. -/
  | noSuchFile
  /-- `errors.New("bytes.Reader.Seek: negative position")`. -/
  | negativePosition
  /-- `errors.New("bytes.Reader.Seek: invalid whence")`. -/
  | badWhence
  /-- `here.Info.Parse` failed. -/
  | parse
  /-- Malformed hexadecimal text (`hex.InvalidByteError`, `hex.ErrLength`). -/
  | hex
  /-- gzip or JSON decoding failed. -/
  | codec
  /-- `strconv.ErrSyntax`. -/
  | syntax
  /-- `fmt.Errorf("%s: ...", err, ...)`: the text of another error; the original value is lost. -/
  | text (inner : Err)
  /-- Any other error value, e.g. one made up by a callback. -/
  | other (n : Nat)
deriving DecidableEq, Repr

namespace Err

/-- `os.IsNotExist(err)`: looks through one `*os.PathError`. -/
def isNotExist : Err → Bool
  | notExist => true
  | pathError notExist => true
  | _ => false

/-- `_, ok := err.(*os.PathError)`. -/
def isPathError : Err → Bool
  | pathError _ => true
  | _ => false

end Err

/-- Result of a Go call: a value, an error, or a run-time panic (nil dereference, index out of range,
or a recursion that does not end). -/
inductive Res (α : Type) where
  | ok (a : α)
  | err (e : Err)
  | panic
deriving DecidableEq, Repr

namespace Res

def isOk {α : Type} : Res α → Bool
  | ok _ => true
  | _ => false

def toOption {α : Type} : Res α → Option α
  | ok a => some a
  | _ => none

def bind {α β : Type} : Res α → (α → Res β) → Res β
  | ok a, f => f a
  | err e, _ => err e
  | panic, _ => panic

end Res
end Verif
