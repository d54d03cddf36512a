import Verif.Model.Client
import Verif.Go.Sort

/-!
Serving files over HTTP: `http.FileServer` on a file handle, as `pkger serve` does it (cmd/pkger/cmds/serve.go:42-60),
and on `pkger.Dir`, as programs are told to do it (pkger.go:32-40).

`net/http` is not part of the repository and not installed here.  What follows is the algorithm of its file server
(`net/http/fs.go`), written down from its documentation and from memory, as a program that reads through file handles.
Answers that depend on request headers only (conditional requests, the syntax of `Range`) are left open.
-/

namespace Verif
namespace Http

open Mem Client

/-- What `parseRange` makes of the `Range` header, given the size. -/
inductive Ranges where
  /-- Start and length of each range; none if there is no such header. -/
  | ok (l : List (Int × Int))
  /-- The header is malformed, or no range overlaps the file. -/
  | bad
deriving DecidableEq, Repr

/-- What the file server looks at in a request. -/
structure Request where
  /-- `r.URL.Path`, not empty. -/
  path : Str
  /-- The method is HEAD. -/
  head : Bool
  /-- The status with which the conditional headers end the request, given the time of the last change. -/
  cond : Int → Option Nat
  /-- The `Range` header, given the time of the last change and the size. -/
  ranges : Int → Int → Ranges

/-- What the file server depends on besides: the host's table of types, and how much is copied at a time. -/
structure Server where
  /-- `mime.TypeByExtension` knows a type for the name. -/
  typed : Str → Bool
  /-- The size of the next buffer when so many bytes are left. -/
  chunk : Nat → Nat

/-- The answer. -/
inductive Resp where
  /-- 301 and the new location. -/
  | redirect (to : Str)
  /-- An error, or a conditional request that ended early. -/
  | status (code : Nat)
  /-- 200 and the page of a directory: the texts of its links. -/
  | page (names : List Str)
  /-- A whole file (200) or one range of it (206): `Content-Length`, the range, the body. -/
  | content (code : Nat) (length : Int) (range : Option (Int × Int)) (body : Str)
  /-- 206 with several ranges, each with its bytes. -/
  | parts (l : List ((Int × Int) × Str))
  /-- The handler panicked. -/
  | panicked
deriving DecidableEq, Repr

/-- What is served: a file handle, the program's first, or `pkger.Dir`. -/
inductive Source where
  | handle
  | dir (d : Str)

/-- `Open` of the served file system: `File.Open`, pkging/mem/file.go:170-203, or `Dir.Open`, pkger.go:34-40. -/
def openBy : Source → Str → Prog (Res Nat)
  | .handle, name => openIn 0 name
  | .dir d, name =>
    openFile d >>= fun
      | .ok k => openIn k name
      | .err e => pure (.err e)
      | .panic => pure .panic

/-- `toHTTPError`. -/
def errCode (e : Err) : Nat := if e.isNotExist then 404 else 500

/-- `io.ReadFull` with a buffer of `n` bytes.  (If the file delivered nothing without an error, the real loop would not
end; this one does.) -/
def readFull (k : Nat) : Nat → Nat → Prog Str
  | 0, _ => pure []
  | fuel + 1, n =>
    if n = 0 then pure []
    else
      read k n >>= fun
        | (b, some _) => pure b
        | (b, none) => readFull k fuel (n - b.length) >>= fun b' => pure (b ++ b')

/-- `io.CopyN` of `n` bytes: reads until so many bytes have come or an error.  The remark at `readFull` applies. -/
def copyN (S : Server) (k : Nat) : Nat → Nat → Prog Str
  | 0, _ => pure []
  | fuel + 1, n =>
    if n = 0 then pure []
    else
      read k (S.chunk n) >>= fun
        | (b, some _) => pure b
        | (b, none) => copyN S k fuel (n - b.length) >>= fun b' => pure (b ++ b')

/-- The body of an answer: nothing for HEAD. -/
def body (S : Server) (r : Request) (k : Nat) (n : Int) : Prog Str :=
  if r.head then pure [] else copyN S k n.toNat n.toNat

/-- The parts of a multipart answer, one after the other, until something fails. -/
def copyParts (S : Server) (k : Nat) : List (Int × Int) → Prog (List ((Int × Int) × Str))
  | [] => pure []
  | (start, len) :: rs =>
    seekStart k start >>= fun
      | some _ => pure []
      | none =>
        copyN S k len.toNat len.toNat >>= fun b =>
          if b.length < len.toNat then pure [((start, len), b)]
          else copyParts S k rs >>= fun ps => pure (((start, len), b) :: ps)

/-- `sumRangesSize`. -/
def total (rs : List (Int × Int)) : Int := (rs.map (·.2)).sum

/-- The second half of `serveContent`: ranges and body. -/
def sendContent (S : Server) (r : Request) (k : Nat) (d : Details) : Prog Resp :=
  match r.ranges d.modTime d.size with
  | .bad => pure (.status 416)
  | .ok rs =>
    match if total rs > d.size then [] else rs with
    | [] => body S r k d.size >>= fun b => pure (.content 200 d.size none b)
    | [(start, len)] =>
      seekStart k start >>= fun
        | some _ => pure (.status 416)
        | none => body S r k len >>= fun b => pure (.content 206 len (some (start, len)) b)
    | rs => if r.head then pure (.parts []) else copyParts S k rs >>= fun ps => pure (.parts ps)

/-- `serveContent`: conditions, type, content.  The type is looked up by the name's extension, or else found from the
first 512 bytes. -/
def serveContent (S : Server) (r : Request) (k : Nat) (d : Details) : Prog Resp :=
  match r.cond d.modTime with
  | some code => pure (.status code)
  | none =>
    if S.typed d.name then sendContent S r k d
    else
      readFull k 512 512 >>= fun _ =>
        seekStart k 0 >>= fun
          | some _ => pure (.status 500)
          | none => sendContent S r k d

/-- The text of a link on a directory's page. -/
def linkText (d : Details) : Str := if d.isDir then d.name ++ [Str.slash] else d.name

/-- `dirList`. -/
def dirList (k : Nat) : Prog Resp :=
  readdir k (-1) >>= fun
    | .ok l => pure (.page ((sortBy (·.name) l).map linkText))
    | .err _ => pure (.status 500)
    | .panic => pure .panicked

/-- The end of `serveFile`: a page or a file. -/
def finish (S : Server) (r : Request) (k : Nat) (d : Details) : Prog Resp :=
  if d.isDir then
    match r.cond d.modTime with
    | some code => pure (.status code)
    | none => dirList k
  else serveContent S r k d

/-- `strings.TrimSuffix(name, "/")`. -/
def trimSlash (name : Str) : Str := if name.getLast? = some Str.slash then name.dropLast else name

/-- `/index.html`. -/
def indexPage : Str := b! "/index.html"

/-- The middle of `serveFile`, with the opened file `k` and its details: redirects to the right spelling of the path,
and the index page of a directory. -/
def serveOpened (S : Server) (src : Source) (r : Request) (upath name : Str) (k : Nat) (d : Details) : Prog Resp :=
  if d.isDir = true ∧ upath.getLast? ≠ some Str.slash then pure (.redirect (GoPath.base upath ++ [Str.slash]))
  else if d.isDir = false ∧ upath.getLast? = some Str.slash then pure (.redirect (b! "../" ++ GoPath.base upath))
  else if d.isDir then
    openBy src (trimSlash name ++ indexPage) >>= fun
      | .panic => pure .panicked
      | .err _ => finish S r k d
      | .ok kk =>
        stat kk >>= fun
          | .panic => close kk >>= fun _ => pure .panicked
          | .err _ => finish S r k d >>= fun resp => close kk >>= fun _ => pure resp
          | .ok dd => finish S r kk dd >>= fun resp => close kk >>= fun _ => pure resp
  else finish S r k d

/-- `serveFile`. -/
def serveFile (S : Server) (src : Source) (r : Request) (upath name : Str) : Prog Resp :=
  if Str.hasSuffix upath indexPage then pure (.redirect (b! "./"))
  else
    openBy src name >>= fun
      | .panic => pure .panicked
      | .err e => pure (.status (errCode e))
      | .ok k =>
        stat k >>= fun
          | .panic => close k >>= fun _ => pure .panicked
          | .err e => close k >>= fun _ => pure (.status (errCode e))
          | .ok d => serveOpened S src r upath name k d >>= fun resp => close k >>= fun _ => pure resp

/-- `fileHandler.ServeHTTP`. -/
def serve (S : Server) (src : Source) (r : Request) : Prog Resp :=
  let upath := if Str.hasPrefix r.path [Str.slash] then r.path else Str.slash :: r.path
  serveFile S src r upath (GoPath.clean upath)

end Http
end Verif
