import Verif.Go.Sort
import Verif.Model.Here
import Verif.Model.AMap

/-!
The in-memory implementation, pkging/mem/mem.go and pkging/mem/file.go.

Objects of type `*mem.File` live on a heap and are named by numbers, so that two variables can hold
the same file object.  Each `*pkging.FileInfo` belongs to exactly one file object (mem.go:110, :147,
:185, file.go:194, add.go:60, :86 always allocate a new one), so a `*FileInfo` is represented by the
number of the file that owns it.
-/

namespace Verif
namespace Mem

/-- `pkging.Details`, pkging/file_info.go:9-16.  `Sys` is dropped.  `ModTime` is an instant in
nanoseconds; `Mode` is the bit set `os.FileMode`. -/
structure Details where
  name : Str
  size : Int
  mode : Nat
  modTime : Int
  isDir : Bool
deriving DecidableEq, Repr

/-- `pkging.NewFileInfo`, pkging/file_info.go:53-65: a copy, field by field. -/
def newFileInfo (d : Details) : Details :=
  { name := d.name, size := d.size, mode := d.mode, modTime := d.modTime, isDir := d.isDir }

/-- `mem.File`, pkging/mem/file.go:21-30.  `data = none` is a nil slice.  `reader` is a `*bytes.Reader`
(content, position), the only reader the code ever stores; `writer` is a `*bytes.Buffer`.
`pkging` tells whether the `pkging` field is set; if so it is the Pkger itself. -/
structure FileObj where
  here : Info
  info : Option Details
  path : Path
  data : Option Str
  parent : Path
  writer : Option Str
  reader : Option (Str × Int)
  pkging : Bool
deriving DecidableEq, Repr

/-- The zero `here.Info`. -/
def infoZero : Info := ⟨[], [], [], ⟨[], false, [], [], []⟩⟩

/-- The zero `mem.File`. -/
def FileObj.zero : FileObj := ⟨infoZero, none, Path.zero, none, Path.zero, none, none, false⟩

/-- The bytes of a file object (`f.data`, nil reads as empty). -/
def FileObj.bytes (f : FileObj) : Str := f.data.getD []

/-- `mem.Pkger`, pkging/mem/mem.go:29-33, together with the heap and the clock. -/
structure World where
  here : Info
  infos : AMap Str Info
  files : AMap Path Nat
  heap : Nat → FileObj
  next : Nat
  now : Int

/-- Function update. -/
def upd {α : Type} (f : Nat → α) (i : Nat) (a : α) : Nat → α := fun j => if j = i then a else f j

/-- `mem.New`, pkging/mem/mem.go:19-27. -/
def new (info : Info) (now : Int) : World :=
  { here := info, infos := AMap.set [] info.importPath info, files := [],
    heap := fun _ => FileObj.zero, next := 0, now := now }

/-- Allocation of a file object. -/
def alloc (w : World) (f : FileObj) : World × Nat :=
  ({ w with heap := upd w.heap w.next f, next := w.next + 1 }, w.next)

/-- `fx.files.Store(pt, f)`, internal/maps/files.go:105-107. -/
def store (w : World) (pt : Path) (id : Nat) : World := { w with files := AMap.set w.files pt id }

/-- `Pkger.Current`, pkging/mem/mem.go:36-38. -/
def current (w : World) : Res Info := .ok w.here

/-- `Pkger.Info`, pkging/mem/mem.go:41-48. -/
def info (w : World) (p : Str) : Res Info :=
  match AMap.get w.infos p with
  | some i => .ok i
  | none => .err (.noSuchPackage p)

/-- `Pkger.Parse`, pkging/mem/mem.go:51-53. -/
def parse (E : Env) (w : World) (p : Str) : Except Err Path := E.parse w.here p

/-- `Pkger.Remove`, pkging/mem/mem.go:56-68. -/
def remove (E : Env) (w : World) (name : Str) : World × Res Unit :=
  match parse E w name with
  | .error e => (w, .err e)
  | .ok pt =>
    match AMap.get w.files pt with
    | none => (w, .err (.pathError .noSuchFile))
    | some _ => ({ w with files := AMap.erase w.files pt }, .ok ())

/-- `Pkger.RemoveAll`, pkging/mem/mem.go:71-85.  Deleting during `sync.Map.Range` is allowed and each
key is visited once. -/
def removeAll (E : Env) (w : World) (name : Str) : World × Res Unit :=
  match parse E w name with
  | .error e => (w, .err e)
  | .ok pt => ({ w with files := w.files.filter fun e => !Str.hasPrefix e.1.name pt.name }, .ok ())

/-- `f.writer.Bytes()`, pkging/mem/file.go:62: the slice of a buffer to which nothing but empty slices has been written
is nil. -/
def bufBytes (b : Str) : Option Str := if b = [] then none else some b

@[simp] theorem bufBytes_getD (b : Str) : (bufBytes b).getD [] = b := by
  unfold bufBytes
  split
  · next h => rw [h]; rfl
  · rfl

/-- `File.Close` on a file object, pkging/mem/file.go:45-69 (the reader is never an `io.Closer`).
A nil `info` with a pending writer would panic; `none` is left alone here and excluded by the
invariant `WF`. -/
def closeObj (now : Int) (f : FileObj) : FileObj :=
  match f.writer with
  | none => { f with reader := none, writer := none }
  | some b =>
    { f with
      data := bufBytes b
      info := f.info.map fun d => { d with size := (b.length : Int), modTime := now }
      reader := none
      writer := none }

/-- `Pkger.MkdirAll`, pkging/mem/mem.go:126-162.  The recursion of :134 carries fuel; running out of it
stands for a recursion that does not end.  The assignment at :140 has no effect.  `f.Close()` at :156
is applied to the fresh object. -/
def mkdirAllF (E : Env) : Nat → World → Str → Nat → World × Res Unit
  | 0, w, _, _ => (w, .panic)
  | fuel + 1, w, p, perm =>
    match parse E w p with
    | .error e => (w, .err e)
    | .ok pt =>
      let dir := (GoPath.split pt.name).1
      let name := (GoPath.split pt.name).2
      let (w1, r) := if dir ≠ GoPath.rootS then mkdirAllF E fuel w dir perm else (w, .ok ())
      match r with
      | .err e => (w1, .err e)
      | .panic => (w1, .panic)
      | .ok _ =>
        let f : FileObj :=
          { here := w1.here, pkging := true, path := pt,
            info := some { isDir := true, name := name, mode := perm, modTime := w1.now, size := 0 },
            data := none, parent := Path.zero, writer := none, reader := none }
        let (w2, id) := alloc w1 (closeObj w1.now f)
        (store w2 pt id, .ok ())

/-- `Pkger.MkdirAll` with enough fuel for every ordinary path (see `mkdirAll_spec`). -/
def mkdirAll (E : Env) (w : World) (p : Str) (perm : Nat) : World × Res Unit :=
  mkdirAllF E (p.length + 2) w p perm

/-- `File.Stat`, pkging/mem/file.go:99-104; the result names the file whose `FileInfo` is returned. -/
def fileStat (w : World) (id : Nat) : Res Nat :=
  match (w.heap id).info with
  | none => .err .notExist
  | some _ => .ok id

/-- `Pkger.Stat`, pkging/mem/mem.go:195-205.  The result is the *live* `FileInfo` of the stored file. -/
def stat (E : Env) (w : World) (name : Str) : Res Nat :=
  match parse E w name with
  | .error e => .err e
  | .ok pt =>
    match AMap.get w.files pt with
    | some id => fileStat w id
    | none => .err .couldNotStat

/-- The file object made by `Create`, pkging/mem/mem.go:107-118. -/
def createdObj (her : Info) (pt : Path) (name : Str) (now : Int) : FileObj :=
  { here := her, path := pt,
    info := some { name := GoPath.base name, size := 0, mode := 0o644, modTime := now, isDir := false },
    pkging := true, data := none, parent := Path.zero, writer := none, reader := none }

/-- `Pkger.Create`, pkging/mem/mem.go:88-123.  The error of the `MkdirAll("/", 0755)` at :89 is
ignored. -/
def create (E : Env) (w : World) (name : Str) : World × Res Nat :=
  let (w0, r0) := mkdirAll E w GoPath.rootS 0o755
  match r0 with
  | .panic => (w0, .panic)
  | _ =>
    match parse E w0 name with
    | .error e => (w0, .err e)
    | .ok pt =>
      match info w0 pt.pkg with
      | .err e => (w0, .err e)
      | .panic => (w0, .panic)
      | .ok her =>
        let dir := GoPath.dir pt.name
        let checked : Res Unit :=
          if dir ≠ GoPath.rootS then
            match stat E w0 dir with
            | .ok _ => .ok ()
            | .err e => .err e
            | .panic => .panic
          else .ok ()
        match checked with
        | .err e => (w0, .err e)
        | .panic => (w0, .panic)
        | .ok _ =>
          let (w1, id) := alloc w0 (createdObj her pt name w0.now)
          (store w1 pt id, .ok id)

/-- The file object made by `Open`, pkging/mem/mem.go:183-189, from the stored one and its details. -/
def openedObj (f : FileObj) (d : Details) : FileObj :=
  { pkging := true, info := some (newFileInfo d), path := f.path, data := f.data, here := f.here,
    parent := Path.zero, writer := none, reader := none }

/-- `Pkger.Open`, pkging/mem/mem.go:165-192.  Every stored `pkging.File` is a `*mem.File`, so the type
assertion at :179 succeeds; a nil `info` makes `NewFileInfo` at :185 panic. -/
def openFile (E : Env) (w : World) (name : Str) : World × Res Nat :=
  match parse E w name with
  | .error e => (w, .err (.pathError e))
  | .ok pt =>
    match AMap.get w.files pt with
    | none => (w, .err .notExist)
    | some i =>
      let f := w.heap i
      match f.info with
      | none => (w, .panic)
      | some d =>
        let (w1, id) := alloc w (openedObj f d)
        (w1, .ok id)

/-- `Files.Keys`, internal/maps/files.go:110-120. -/
def keys (files : AMap Path Nat) : List Path := sortBy Path.str (AMap.keys files)

/-- The loop of `Pkger.Walk`, pkging/mem/mem.go:216-251.  The callback may change anything (`W`),
including the Pkger itself, which `get` extracts. -/
def walkLoop {W : Type} (get : W → World) (cb : Str → Details → W → W × Option Err) (root : Path) :
    List Path → Str → W → W × Res Unit
  | [], _, s => (s, .ok ())
  | k :: ks, skip, s =>
    if k.pkg ≠ root.pkg then walkLoop get cb root ks skip s
    else if Str.hasPrefix k.name root.name = false then walkLoop get cb root ks skip s
    else if Str.hasPrefix k.name skip = true then walkLoop get cb root ks skip s
    else
      match AMap.get (get s).files k with
      | none => (s, .err .notExist)
      | some id =>
        match ((get s).heap id).info with
        | none => (s, .err .notExist)
        | some d =>
          match cb k.str (newFileInfo d) s with
          | (s', none) => walkLoop get cb root ks skip s'
          | (s', some .skipDir) => walkLoop get cb root ks k.name s'
          | (s', some e) => (s', .err e)

/-- The initial value `"!"` of `skip`, pkging/mem/mem.go:216. -/
def skipInit : Str := b! "!"

/-- `Pkger.Walk`, pkging/mem/mem.go:208-252. -/
def walk {W : Type} (E : Env) (get : W → World) (cb : Str → Details → W → W × Option Err) (s : W)
    (p : Str) : W × Res Unit :=
  let ks := keys (get s).files
  match parse E (get s) p with
  | .error e => (s, .err e)
  | .ok pt => walkLoop get cb pt ks skipInit s

/-! ### File handles -/

/-- `bytes.Reader.Read` with a buffer of `n` bytes. -/
def readerRead (s : Str) (i : Int) (n : Nat) : Int × Str × Option Err :=
  if i ≥ (s.length : Int) then (i, [], some .eof)
  else
    let out := (s.drop i.toNat).take n
    (i + out.length, out, none)

/-- `bytes.Reader.Seek`.  Positions are unbounded integers: overflow of `int64` is not modelled. -/
def readerSeek (s : Str) (i : Int) (off : Int) (whence : Int) : Int × Int × Option Err :=
  let target : Option Int :=
    if whence = 0 then some off
    else if whence = 1 then some (i + off)
    else if whence = 2 then some ((s.length : Int) + off)
    else none
  match target with
  | none => (i, 0, some .badWhence)
  | some a => if a < 0 then (i, 0, some .negativePosition) else (a, a, none)

/-- The lazy creation of the reader, pkging/mem/file.go:34-36 and :73-75. -/
def ensureReader (f : FileObj) : FileObj :=
  match f.reader with
  | some _ => f
  | none => if f.bytes.length > 0 then { f with reader := some (f.bytes, 0) } else f

/-- Replace a file object. -/
def setObj (w : World) (id : Nat) (f : FileObj) : World := { w with heap := upd w.heap id f }

/-- `File.Read` with a buffer of `n` bytes, pkging/mem/file.go:72-82: the bytes delivered and the
error. -/
def readObj (f : FileObj) (n : Nat) : FileObj × Str × Option Err :=
  let f := ensureReader f
  match f.reader with
  | some (s, i) =>
    let (i', out, e) := readerRead s i n
    ({ f with reader := some (s, i') }, out, e)
  | none => (f, [], some .unableToRead)

def read (w : World) (id : Nat) (n : Nat) : World × Str × Option Err :=
  let (f, out, e) := readObj (w.heap id) n
  (setObj w id f, out, e)

/-- `File.Seek`, pkging/mem/file.go:33-42: the returned offset and the error. -/
def seekObj (f : FileObj) (off whence : Int) : FileObj × Int × Option Err :=
  let f := ensureReader f
  match f.reader with
  | some (s, i) =>
    let (i', r, e) := readerSeek s i off whence
    ({ f with reader := some (s, i') }, r, e)
  | none => (f, 0, none)

def seek (w : World) (id : Nat) (off whence : Int) : World × Int × Option Err :=
  let (f, r, e) := seekObj (w.heap id) off whence
  (setObj w id f, r, e)

/-- `File.Write`, pkging/mem/file.go:85-91; a `bytes.Buffer` accepts everything. -/
def writeObj (f : FileObj) (b : Str) : FileObj :=
  { f with writer := some (f.writer.getD [] ++ b) }

def write (w : World) (id : Nat) (b : Str) : World × Nat :=
  (setObj w id (writeObj (w.heap id) b), b.length)

/-- `File.Close`, pkging/mem/file.go:45-69.  With a pending writer and a nil `info` the assignment at
:65 dereferences nil. -/
def close (w : World) (id : Nat) : World × Res Unit :=
  let f := w.heap id
  match f.writer, f.info with
  | some _, none => (setObj w id (closeObj w.now f), .panic)
  | _, _ => (setObj w id (closeObj w.now f), .ok ())

/-- The callback of `File.Readdir`, pkging/mem/file.go:128-155; its state is the slice `infos`. -/
def readdirCb (E : Env) (here : Info) (root : Str) (parent : Path) (count : Int)
    (path : Str) (d : Details) (infos : List Details) : List Details × Option Err :=
  if count > 0 ∧ (infos.length : Int) = count then (infos, some .eof)
  else if root = path then (infos, none)
  else
    match E.parse here path with
    | .error e => (infos, some e)
    | .ok pt =>
      if pt.name = parent.name then (infos, none)
      else
        (infos ++ [d], if d.isDir ∧ path ≠ root then some .skipDir else none)

/-- `File.Readdir`, pkging/mem/file.go:125-167.  A handle with a nil `pkging` panics. -/
def readdir (E : Env) (w : World) (id : Nat) (count : Int) : Res (List Details) :=
  let f := w.heap id
  if f.pkging = false then .panic
  else
    let root := f.path.str
    let (infos, r) := walk E (fun _ => w) (readdirCb E w.here root f.parent count) [] root
    match r with
    | .ok _ => .ok infos
    | .panic => .panic
    | .err e => if e.isPathError then .ok infos else if e ≠ .eof then .err e else .ok infos

/-- `File.Open`, pkging/mem/file.go:170-203. -/
def fileOpen (E : Env) (w : World) (id : Nat) (name : Str) : World × Res Nat :=
  let f := w.heap id
  match E.parse f.here name with
  | .error e => (w, .err e)
  | .ok pt0 =>
    if pt0 = f.path then (w, .ok id)
    else if f.pkging = false then (w, .panic)
    else
      let pt : Path := ⟨pt0.pkg, GoPath.join2 f.path.name pt0.name⟩
      match openFile E w pt.str with
      | (w1, .err e) => (w1, .err e)
      | (w1, .panic) => (w1, .panic)
      | (w1, .ok di) =>
        match (w1.heap di).info with
        | none => (w1, .err .notExist)
        | some d =>
          if d.isDir then
            let (w2, d2) := alloc w1
              { info := some (newFileInfo d), here := (w1.heap di).here, path := pt, parent := f.path,
                pkging := f.pkging, data := none, writer := none, reader := none }
            (w2, .ok d2)
          else (w1, .ok di)

end Mem
end Verif
