import Verif.Model.Client

/-!
The in-memory Pkger in single memory accesses: pkging/mem/mem.go and pkging/mem/file.go once more, for goroutines
that are interrupted inside a call.

A method is a tree of accesses (`Code`).  An access loads, stores or deletes one key of a `sync.Map`, allocates a file
object, looks at a file object, or writes one field of it.  `sync.Map` is taken as documented: `Load`, `Store` and
`Delete` are atomic; `Range` visits no key twice, may visit any key that was in the map at some moment since it began,
and visits at least the keys that were in the map all the time.  Looking at a file object is one access where the code
reads several fields in one expression or by a value receiver; where the code reads an object in two statements it is
two accesses.

The field `Here` of the Pkger is set by `New` and `UnmarshalJSON` only, and read without an access.
-/

namespace Verif
namespace Fine

open Mem

/-- One access to shared memory. -/
inductive Acc : Type → Type 1 where
  /-- `files.Load(k)`, internal/maps/files.go:80-87. -/
  | load (k : Path) : Acc (Option Nat)
  /-- `files.Store(k, f)`, internal/maps/files.go:105-107. -/
  | store (k : Path) (id : Nat) : Acc Unit
  /-- `files.Delete(k)`, internal/maps/files.go:72-74. -/
  | delete (k : Path) : Acc Unit
  /-- `infos.Load(p)`, internal/maps/infos.go:64-72. -/
  | loadInfo (p : Str) : Acc (Option Info)
  /-- `&File{…}`. -/
  | alloc (f : FileObj) : Acc Nat
  /-- Reading fields of a file object and of its `FileInfo`. -/
  | get (id : Nat) : Acc FileObj
  /-- `f.reader = r`, or a method of the reader moving its position. -/
  | setReader (id : Nat) (r : Option (Str × Int)) : Acc Unit
  /-- `f.writer = w`, or a method of the buffer extending it. -/
  | setWriter (id : Nat) (b : Option Str) : Acc Unit
  /-- `f.data = b`. -/
  | setData (id : Nat) (b : Str) : Acc Unit
  /-- `fi.Details.Size = n`. -/
  | setSize (id : Nat) (n : Int) : Acc Unit
  /-- `fi.Details.ModTime = t`. -/
  | setModTime (id : Nat) (t : Int) : Acc Unit
  /-- `time.Now()`. -/
  | now : Acc Int

/-- A `Range` under way: the keys visited, the keys there were at the beginning, and how much had been stored and deleted
by then. -/
structure RangeSt where
  seen : List Path
  start : List Path
  came : Nat
  gone : Nat

/-- What a goroutine has still to do. -/
inductive Code : Type → Type 1 where
  | ret {α : Type} (a : α) : Code α
  | acc {α β : Type} (a : Acc β) (k : β → Code α) : Code α
  /-- `sync.Map.Range` with a function that does `body` and returns true; afterwards `k` is told the keys visited. -/
  | range {α : Type} (st : Option RangeSt) (body : Path → Code Unit) (k : List Path → Code α) : Code α

namespace Code

/-- One thing after the other. -/
def bind {α β : Type} : Code α → (α → Code β) → Code β
  | ret a, f => f a
  | acc a k, f => acc a fun r => (k r).bind f
  | range st body k, f => range st body fun l => (k l).bind f

instance : Monad Code where
  pure := ret
  bind := bind

/-- A single access. -/
def one {β : Type} (a : Acc β) : Code β := acc a ret

end Code

open Code

/-! ### The methods -/

/-- `Files.Keys`, internal/maps/files.go:110-120. -/
def keysC : Code (List Path) := range none (fun _ => ret ()) fun l => ret (sortBy Path.str l)

/-- `Pkger.Info`, pkging/mem/mem.go:41-48. -/
def infoC (p : Str) : Code (Res Info) :=
  acc (.loadInfo p) fun
    | some i => ret (.ok i)
    | none => ret (.err (.noSuchPackage p))

/-- `Pkger.Open`, pkging/mem/mem.go:165-192.  `f.info` (:185) is read before `f.path`, `f.data` and `f.Here` (:186-188). -/
def openC (E : Env) (here : Info) (name : Str) : Code (Res Nat) :=
  match E.parse here name with
  | .error e => ret (.err (.pathError e))
  | .ok pt =>
    acc (.load pt) fun
      | none => ret (.err .notExist)
      | some i =>
        acc (.get i) fun f =>
          match f.info with
          | none => ret .panic
          | some d =>
            acc (.get i) fun f' =>
              acc (.alloc (openedObj f' d)) fun id => ret (.ok id)

/-- `File.Name`, pkging/mem/file.go:107-109: the method has the whole object as its receiver. -/
def fileNameC (id : Nat) : Code Str := acc (.get id) fun f => ret f.path.str

/-- `File.Stat` and looking at the result, pkging/mem/file.go:99-104. -/
def fileStatC (id : Nat) : Code (Res Details) :=
  acc (.get id) fun f =>
    match f.info with
    | none => ret (.err .notExist)
    | some _ => acc (.get id) fun f' =>
      match f'.info with
      | none => ret (.err .notExist)
      | some d => ret (.ok d)

/-- `Pkger.Stat` and looking at the result, pkging/mem/mem.go:195-205. -/
def statC (E : Env) (here : Info) (name : Str) : Code (Res Details) :=
  match E.parse here name with
  | .error e => ret (.err e)
  | .ok pt =>
    acc (.load pt) fun
      | some id => fileStatC id
      | none => ret (.err .couldNotStat)

/-- The loop of `Pkger.Walk`, pkging/mem/mem.go:216-251, with a callback that only changes its own variables `S`. -/
def walkLoopC {S : Type} (cb : Str → Details → S → S × Option Err) (root : Path) :
    List Path → Str → S → Code (S × Res Unit)
  | [], _, s => ret (s, .ok ())
  | k :: ks, skip, s =>
    if k.pkg ≠ root.pkg then walkLoopC cb root ks skip s
    else if Str.hasPrefix k.name root.name = false then walkLoopC cb root ks skip s
    else if Str.hasPrefix k.name skip = true then walkLoopC cb root ks skip s
    else
      acc (.load k) fun
        | none => ret (s, .err .notExist)
        | some id =>
          (fileStatC id).bind fun
            | .err e => ret (s, .err e)
            | .panic => ret (s, .panic)
            | .ok d =>
              match cb k.str (newFileInfo d) s with
              | (s', none) => walkLoopC cb root ks skip s'
              | (s', some .skipDir) => walkLoopC cb root ks k.name s'
              | (s', some e) => ret (s', .err e)

/-- `Pkger.Walk`, pkging/mem/mem.go:208-252. -/
def walkC {S : Type} (E : Env) (here : Info) (cb : Str → Details → S → S × Option Err) (s : S) (p : Str) :
    Code (S × Res Unit) :=
  keysC.bind fun ks =>
    match E.parse here p with
    | .error e => ret (s, .err e)
    | .ok pt => walkLoopC cb pt ks skipInit s

/-- `File.Readdir`, pkging/mem/file.go:125-167. -/
def readdirC (E : Env) (here : Info) (id : Nat) (count : Int) : Code (Res (List Details)) :=
  acc (.get id) fun f =>
    if f.pkging = false then ret .panic
    else
      (walkC E here (readdirCb E here f.path.str f.parent count) [] f.path.str).bind fun (infos, r) =>
        match r with
        | .ok _ => ret (.ok infos)
        | .panic => ret .panic
        | .err e => if e.isPathError then ret (.ok infos) else if e ≠ .eof then ret (.err e) else ret (.ok infos)

/-- The lazy creation of the reader, pkging/mem/file.go:34-36 and :73-75, and then `k` on the file object. -/
def ensureReaderC {α : Type} (id : Nat) (k : FileObj → Code α) : Code α :=
  acc (.get id) fun f =>
    if f.reader = none ∧ f.bytes.length > 0 then
      acc (.setReader id (some (f.bytes, 0))) fun _ => acc (.get id) k
    else acc (.get id) k

/-- `File.Read` with a buffer of `n` bytes, pkging/mem/file.go:72-82. -/
def readC (id n : Nat) : Code (Str × Option Err) :=
  ensureReaderC id fun f =>
    match f.reader with
    | some (s, i) =>
      acc (.setReader id (some (s, (readerRead s i n).1))) fun _ => ret ((readerRead s i n).2.1, (readerRead s i n).2.2)
    | none => ret ([], some .unableToRead)

/-- `File.Seek`, pkging/mem/file.go:33-42. -/
def seekC (id : Nat) (off whence : Int) : Code (Int × Option Err) :=
  ensureReaderC id fun f =>
    match f.reader with
    | some (s, i) =>
      acc (.setReader id (some (s, (readerSeek s i off whence).1))) fun _ =>
        ret ((readerSeek s i off whence).2.1, (readerSeek s i off whence).2.2)
    | none => ret (0, none)

/-- `File.Write`, pkging/mem/file.go:85-91. -/
def writeC (id : Nat) (b : Str) : Code Nat :=
  acc (.get id) fun f =>
    acc (.setWriter id (some (f.writer.getD [] ++ b))) fun _ => ret b.length

/-- The deferred function of `File.Close`, pkging/mem/file.go:46-49. -/
def closedC {α : Type} (id : Nat) (a : α) : Code α :=
  acc (.setReader id none) fun _ => acc (.setWriter id none) fun _ => ret a

/-- `File.Close`, pkging/mem/file.go:45-69.  The bytes are put in place first (:62), then the size (:65) and the time
(:66); with a nil `info` the assignment at :65 panics and the deferred function runs. -/
def closeC (id : Nat) : Code (Res Unit) :=
  acc (.get id) fun f =>
    match f.writer with
    | none => closedC id (.ok ())
    | some b =>
      acc (.setData id b) fun _ =>
        acc (.get id) fun f' =>
          match f'.info with
          | none => closedC id .panic
          | some _ =>
            acc (.setSize id b.length) fun _ =>
              acc .now fun t =>
                acc (.setModTime id t) fun _ => closedC id (.ok ())

/-- `File.Open`, pkging/mem/file.go:170-203. -/
def fileOpenC (E : Env) (here : Info) (id : Nat) (name : Str) : Code (Res Nat) :=
  acc (.get id) fun f =>
    match E.parse f.here name with
    | .error e => ret (.err e)
    | .ok pt0 =>
      if pt0 = f.path then ret (.ok id)
      else if f.pkging = false then ret .panic
      else
        (openC E here (Path.str ⟨pt0.pkg, GoPath.join2 f.path.name pt0.name⟩)).bind fun
          | .err e => ret (.err e)
          | .panic => ret .panic
          | .ok di =>
            (fileStatC di).bind fun
              | .err e => ret (.err e)
              | .panic => ret .panic
              | .ok d =>
                if d.isDir then
                  acc (.get di) fun fd =>
                    acc (.alloc { info := some (newFileInfo d), here := fd.here,
                                  path := ⟨pt0.pkg, GoPath.join2 f.path.name pt0.name⟩, parent := f.path,
                                  pkging := f.pkging, data := none, writer := none, reader := none }) fun d2 =>
                      ret (.ok d2)
                else ret (.ok di)

/-- The directory entry made by `MkdirAll`, pkging/mem/mem.go:143-155, closed (:156). -/
def dirObj (here : Info) (pt : Path) (perm : Nat) (now : Int) : FileObj :=
  closeObj now
    { here := here, pkging := true, path := pt,
      info := some { isDir := true, name := (GoPath.split pt.name).2, mode := perm, modTime := now, size := 0 },
      data := none, parent := Path.zero, writer := none, reader := none }

/-- `Pkger.MkdirAll`, pkging/mem/mem.go:126-162, with fuel for the recursion of :134 as in `Mem.mkdirAllF`.  Nobody else
knows the new object before it is stored, so making and closing it is one access. -/
def mkdirAllFC (E : Env) (here : Info) : Nat → Str → Nat → Code (Res Unit)
  | 0, _, _ => ret .panic
  | fuel + 1, p, perm =>
    match E.parse here p with
    | .error e => ret (.err e)
    | .ok pt =>
      (if (GoPath.split pt.name).1 ≠ GoPath.rootS then mkdirAllFC E here fuel (GoPath.split pt.name).1 perm
        else ret (.ok ())).bind fun
        | .err e => ret (.err e)
        | .panic => ret .panic
        | .ok _ =>
          acc .now fun t =>
            acc (.alloc (dirObj here pt perm t)) fun id =>
              acc (.store pt id) fun _ => ret (.ok ())

/-- `Pkger.MkdirAll`, pkging/mem/mem.go:126-162. -/
def mkdirAllC (E : Env) (here : Info) (p : Str) (perm : Nat) : Code (Res Unit) := mkdirAllFC E here (p.length + 2) p perm

/-- `Pkger.Create`, pkging/mem/mem.go:88-123. -/
def createC (E : Env) (here : Info) (name : Str) : Code (Res Nat) :=
  (mkdirAllC E here GoPath.rootS 0o755).bind fun
    | .panic => ret .panic
    | _ =>
      match E.parse here name with
      | .error e => ret (.err e)
      | .ok pt =>
        (infoC pt.pkg).bind fun
          | .err e => ret (.err e)
          | .panic => ret .panic
          | .ok her =>
            (if GoPath.dir pt.name ≠ GoPath.rootS then statC E here (GoPath.dir pt.name)
              else ret (.ok ⟨[], 0, 0, 0, true⟩)).bind fun
              | .err e => ret (.err e)
              | .panic => ret .panic
              | .ok _ =>
                acc .now fun t =>
                  acc (.alloc (createdObj her pt name t)) fun id =>
                    acc (.store pt id) fun _ => ret (.ok id)

/-- `Pkger.Remove`, pkging/mem/mem.go:56-68. -/
def removeC (E : Env) (here : Info) (name : Str) : Code (Res Unit) :=
  match E.parse here name with
  | .error e => ret (.err e)
  | .ok pt =>
    acc (.load pt) fun
      | none => ret (.err (.pathError .noSuchFile))
      | some _ => acc (.delete pt) fun _ => ret (.ok ())

/-- `Pkger.RemoveAll`, pkging/mem/mem.go:71-85. -/
def removeAllC (E : Env) (here : Info) (name : Str) : Code (Res Unit) :=
  match E.parse here name with
  | .error e => ret (.err e)
  | .ok pt =>
    range none (fun k => if Str.hasPrefix k.name pt.name then one (.delete k) else ret ()) fun _ => ret (.ok ())

/-! ### Goroutines -/

/-- The Pkger, all entries there have ever been and all keys deleted, in order, and which goroutine made a file object
(`none`: it was there from the beginning).  The last three only serve to describe what may happen. -/
structure Glob where
  w : World
  came : List (Path × Nat)
  gone : List Path
  owner : Nat → Option Nat

/-- Change the details of a file object. -/
def setDetails (w : World) (id : Nat) (f : Details → Details) : World :=
  setObj w id { w.heap id with info := (w.heap id).info.map f }

/-- Goroutine `t` makes an access. -/
def Acc.run (t : Nat) : {β : Type} → Acc β → Glob → Glob × β
  | _, .load k, g => (g, AMap.get g.w.files k)
  | _, .store k id, g => ({ g with w := Mem.store g.w k id, came := g.came ++ [(k, id)] }, ())
  | _, .delete k, g => ({ g with w := { g.w with files := AMap.erase g.w.files k }, gone := g.gone ++ [k] }, ())
  | _, .loadInfo p, g => (g, AMap.get g.w.infos p)
  | _, .alloc f, g => ({ g with w := (Mem.alloc g.w f).1, owner := upd g.owner g.w.next (some t) }, g.w.next)
  | _, .get id, g => (g, g.w.heap id)
  | _, .setReader id r, g => ({ g with w := setObj g.w id { g.w.heap id with reader := r } }, ())
  | _, .setWriter id b, g => ({ g with w := setObj g.w id { g.w.heap id with writer := b } }, ())
  | _, .setData id b, g => ({ g with w := setObj g.w id { g.w.heap id with data := bufBytes b } }, ())
  | _, .setSize id n, g => ({ g with w := setDetails g.w id fun d => { d with size := n } }, ())
  | _, .setModTime id m, g => ({ g with w := setDetails g.w id fun d => { d with modTime := m } }, ())
  | _, .now, g => (g, g.w.now)

/-- `Range` may visit `p` now: it was in the map at the beginning or has been stored since, and has not been visited. -/
def RangeSt.MayVisit (st : RangeSt) (g : Glob) (p : Path) : Prop :=
  (p ∈ st.start ∨ p ∈ (g.came.drop st.came).map (·.1)) ∧ p ∉ st.seen

instance (st : RangeSt) (g : Glob) (p : Path) : Decidable (st.MayVisit g p) := inferInstanceAs (Decidable (_ ∧ _))

/-- `Range` may end now: every key that was in the map at the beginning has been visited or deleted since. -/
def RangeSt.MayEnd (st : RangeSt) (g : Glob) : Prop := ∀ p ∈ st.start, p ∈ st.seen ∨ p ∈ g.gone.drop st.gone

instance (st : RangeSt) (g : Glob) : Decidable (st.MayEnd g) := inferInstanceAs (Decidable (∀ p ∈ st.start, _))

/-- The beginning of a `Range`. -/
def RangeSt.begin (g : Glob) : RangeSt := ⟨[], AMap.keys g.w.files, g.came.length, g.gone.length⟩

/-- Goroutine `t` takes its next step.  During a `Range`, `pick` says which key is visited next, or that it ends; if it
may not, nothing happens. -/
def Code.step {α : Type} (t : Nat) (pick : Option Path) : Code α → Glob → Glob × Code α
  | .ret a, g => (g, .ret a)
  | .acc a k, g => ((a.run t g).1, k (a.run t g).2)
  | .range none body k, g => (g, .range (some (RangeSt.begin g)) body k)
  | .range (some st) body k, g =>
    match pick with
    | some p =>
      if st.MayVisit g p then (g, (body p).bind fun _ => .range (some { st with seen := st.seen ++ [p] }) body k)
      else (g, .range (some st) body k)
    | none => if st.MayEnd g then (g, k st.seen) else (g, .range (some st) body k)

/-- What happens next. -/
inductive Event where
  /-- Goroutine `t` takes a step. -/
  | go (t : Nat) (pick : Option Path)
  /-- The clock is `now`. -/
  | tick (now : Int)

/-- The Pkger and what each goroutine has still to do. -/
structure Sys (α : Type) where
  g : Glob
  code : Nat → Code α

/-- Something happens. -/
def Sys.step {α : Type} (s : Sys α) : Event → Sys α
  | .go t pick =>
    { g := ((s.code t).step t pick s.g).1,
      code := fun u => if u = t then ((s.code t).step t pick s.g).2 else s.code u }
  | .tick now => { s with g := { s.g with w := { s.g.w with now := now } } }

/-- Any sequence of events. -/
def Sys.run {α : Type} (s : Sys α) (es : List Event) : Sys α := es.foldl Sys.step s

/-! ### Calls and programs -/

/-- A call. -/
inductive Call where
  /-- A call that reads. -/
  | reads (c : Client.Call)
  /-- `Pkger.Create`, pkging/mem/mem.go:88-123. -/
  | create (name : Str)
  /-- `File.Write`, pkging/mem/file.go:85-91. -/
  | write (k : Nat) (b : Str)
  /-- `Pkger.MkdirAll`, pkging/mem/mem.go:126-162. -/
  | mkdirAll (p : Str) (perm : Nat)
  /-- `Pkger.Remove`, pkging/mem/mem.go:56-68. -/
  | remove (name : Str)
  /-- `Pkger.RemoveAll`, pkging/mem/mem.go:71-85. -/
  | removeAll (name : Str)

/-- What a call returns. -/
inductive Ans where
  | reads (a : Client.Ans)
  | wrote (n : Nat)
  | did (r : Res Unit)
deriving DecidableEq, Repr

/-- Put a handle just obtained at the end of the list. -/
def obtainedC (hs : List Nat) (c : Code (Res Nat)) : Code (List Nat × Client.Ans) :=
  c.bind fun
    | .ok id => ret (hs ++ [id], .opened (.ok hs.length))
    | .err e => ret (hs, .opened (.err e))
    | .panic => ret (hs, .opened .panic)

/-- A call that works on handle `k`. -/
def withHandleC (hs : List Nat) (k : Nat) (f : Nat → Code (List Nat × Client.Ans)) : Code (List Nat × Client.Ans) :=
  match hs[k]? with
  | none => ret (hs, .noHandle)
  | some id => f id

/-- The accesses of a call that reads. -/
def readsC (E : Env) (here : Info) (hs : List Nat) : Client.Call → Code (List Nat × Client.Ans)
  | .openFile name => obtainedC hs (openC E here name)
  | .openIn k name => withHandleC hs k fun id => obtainedC hs (fileOpenC E here id name)
  | .stat name => (statC E here name).bind fun r => ret (hs, .details r)
  | .fileStat k => withHandleC hs k fun id => (fileStatC id).bind fun r => ret (hs, .details r)
  | .readdir k count => withHandleC hs k fun id => (readdirC E here id count).bind fun r => ret (hs, .entries r)
  | .read k n => withHandleC hs k fun id => (readC id n).bind fun r => ret (hs, .bytes r.1 r.2)
  | .seek k off whence => withHandleC hs k fun id => (seekC id off whence).bind fun r => ret (hs, .pos r.1 r.2)
  | .close k => withHandleC hs k fun id => (closeC id).bind fun r => ret (hs, .closed r)
  | .walk p => (walkC E here Client.note [] p).bind fun r => ret (hs, .walked r.1 r.2)
  | .fileName k => withHandleC hs k fun id => (fileNameC id).bind fun r => ret (hs, .name r)

/-- The accesses of a call. -/
def callC (E : Env) (here : Info) (hs : List Nat) : Call → Code (List Nat × Ans)
  | .reads c => (readsC E here hs c).bind fun r => ret (r.1, .reads r.2)
  | .create name => (obtainedC hs (createC E here name)).bind fun r => ret (r.1, .reads r.2)
  | .write k b =>
    match hs[k]? with
    | none => ret (hs, .reads .noHandle)
    | some id => (writeC id b).bind fun n => ret (hs, .wrote n)
  | .mkdirAll p perm => (mkdirAllC E here p perm).bind fun r => ret (hs, .did r)
  | .remove name => (removeC E here name).bind fun r => ret (hs, .did r)
  | .removeAll name => (removeAllC E here name).bind fun r => ret (hs, .did r)

/-- A program with result of type `α`: the next call and what to do with its answer. -/
inductive Prog (α : Type) where
  | ret (a : α)
  | step (c : Call) (k : Ans → Prog α)

/-- The accesses of a program that holds the handles `hs`. -/
def Prog.code {α : Type} (E : Env) (here : Info) : Prog α → List Nat → Code α
  | .ret a, _ => .ret a
  | .step c k, hs => (callC E here hs c).bind fun r => (k r.2).code E here r.1

/-- A program that only reads. -/
def ofReads {α : Type} : Client.Prog α → Prog α
  | .ret a => .ret a
  | .step c k => .step (.reads c) fun
    | .reads a => ofReads (k a)
    | _ => ofReads (k .noHandle)

/-- The beginning: goroutine `t` has the handles `(ps t).1` and the program `(ps t).2`. -/
def start {α : Type} (E : Env) (w : World) (ps : Nat → List Nat × Prog α) : Sys α :=
  { g := ⟨w, w.files, [], fun _ => none⟩, code := fun t => (ps t).2.code E w.here (ps t).1 }

end Fine
end Verif
