import Verif.Model.History

/-!
Every operation of the in-memory Pkger is a sequence of three primitive world changes (bind a fresh
object to a path, allocate an unbound object, drop paths) or a change of one object by a handle
operation.  Invariants are proved on the primitives.
-/

namespace Verif
namespace Mem

@[simp] theorem upd_self {α : Type} (f : Nat → α) (i : Nat) (a : α) : upd f i a i = a := by simp [upd]

theorem upd_ne {α : Type} (f : Nat → α) {i j : Nat} (a : α) (h : j ≠ i) : upd f i a j = f j := by
  simp [upd, h]

/-- Internal consistency of one file object: size and content agree, a reader reads the content. -/
structure ObjOk (f : FileObj) : Prop where
  size : ∀ d, f.info = some d → d.isDir = false → d.size = (f.bytes.length : Int)
  reader : ∀ s i, f.reader = some (s, i) → s = f.bytes ∧ s ≠ [] ∧ 0 ≤ i

/-- A freshly made file object: it has details, no reader and no writer, and is consistent. -/
structure Fresh (f : FileObj) : Prop where
  ok : ObjOk f
  info : ∃ d, f.info = some d
  reader : f.reader = none
  writer : f.writer = none
  pkging : f.pkging = true

/-- Primitive changes of the world. -/
inductive Prim : World → World → Prop where
  | bind (w : World) (f : FileObj) (hf : Fresh f) :
      Prim w (store (alloc w f).1 f.path (alloc w f).2)
  | alloc (w : World) (f : FileObj) (hf : Fresh f) : Prim w (alloc w f).1
  | drop (w : World) (p : Path → Bool) : Prim w { w with files := w.files.filter fun e => p e.1 }

/-- Sequences of primitive changes. -/
inductive Prims : World → World → Prop where
  | refl (w : World) : Prims w w
  | tail {a b c : World} : Prims a b → Prim b c → Prims a c

namespace Prims

theorem single {a b : World} (h : Prim a b) : Prims a b := .tail (.refl a) h

theorem trans {a b c : World} (h1 : Prims a b) (h2 : Prims b c) : Prims a c := by
  induction h2 with
  | refl => exact h1
  | tail _ hp ih => exact .tail ih hp

/-- A property of worlds kept by the primitives is kept by sequences of them. -/
theorem induct {P : World → Prop} (hp : ∀ a b, Prim a b → P a → P b) {a b : World} (h : Prims a b)
    (ha : P a) : P b := by
  induction h with
  | refl => exact ha
  | tail _ hpr ih => exact hp _ _ hpr ih

end Prims

theorem fresh_dir (her : Info) (pt : Path) (name : Str) (perm : Nat) (now : Int) :
    Fresh { here := her, pkging := true, path := pt,
            info := some { isDir := true, name := name, mode := perm, modTime := now, size := 0 },
            data := none, parent := Path.zero, writer := none, reader := none } where
  ok := ⟨by intro d hd h; simp at hd; subst hd; simp at h, by intro s i h; simp at h⟩
  info := ⟨_, rfl⟩
  reader := rfl
  writer := rfl
  pkging := rfl

theorem closeObj_of_noWriter {f : FileObj} {now : Int} (hw : f.writer = none) (hr : f.reader = none) :
    closeObj now f = f := by
  cases f; simp only at hw hr; subst hw hr; rfl

theorem prims_mkdirAllF (E : Env) (fuel : Nat) (w : World) (p : Str) (perm : Nat) :
    Prims w (mkdirAllF E fuel w p perm).1 := by
  induction fuel generalizing w p with
  | zero => exact .refl w
  | succ n ih =>
    unfold mkdirAllF
    cases hp : parse E w p with
    | error e => exact .refl w
    | ok pt =>
      simp only
      have hrec : Prims w (if (GoPath.split pt.name).1 ≠ GoPath.rootS then
          mkdirAllF E n w (GoPath.split pt.name).1 perm else (w, .ok ())).1 := by
        split
        · exact ih _ _
        · exact .refl w
      revert hrec
      generalize (if (GoPath.split pt.name).1 ≠ GoPath.rootS then
          mkdirAllF E n w (GoPath.split pt.name).1 perm else (w, .ok ())) = r
      intro hrec
      obtain ⟨w1, r⟩ := r
      cases r with
      | err e => exact hrec
      | panic => exact hrec
      | ok u =>
        simp only
        rw [closeObj_of_noWriter rfl rfl]
        exact .tail hrec (Prim.bind w1 _ (fresh_dir _ _ _ _ _))

theorem prims_mkdirAll (E : Env) (w : World) (p : Str) (perm : Nat) :
    Prims w (mkdirAll E w p perm).1 := prims_mkdirAllF E _ w p perm

theorem fresh_created (her : Info) (pt : Path) (name : Str) (now : Int) :
    Fresh (createdObj her pt name now) where
  ok := ⟨by intro d hd _; simp [createdObj] at hd; subst hd; simp [createdObj, FileObj.bytes],
    by intro s i h; simp [createdObj] at h⟩
  info := ⟨_, rfl⟩
  reader := rfl
  writer := rfl
  pkging := rfl

theorem prims_create (E : Env) (w : World) (name : Str) : Prims w (create E w name).1 := by
  have h0 := prims_mkdirAll E w GoPath.rootS 0o755
  unfold create
  revert h0
  generalize mkdirAll E w GoPath.rootS 0o755 = m
  obtain ⟨w0, r0⟩ := m
  intro h0
  simp only at h0 ⊢
  split
  · exact h0
  · split
    · exact h0
    · split
      · exact h0
      · exact h0
      · split
        · exact h0
        · exact h0
        · exact .tail h0 (Prim.bind w0 _ (fresh_created _ _ _ _))

theorem fresh_opened {f : FileObj} {d : Details} (hf : ObjOk f) (hd : f.info = some d) :
    Fresh (openedObj f d) where
  ok := ⟨by
      intro d' hd' hdir
      simp [openedObj, newFileInfo] at hd'
      have := hf.size d hd (by rw [← hd'] at hdir; exact hdir)
      rw [← hd']; simpa [openedObj, FileObj.bytes] using this,
    by intro s i h; simp [openedObj] at h⟩
  info := ⟨_, rfl⟩
  reader := rfl
  writer := rfl
  pkging := rfl

/-- All objects of the world are consistent. -/
def HeapOk (w : World) : Prop := ∀ id, ObjOk (w.heap id)

theorem prims_openFile (E : Env) {w : World} (hw : HeapOk w) (name : Str) :
    Prims w (openFile E w name).1 := by
  unfold openFile
  split
  · exact .refl w
  · split
    · exact .refl w
    · simp only
      split
      · exact .refl w
      · rename_i hd
        exact .single (Prim.alloc w _ (fresh_opened (hw _) hd))

theorem objOk_zero : ObjOk FileObj.zero :=
  ⟨by intro d h; simp [FileObj.zero] at h, by intro s i h; simp [FileObj.zero] at h⟩

theorem heapOk_new (i : Info) (t : Int) : HeapOk (new i t) := fun _ => objOk_zero

theorem heapOk_alloc {w : World} (hw : HeapOk w) {f : FileObj} (hf : ObjOk f) :
    HeapOk (alloc w f).1 := by
  intro id
  simp only [alloc]
  by_cases h : id = w.next
  · subst h; simpa using hf
  · rw [upd_ne _ _ h]; exact hw id

theorem heapOk_prim {a b : World} (h : Prim a b) (ha : HeapOk a) : HeapOk b := by
  cases h with
  | bind f hf => exact heapOk_alloc ha hf.ok
  | alloc f hf => exact heapOk_alloc ha hf.ok
  | drop p => exact ha

theorem heapOk_prims {a b : World} (h : Prims a b) (ha : HeapOk a) : HeapOk b :=
  Prims.induct (fun _ _ => heapOk_prim) h ha

theorem prims_fileOpen (E : Env) {w : World} (hw : HeapOk w) (id : Nat) (name : Str) :
    Prims w (fileOpen E w id name).1 := by
  unfold fileOpen
  simp only
  split
  · exact .refl w
  · split
    · exact .refl w
    · rename_i pt0 _ _
      split
      · exact .refl w
      · rename_i hpk
        have h1 := prims_openFile E hw (⟨pt0.pkg, GoPath.join2 (w.heap id).path.name pt0.name⟩ : Path).str
        revert h1
        generalize openFile E w (⟨pt0.pkg, GoPath.join2 (w.heap id).path.name pt0.name⟩ : Path).str = r
        obtain ⟨w1, r⟩ := r
        intro h1
        cases r with
        | err e => exact h1
        | panic => exact h1
        | ok di =>
          simp only at h1 ⊢
          split
          · exact h1
          · rename_i d hd
            split
            · rename_i hdir
              refine .tail h1 (Prim.alloc w1 _ ⟨⟨?_, ?_⟩, ⟨_, rfl⟩, rfl, rfl, ?_⟩)
              · intro d' hd' hdd
                simp [newFileInfo] at hd'
                rw [← hd'] at hdd
                simp [hdir] at hdd
              · intro s i h; simp at h
              · simpa using hpk
            · exact h1

/-- Host files whose reported size is their length, hereditarily. -/
inductive NodeOk : Disk.Node → Prop where
  | file (d : Details) (b : Str) : d.isDir = false → d.size = (b.length : Int) → NodeOk (.file d b)
  | dir (d : Details) (kids : List (Str × Disk.Node)) :
      d.isDir = true → (∀ e ∈ kids, NodeOk e.2) → NodeOk (.dir d kids)

theorem fresh_added {n : Disk.Node} (hn : NodeOk n) (her : Info) (pt : Path) :
    Fresh (addedObj her pt n) where
  ok := ⟨by
      intro d hd hdir
      cases hn with
      | file d' b h1 h2 =>
        simp [addedObj, newFileInfo, Disk.Node.details] at hd
        rw [← hd]; simpa [addedObj, FileObj.bytes, Disk.Node.isDir, Disk.Node.data] using h2
      | dir d' kids h1 h2 =>
        simp [addedObj, newFileInfo, Disk.Node.details] at hd
        rw [← hd] at hdir; simp [h1] at hdir,
    by intro s i h; simp [addedObj] at h⟩
  info := ⟨_, rfl⟩
  reader := rfl
  writer := rfl
  pkging := rfl

theorem prim_addNode (w : World) (her : Info) (pt : Path) {n : Disk.Node} (hn : NodeOk n) :
    Prim w (addNode w her pt n) := Prim.bind w (addedObj her pt n) (fresh_added hn her pt)

theorem prims_addWalkFn (E : Env) (path : Str) {n : Disk.Node} (hn : NodeOk n) (w : World) :
    Prims w (addWalkFn E path n w).1 := by
  unfold addWalkFn
  split
  · exact .refl w
  · split
    · exact .refl w
    · exact .single (prim_addNode _ _ _ hn)

mutual
theorem prims_walkNode (E : Env) : ∀ (path : Str) (n : Disk.Node) (w : World), NodeOk n →
    Prims w (Disk.walkNode (addWalkFn E) path n w).1
  | path, .file d b, w, hn => by
    rw [Disk.walkNode]; exact prims_addWalkFn E path hn w
  | path, .dir d kids, w, hn => by
    rw [Disk.walkNode]
    have h1 := prims_addWalkFn E path hn w
    revert h1
    generalize addWalkFn E path (.dir d kids) w = r
    intro h1
    obtain ⟨w', r⟩ := r
    cases r with
    | some e => exact h1
    | none =>
      cases hn with
      | dir _ _ _ hk => exact h1.trans (prims_walkKids E path kids w' hk)
theorem prims_walkKids (E : Env) : ∀ (path : Str) (kids : List (Str × Disk.Node)) (w : World),
    (∀ e ∈ kids, NodeOk e.2) → Prims w (Disk.walkKids (addWalkFn E) path kids w).1
  | path, [], w, _ => by rw [Disk.walkKids]; exact .refl w
  | path, (name, n) :: rest, w, hk => by
    rw [Disk.walkKids]
    have h1 := prims_walkNode E (GoPath.join2 path name) n w (hk (name, n) (by simp))
    revert h1
    generalize Disk.walkNode (addWalkFn E) (GoPath.join2 path name) n w = r
    intro h1
    obtain ⟨w', r⟩ := r
    cases r with
    | none => exact h1.trans (prims_walkKids E path rest w' (fun e he => hk e (List.mem_cons_of_mem _ he)))
    | some e =>
      simp only
      split
      · exact h1.trans (prims_walkKids E path rest w' (fun e he => hk e (List.mem_cons_of_mem _ he)))
      · exact h1
end

theorem prims_addOne (E : Env) (w : World) {f : OsFile} (hf : NodeOk f.node) :
    Prims w (addOne E w f).1 := by
  unfold addOne
  split
  · exact .refl w
  · simp only
    split
    · exact .refl w
    · split
      · have h1 := prims_walkNode E f.name f.node w hf
        unfold Disk.walk
        revert h1
        generalize Disk.walkNode (addWalkFn E) f.name f.node w = r
        intro h1
        obtain ⟨w', r⟩ := r
        cases r with
        | none => exact h1
        | some e => cases e <;> exact h1
      · exact .single (prim_addNode _ _ _ hf)

theorem prims_add (E : Env) (w : World) (fs : List OsFile) (hf : ∀ f ∈ fs, NodeOk f.node) :
    Prims w (add E w fs).1 := by
  induction fs generalizing w with
  | nil => exact .refl w
  | cons f fs ih =>
    have h1 := prims_addOne E w (hf f (by simp))
    unfold add
    revert h1
    generalize addOne E w f = r
    intro h1
    obtain ⟨w', r⟩ := r
    cases r with
    | ok u => exact h1.trans (ih w' (fun f hf' => hf f (List.mem_cons_of_mem _ hf')))
    | err e => exact h1
    | panic => exact h1

theorem prims_remove (E : Env) (w : World) (name : Str) : Prims w (remove E w name).1 := by
  unfold remove
  split
  · exact .refl w
  · split
    · exact .refl w
    · rename_i pt _ _ _ _
      exact .single (Prim.drop w fun k => !(decide (k = pt)))

theorem prims_removeAll (E : Env) (w : World) (name : Str) : Prims w (removeAll E w name).1 := by
  unfold removeAll
  split
  · exact .refl w
  · rename_i pt _
    exact .single (Prim.drop w fun k => !Str.hasPrefix k.name pt.name)

/-- Host files handed to `Add` report their true size. -/
def Op.HostOk : Op → Prop
  | .add fs => ∀ f ∈ fs, NodeOk f.node
  | _ => True

/-! ### Changes of one object by a handle operation -/

/-- What a handle operation may do to its object. -/
inductive ObjStep (now : Int) : FileObj → FileObj → Prop where
  | read (f : FileObj) (n : Nat) : ObjStep now f (readObj f n).1
  | seek (f : FileObj) (off whence : Int) : ObjStep now f (seekObj f off whence).1
  | write (f : FileObj) (b : Str) : ObjStep now f (writeObj f b)
  | close (f : FileObj) : ObjStep now f (closeObj now f)

/-- Every step of a history is a sequence of primitives, one object change, or the passage of time. -/
inductive StepShape (w : World) : World → Prop where
  | prims (w' : World) (h : Prims w w') : StepShape w w'
  | obj (id : Nat) (f : FileObj) (h : ObjStep w.now (w.heap id) f) : StepShape w (setObj w id f)
  | tick (t : Int) : StepShape w { w with now := t }

theorem stepShape (E : Env) {w : World} (hw : HeapOk w) (o : Op) (ho : o.HostOk) :
    StepShape w (step E w o) := by
  cases o with
  | create name => exact .prims _ (prims_create E w name)
  | mkdirAll p perm => exact .prims _ (prims_mkdirAll E w p perm)
  | openFile name => exact .prims _ (prims_openFile E hw name)
  | stat name => exact .prims _ (.refl w)
  | remove name => exact .prims _ (prims_remove E w name)
  | removeAll name => exact .prims _ (prims_removeAll E w name)
  | write id b => exact .obj id _ (.write _ b)
  | close id =>
    show StepShape w (close w id).1
    unfold close
    simp only
    split <;> exact .obj id _ (.close _)
  | read id n => exact .obj id _ (.read _ n)
  | seek id off whence => exact .obj id _ (.seek _ off whence)
  | readdir id c => exact .prims _ (.refl w)
  | fileOpen id name => exact .prims _ (prims_fileOpen E hw id name)
  | add fs => exact .prims _ (prims_add E w fs ho)
  | tick t => exact .tick t

theorem ensureReader_bytes (f : FileObj) : (ensureReader f).bytes = f.bytes := by
  unfold ensureReader FileObj.bytes
  split
  · rfl
  · split <;> rfl

theorem ensureReader_info (f : FileObj) : (ensureReader f).info = f.info := by
  unfold ensureReader
  split
  · rfl
  · split <;> rfl

theorem objOk_ensureReader {f : FileObj} (hf : ObjOk f) : ObjOk (ensureReader f) := by
  unfold ensureReader
  split
  · exact hf
  · split
    · rename_i hl
      refine ⟨hf.size, ?_⟩
      intro s i h
      simp only [Option.some.injEq, Prod.mk.injEq] at h
      obtain ⟨rfl, rfl⟩ := h
      refine ⟨rfl, ?_, by omega⟩
      intro e
      rw [e] at hl
      simp at hl
    · exact hf

theorem objOk_step {now : Int} {f g : FileObj} (h : ObjStep now f g) (hf : ObjOk f) : ObjOk g := by
  cases h with
  | read n =>
    have h1 := objOk_ensureReader hf
    unfold readObj
    simp only
    split
    · rename_i s i hr
      refine ⟨h1.size, ?_⟩
      intro s' i' h
      have h2 := h1.reader s i hr
      simp only [readerRead] at h
      split at h
      · simp only [Option.some.injEq, Prod.mk.injEq] at h
        obtain ⟨rfl, rfl⟩ := h
        exact h2
      · simp only [Option.some.injEq, Prod.mk.injEq] at h
        obtain ⟨rfl, rfl⟩ := h
        exact ⟨h2.1, h2.2.1, by have := h2.2.2; omega⟩
    · exact h1
  | seek off whence =>
    have h1 := objOk_ensureReader hf
    unfold seekObj
    simp only
    split
    · rename_i s i hr
      refine ⟨h1.size, ?_⟩
      intro s' i' h
      have h2 := h1.reader s i hr
      simp only [Option.some.injEq, Prod.mk.injEq] at h
      obtain ⟨rfl, rfl⟩ := h
      refine ⟨h2.1, h2.2.1, ?_⟩
      unfold readerSeek
      simp only
      split
      · exact h2.2.2
      · split
        · exact h2.2.2
        · simp only; omega
    · exact h1
  | write b => exact ⟨hf.size, hf.reader⟩
  | close =>
    unfold closeObj
    split
    · exact ⟨hf.size, by intro s i h; simp at h⟩
    · rename_i b hb
      refine ⟨?_, by intro s i h; simp at h⟩
      intro d hd hdir
      simp only [Option.map_eq_some_iff] at hd
      obtain ⟨d', _, rfl⟩ := hd
      simp [FileObj.bytes]

theorem heapOk_step (E : Env) {w : World} (hw : HeapOk w) (o : Op) (ho : o.HostOk) :
    HeapOk (step E w o) := by
  have hs := stepShape E hw o ho
  revert hs
  generalize step E w o = w'
  intro hs
  cases hs with
  | prims _ h => exact heapOk_prims h hw
  | obj id f h =>
    intro j
    simp only [setObj]
    by_cases hj : j = id
    · subst hj; simpa using objOk_step h (hw j)
    · rw [upd_ne _ _ hj]; exact hw j
  | tick t => exact hw

theorem heapOk_run (E : Env) {w : World} (hw : HeapOk w) (ops : List Op) (ho : ∀ o ∈ ops, o.HostOk) :
    HeapOk (run E w ops) := by
  induction ops generalizing w with
  | nil => exact hw
  | cons o ops ih =>
    rw [run_cons]
    exact ih (heapOk_step E hw o (ho o (by simp))) (fun o' h' => ho o' (List.mem_cons_of_mem _ h'))

/-! ### The file table -/

/-- The file table: keys are unique, and each key is bound to an allocated object that carries this key
as its path and has details. -/
structure WF (w : World) : Prop where
  nodup : AMap.Nodup w.files
  bound : ∀ k id, AMap.get w.files k = some id →
    id < w.next ∧ (w.heap id).path = k ∧ ∃ d, (w.heap id).info = some d

theorem wf_new (i : Info) (t : Int) : WF (new i t) :=
  ⟨by simp [new, AMap.Nodup, AMap.keys], by intro k id h; simp [new] at h⟩

theorem wf_alloc {w : World} (hw : WF w) (f : FileObj) : WF (alloc w f).1 := by
  refine ⟨hw.nodup, ?_⟩
  intro k id h
  have h1 := hw.bound k id h
  simp only [alloc]
  rw [upd_ne _ _ (by omega)]
  exact ⟨by omega, h1.2⟩

theorem wf_prim {a b : World} (h : Prim a b) (ha : WF a) : WF b := by
  cases h with
  | bind f hf =>
    refine ⟨AMap.nodup_set _ _ ha.nodup, ?_⟩
    intro k id h
    simp only [store, alloc] at h ⊢
    rw [AMap.get_set] at h
    split at h
    · rename_i hk
      simp only [Option.some.injEq] at h
      subst h
      simp only [upd_self]
      exact ⟨by omega, hk.symm, hf.info⟩
    · have h1 := ha.bound k id h
      rw [upd_ne _ _ (by omega)]
      exact ⟨by omega, h1.2⟩
  | alloc f hf => exact wf_alloc ha f
  | drop p =>
    refine ⟨AMap.nodup_filter _ ha.nodup, ?_⟩
    intro k id h
    rw [show ({ a with files := a.files.filter fun e => p e.1 } : World).files =
      a.files.filter (fun e => p e.1) from rfl, AMap.get_filter] at h
    split at h
    · exact ha.bound k id h
    · cases h

theorem wf_prims {a b : World} (h : Prims a b) (ha : WF a) : WF b :=
  Prims.induct (fun _ _ => wf_prim) h ha

theorem ensureReader_path (f : FileObj) : (ensureReader f).path = f.path := by
  unfold ensureReader
  split
  · rfl
  · split <;> rfl

theorem objStep_path {now : Int} {f g : FileObj} (h : ObjStep now f g) : g.path = f.path := by
  cases h with
  | read n =>
    unfold readObj; simp only
    split
    · exact ensureReader_path f
    · exact ensureReader_path f
  | seek off whence =>
    unfold seekObj; simp only
    split
    · exact ensureReader_path f
    · exact ensureReader_path f
  | write b => rfl
  | close => unfold closeObj; split <;> rfl

theorem objStep_info {now : Int} {f g : FileObj} (h : ObjStep now f g)
    (hf : ∃ d, f.info = some d) : ∃ d, g.info = some d := by
  cases h with
  | read n =>
    unfold readObj; simp only
    split
    · simpa [ensureReader_info] using hf
    · simpa [ensureReader_info] using hf
  | seek off whence =>
    unfold seekObj; simp only
    split
    · simpa [ensureReader_info] using hf
    · simpa [ensureReader_info] using hf
  | write b => exact hf
  | close =>
    unfold closeObj
    split
    · exact hf
    · obtain ⟨d, hd⟩ := hf
      simp [hd]

theorem wf_step (E : Env) {w : World} (hh : HeapOk w) (hw : WF w) (o : Op) (ho : o.HostOk) :
    WF (step E w o) := by
  have hs := stepShape E hh o ho
  revert hs
  generalize step E w o = w'
  intro hs
  cases hs with
  | prims _ h => exact wf_prims h hw
  | obj id f h =>
    refine ⟨hw.nodup, ?_⟩
    intro k j hk
    have h1 := hw.bound k j hk
    simp only [setObj]
    by_cases hj : j = id
    · subst hj
      rw [upd_self]
      exact ⟨h1.1, (objStep_path h).trans h1.2.1, objStep_info h h1.2.2⟩
    · rw [upd_ne _ _ hj]; exact h1
  | tick t => exact ⟨hw.nodup, hw.bound⟩

/-- Both invariants together. -/
structure Inv (w : World) : Prop where
  heap : HeapOk w
  wf : WF w

theorem inv_new (i : Info) (t : Int) : Inv (new i t) := ⟨heapOk_new i t, wf_new i t⟩

theorem inv_step (E : Env) {w : World} (hw : Inv w) (o : Op) (ho : o.HostOk) : Inv (step E w o) :=
  ⟨heapOk_step E hw.heap o ho, wf_step E hw.heap hw.wf o ho⟩

theorem inv_run (E : Env) {w : World} (hw : Inv w) (ops : List Op) (ho : ∀ o ∈ ops, o.HostOk) :
    Inv (run E w ops) := by
  induction ops generalizing w with
  | nil => exact hw
  | cons o ops ih =>
    rw [run_cons]
    exact ih (inv_step E hw o (ho o (by simp))) (fun o' h' => ho o' (List.mem_cons_of_mem _ h'))

theorem inv_prims {a b : World} (h : Prims a b) (ha : Inv a) : Inv b :=
  ⟨heapOk_prims h ha.heap, wf_prims h ha.wf⟩

/-! ### Frame -/

/-- What primitives leave alone: everything but the file table and fresh objects. -/
structure Ext (w w' : World) : Prop where
  here : w'.here = w.here
  infos : w'.infos = w.infos
  now : w'.now = w.now
  next : w.next ≤ w'.next
  heap : ∀ j, j < w.next → w'.heap j = w.heap j

theorem Ext.refl (w : World) : Ext w w := ⟨rfl, rfl, rfl, Nat.le_refl _, fun _ _ => rfl⟩

theorem Ext.trans {a b c : World} (h1 : Ext a b) (h2 : Ext b c) : Ext a c :=
  ⟨h2.here.trans h1.here, h2.infos.trans h1.infos, h2.now.trans h1.now, Nat.le_trans h1.next h2.next,
   fun j hj => (h2.heap j (Nat.lt_of_lt_of_le hj h1.next)).trans (h1.heap j hj)⟩

theorem ext_alloc (w : World) (f : FileObj) : Ext w (alloc w f).1 :=
  ⟨rfl, rfl, rfl, Nat.le_succ _, fun j hj => upd_ne _ _ (by omega)⟩

theorem ext_prim {a b : World} (h : Prim a b) : Ext a b := by
  cases h with
  | bind f hf => exact ⟨rfl, rfl, rfl, Nat.le_succ _, fun j hj => upd_ne _ _ (by omega)⟩
  | alloc f hf => exact ext_alloc a f
  | drop p => exact ⟨rfl, rfl, rfl, Nat.le_refl _, fun _ _ => rfl⟩

theorem ext_prims {a b : World} (h : Prims a b) : Ext a b := by
  induction h with
  | refl => exact Ext.refl _
  | tail _ hp ih => exact ih.trans (ext_prim hp)

/-- An operation on another handle leaves an object alone. -/
theorem heap_frame (E : Env) {w : World} (hw : HeapOk w) (o : Op) (ho : o.HostOk) {id : Nat}
    (hid : id < w.next) (ht : o.target ≠ some id) : (step E w o).heap id = w.heap id := by
  cases o with
  | create name => exact (ext_prims (prims_create E w name)).heap id hid
  | mkdirAll p perm => exact (ext_prims (prims_mkdirAll E w p perm)).heap id hid
  | openFile name => exact (ext_prims (prims_openFile E hw name)).heap id hid
  | stat name => rfl
  | remove name => exact (ext_prims (prims_remove E w name)).heap id hid
  | removeAll name => exact (ext_prims (prims_removeAll E w name)).heap id hid
  | write j b => exact upd_ne _ _ (fun e => ht (by simp [Op.target, e]))
  | close j =>
    show (close w j).1.heap id = _
    unfold close; simp only
    split <;> exact upd_ne _ _ (fun e => ht (by simp [Op.target, e]))
  | read j n => exact upd_ne _ _ (fun e => ht (by simp [Op.target, e]))
  | seek j off whence => exact upd_ne _ _ (fun e => ht (by simp [Op.target, e]))
  | readdir j c => rfl
  | fileOpen j name => exact (ext_prims (prims_fileOpen E hw j name)).heap id hid
  | add fs => exact (ext_prims (prims_add E w fs ho)).heap id hid
  | tick t => rfl

theorem stepShape_next {w w' : World} (h : StepShape w w') : w.next ≤ w'.next := by
  cases h with
  | prims _ h => exact (ext_prims h).next
  | obj id f h => exact Nat.le_refl _
  | tick t => exact Nat.le_refl _

theorem next_step (E : Env) {w : World} (hw : HeapOk w) (o : Op) (ho : o.HostOk) :
    w.next ≤ (step E w o).next := stepShape_next (stepShape E hw o ho)

theorem here_step (E : Env) {w : World} (hw : HeapOk w) (o : Op) (ho : o.HostOk) :
    (step E w o).here = w.here := by
  have hs := stepShape E hw o ho
  revert hs
  generalize step E w o = w'
  intro hs
  cases hs with
  | prims _ h => exact (ext_prims h).here
  | obj id f h => rfl
  | tick t => rfl

theorem infos_step (E : Env) {w : World} (hw : HeapOk w) (o : Op) (ho : o.HostOk) :
    (step E w o).infos = w.infos := by
  have hs := stepShape E hw o ho
  revert hs
  generalize step E w o = w'
  intro hs
  cases hs with
  | prims _ h => exact (ext_prims h).infos
  | obj id f h => rfl
  | tick t => rfl

/-- A history that never works on handle `id` leaves its object alone. -/
theorem heap_frame_run (E : Env) {w : World} (hw : HeapOk w) (ops : List Op)
    (ho : ∀ o ∈ ops, o.HostOk) {id : Nat} (hid : id < w.next)
    (ht : ∀ o ∈ ops, o.target ≠ some id) : (run E w ops).heap id = w.heap id := by
  induction ops generalizing w with
  | nil => rfl
  | cons o ops ih =>
    rw [run_cons]
    have ho1 := ho o (by simp)
    rw [ih (heapOk_step E hw o ho1) (fun o' h' => ho o' (List.mem_cons_of_mem _ h'))
      (Nat.lt_of_lt_of_le hid (next_step E hw o ho1))
      (fun o' h' => ht o' (List.mem_cons_of_mem _ h'))]
    exact heap_frame E hw o ho1 hid (ht o (by simp))

theorem next_run (E : Env) {w : World} (hw : HeapOk w) (ops : List Op) (ho : ∀ o ∈ ops, o.HostOk) :
    w.next ≤ (run E w ops).next := by
  induction ops generalizing w with
  | nil => exact Nat.le_refl _
  | cons o ops ih =>
    rw [run_cons]
    exact Nat.le_trans (next_step E hw o (ho o (by simp)))
      (ih (heapOk_step E hw o (ho o (by simp))) (fun o' h' => ho o' (List.mem_cons_of_mem _ h')))

theorem here_run (E : Env) {w : World} (hw : HeapOk w) (ops : List Op) (ho : ∀ o ∈ ops, o.HostOk) :
    (run E w ops).here = w.here ∧ (run E w ops).infos = w.infos := by
  induction ops generalizing w with
  | nil => exact ⟨rfl, rfl⟩
  | cons o ops ih =>
    rw [run_cons]
    have h1 := ih (heapOk_step E hw o (ho o (by simp))) (fun o' h' => ho o' (List.mem_cons_of_mem _ h'))
    exact ⟨h1.1.trans (here_step E hw o (ho o (by simp))), h1.2.trans (infos_step E hw o (ho o (by simp)))⟩

end Mem
end Verif
