import Verif.Lemmas.ReaderDisk

/-! Programs that only read, on embedded files. -/

namespace Verif
namespace Reader

open Mem
open Client (Prog)
open Disk (Node)
open Disk.Node (tree)
open Props (Wanted Later Mirrors AtPos callHandle_spec mem_listing DirHandle reported embedded_walk nod)
open Spec (cursorStep seekTarget)
open Http (Grows)

/-- A Pkger as it is loaded from the embedded files of all paths of `R` and below. -/
structure Loaded (E : Env) (c hi : Info) (root : Node) (R : List Str → Prop) (v : World) : Prop where
  start : Start c v
  mirrors : ∀ rel, R rel → Mirrors E c root rel v
  here : ∀ es f d, lookup v ⟨c.module.path, GoPath.mk es⟩ = some f → f.info = some d → d.isDir = true → f.here = hi
  laws : ParseLaws E hi
  module : hi.module.path = c.module.path

/-- An open file of the program on the embedded files is what it should be. -/
structure MemHandle (c hi : Info) (root : Node) (R : List Str → Prop) (v0 v : World) (id : Nat) (h : Handle) (n : Node) :
    Prop where
  place : root.find h.place = some n
  declared : Declared R h.place
  new : v0.next ≤ id
  lt : id < v.next
  path : (v.heap id).path = ⟨c.module.path, GoPath.mk h.place⟩
  info : (v.heap id).info = some n.details
  writer : (v.heap id).writer = none
  dir : n.isDir = true → (v.heap id).here = hi ∧
    ((v.heap id).parent.name = GoPath.mk h.place ∨ ¬ GoPath.mk h.place <+: (v.heap id).parent.name)
  file : n.isDir = false → h.isOpen = true → AtPos (v.heap id) n.data h.pos

/-- The program's files on the embedded files. -/
structure OnMem (E : Env) (c hi : Info) (root : Node) (R : List Str → Prop) (v0 v : World) (ids : List Nat)
    (hs : List Handle) : Prop where
  later : Later E v0 v
  length : ids.length = hs.length
  each : ∀ (k : Nat) (h : Handle), hs[k]? = some h → ∃ id n, ids[k]? = some id ∧ MemHandle c hi root R v0 v id h n
  apart : ∀ (j k id : Nat), ids[j]? = some id → ids[k]? = some id → j = k

theorem MemHandle.keep {c hi : Info} {root : Node} {R : List Str → Prop} {v0 v v' : World} {id : Nat} {h : Handle} {n : Node}
    (hm : MemHandle c hi root R v0 v id h n) (h1 : v'.heap id = v.heap id) (h2 : v.next ≤ v'.next) :
    MemHandle c hi root R v0 v' id h n :=
  ⟨hm.place, hm.declared, hm.new, Nat.lt_of_lt_of_le hm.lt h2, by rw [h1]; exact hm.path, by rw [h1]; exact hm.info,
    by rw [h1]; exact hm.writer, by rw [h1]; exact hm.dir, by rw [h1]; exact hm.file⟩

/-- One open file has been used. -/
structure Used (E : Env) (id : Nat) (v v' : World) : Prop where
  here : v'.here = v.here
  files : v'.files = v.files
  next : v'.next = v.next
  rest : ∀ j, j ≠ id → v'.heap j = v.heap j
  obj : ∃ r, v'.heap id = { v.heap id with reader := r }
  ops : ∃ ops : List Op, (∀ o ∈ ops, o.HostOk) ∧ v' = run E v ops

theorem Used.refl (E : Env) (id : Nat) (v : World) : Used E id v v :=
  ⟨rfl, rfl, rfl, fun _ _ => rfl, ⟨(v.heap id).reader, rfl⟩, [], by simp, rfl⟩

theorem Used.trans {E : Env} {id : Nat} {v v' v'' : World} (h : Used E id v v') (h' : Used E id v' v'') : Used E id v v'' := by
  refine ⟨h'.here.trans h.here, h'.files.trans h.files, h'.next.trans h.next, fun j hj => (h'.rest j hj).trans (h.rest j hj),
    ?_, ?_⟩
  · obtain ⟨r, h1⟩ := h.obj
    obtain ⟨r', h2⟩ := h'.obj
    exact ⟨r', by rw [h2, h1]⟩
  · obtain ⟨a, h1, h2⟩ := h.ops
    obtain ⟨b, h3, h4⟩ := h'.ops
    refine ⟨a ++ b, ?_, by rw [run_append, ← h2, ← h4]⟩
    intro o ho
    rcases List.mem_append.mp ho with ho | ho
    · exact h1 o ho
    · exact h3 o ho

theorem Used.later {E : Env} {id : Nat} {v0 v v' : World} (h : Used E id v v') (hl : Later E v0 v) (hid : v0.next ≤ id) :
    Later E v0 v' := by
  refine ⟨⟨h.here.trans hl.grows.here, h.files.trans hl.grows.files, by rw [h.next]; exact hl.grows.next, ?_⟩, ?_⟩
  · intro j hj
    rw [h.rest j (by omega), hl.grows.heap j hj]
  · obtain ⟨a, h1, h2⟩ := hl.ops
    obtain ⟨b, h3, h4⟩ := h.ops
    refine ⟨a ++ b, ?_, by rw [run_append, ← h2, ← h4]⟩
    intro o ho
    rcases List.mem_append.mp ho with ho | ho
    · exact h1 o ho
    · exact h3 o ho

theorem used_setObj {E : Env} {id : Nat} {v : World} {f : FileObj} (o : Op) (ho : o.HostOk)
    (hs : Mem.step E v o = setObj v id f) (hf : ∃ r, f = { v.heap id with reader := r }) : Used E id v (setObj v id f) := by
  refine ⟨rfl, rfl, rfl, fun j hj => upd_ne _ _ hj, ?_, [o], ?_, ?_⟩
  · obtain ⟨r, h⟩ := hf
    exact ⟨r, by simp only [setObj, upd_self]; exact h⟩
  · intro x hx
    simp only [List.mem_singleton] at hx
    rw [hx]; exact ho
  · rw [run_cons, run_nil, hs]

theorem ensureReader_only (f : FileObj) : ∃ r, ensureReader f = { f with reader := r } := by
  unfold ensureReader
  cases hr : f.reader with
  | some x => exact ⟨f.reader, rfl⟩
  | none =>
    simp only
    split
    · exact ⟨_, rfl⟩
    · exact ⟨f.reader, rfl⟩

theorem readObj_only (f : FileObj) (n : Nat) : ∃ r, (readObj f n).1 = { f with reader := r } := by
  obtain ⟨r, h⟩ := ensureReader_only f
  unfold readObj
  simp only [h]
  cases r with
  | none => exact ⟨none, rfl⟩
  | some x => exact ⟨_, rfl⟩

theorem seekObj_only (f : FileObj) (a b : Int) : ∃ r, (seekObj f a b).1 = { f with reader := r } := by
  obtain ⟨r, h⟩ := ensureReader_only f
  unfold seekObj
  simp only [h]
  cases r with
  | none => exact ⟨none, rfl⟩
  | some x => exact ⟨_, rfl⟩

theorem used_read (E : Env) (v : World) (id n : Nat) : Used E id v (Mem.read v id n).1 :=
  used_setObj (.read id n) trivial rfl (readObj_only _ n)

theorem used_seek (E : Env) (v : World) (id : Nat) (a b : Int) : Used E id v (Mem.seek v id a b).1 :=
  used_setObj (.seek id a b) trivial rfl (seekObj_only _ a b)

theorem used_close (E : Env) {v : World} {id : Nat} (h : (v.heap id).writer = none) : Used E id v (Mem.close v id).1 := by
  have hc := Client.close_noWriter h
  rw [hc]
  exact used_setObj (.close id) trivial (by simp [Mem.step, hc]) ⟨none, rfl⟩

/-- Use of one open file. -/
theorem OnMem.move {E : Env} {c hi : Info} {root : Node} {R : List Str → Prop} {v0 v v' : World} {ids : List Nat}
    {hs : List Handle} (h : OnMem E c hi root R v0 v ids hs) {k id : Nat} {x x' : Handle} {n : Node} (hid : ids[k]? = some id)
    (hu : Used E id v v') (hn : MemHandle c hi root R v0 v id x n) (hp : x'.place = x.place)
    (hf : n.isDir = false → x'.isOpen = true → AtPos (v'.heap id) n.data x'.pos) :
    OnMem E c hi root R v0 v' ids (hs.set k x') := by
  refine ⟨hu.later h.later hn.new, by simp [h.length], ?_, h.apart⟩
  intro j y hj
  rcases getElem?_set_some hj with ⟨rfl, rfl⟩ | ⟨hne, hj⟩
  · obtain ⟨r, hr⟩ := hu.obj
    refine ⟨id, n, hid, by rw [hp]; exact hn.place, by rw [hp]; exact hn.declared, hn.new, by rw [hu.next]; exact hn.lt, ?_, ?_, ?_,
      ?_, hf⟩
    · rw [hr, hp]; exact hn.path
    · rw [hr]; exact hn.info
    · rw [hr]; exact hn.writer
    · rw [hr, hp]; exact hn.dir
  · obtain ⟨i, n', h1, h2⟩ := h.each j y hj
    refine ⟨i, n', h1, h2.keep (hu.rest i ?_) (by rw [hu.next]; exact Nat.le_refl _)⟩
    intro he
    rw [he] at h1
    exact hne (h.apart j k id h1 hid)

/-- A new file. -/
theorem OnMem.snoc {E : Env} {c hi : Info} {root : Node} {R : List Str → Prop} {v0 v v' : World} {ids : List Nat}
    {hs : List Handle} (h : OnMem E c hi root R v0 v ids hs) (hl : Later E v v') {id : Nat} (hid : v.next ≤ id) {x : Handle}
    {n : Node} (hn : MemHandle c hi root R v0 v' id x n) : OnMem E c hi root R v0 v' (ids ++ [id]) (hs ++ [x]) := by
  have hold : ∀ (j i : Nat), ids[j]? = some i → i < v.next := by
    intro j i hj
    have : j < hs.length := by rw [← h.length]; exact (List.getElem?_eq_some_iff.mp hj).1
    obtain ⟨i', n', h1, h2⟩ := h.each j hs[j] (List.getElem?_eq_getElem this)
    rw [hj] at h1
    cases h1
    exact h2.lt
  refine ⟨h.later.trans hl, by simp [h.length], ?_, ?_⟩
  · intro k y hk
    rcases Client.getElem?_snoc.mp hk with hk | ⟨rfl, rfl⟩
    · obtain ⟨i, n', h1, h2⟩ := h.each k y hk
      exact ⟨i, n', DiskClient.snoc_keep h1, h2.keep (hl.grows.heap i h2.lt) hl.grows.next⟩
    · exact ⟨id, n, by rw [← h.length]; exact DiskClient.snoc_last _ _, hn⟩
  · intro j k i hj hk
    rcases Client.getElem?_snoc.mp hj with hj | ⟨rfl, rfl⟩ <;> rcases Client.getElem?_snoc.mp hk with hk | ⟨rfl, hik⟩
    · exact h.apart j k i hj hk
    · have := hold j i hj; omega
    · have := hold k i hk; omega
    · rfl

variable {disk : Node}

theorem Place.good {E : Env} {c : Info} {m : List Str} {root : Node} (hp : Place E disk c m root) :
    ∀ es k, root.find es = some k → GoPath.Good es ∧ Ordinary c (GoPath.mk es) := fun es k hf =>
  ⟨(hp.names es k hf).1.good, ordinary_mk (hp.names es k hf).1.ord (hp.names es k hf).2⟩

/-- What is stored at a declared path. -/
theorem OnMem.stored {E : Env} {c hi : Info} {m : List Str} {root : Node} (hp : Place E disk c m root) {R : List Str → Prop}
    {v0 v : World} (hld : Loaded E c hi root R v0) {ids : List Nat} {hs : List Handle}
    (h : OnMem E c hi root R v0 v ids hs) {es : List Str} (hd : Declared R es) (hg : GoPath.Good es) :
    (root.find es = none → AMap.get v.files ⟨c.module.path, GoPath.mk es⟩ = none) ∧
    (∀ n, root.find es = some n → ∃ f, lookup v ⟨c.module.path, GoPath.mk es⟩ = some f ∧ f.info = some n.details ∧
      f.bytes = n.data ∧ f.path = ⟨c.module.path, GoPath.mk es⟩ ∧ (n.isDir = true → f.here = hi)) := by
  obtain ⟨rel, hR, cs, rfl⟩ := hd
  have hm := hld.mirrors rel hR
  have hwf := hm.start.inv.wf
  constructor
  · intro hf
    have := mt (hm.stored_iff hp.laws hp.good hg).mp (by rw [hf]; simp)
    rw [← h.later.grows.stored] at this
    cases hx : AMap.get v.files ⟨c.module.path, GoPath.mk (rel ++ cs)⟩ with
    | none => rfl
    | some id => exact absurd ⟨id, hx⟩ this
  · intro n hf
    obtain ⟨f, h1, h2, h3⟩ := hm.lookup hp.laws hp.good hf
    refine ⟨f, by rw [h.later.grows.lookup hwf]; exact h1, h2, h3, ?_, ?_⟩
    · unfold lookup at h1
      cases hg : AMap.get v0.files ⟨c.module.path, GoPath.mk (rel ++ cs)⟩ with
      | none => rw [hg] at h1; cases h1
      | some j =>
        rw [hg] at h1
        simp only [Option.map_some, Option.some.injEq] at h1
        rw [← h1]
        exact (hwf.bound _ j hg).2.1
    · intro hdir
      refine hld.here _ f _ h1 h2 ?_
      rw [DiskClient.named_isDir (DiskClient.named_find _ hp.named hf)]
      exact hdir

/-- `Open`, from embedded files. -/
theorem mem_open {E : Env} {c hi : Info} {m : List Str} {root : Node} (hp : Place E disk c m root) {R : List Str → Prop}
    {v0 v : World} (hld : Loaded E c hi root R v0) {ids : List Nat} {hs : List Handle}
    (h : OnMem E c hi root R v0 v ids hs) {name : Str} {es : List Str}
    (hn : E.parse c name = .ok ⟨c.module.path, GoPath.mk es⟩) (hd : Declared R es) (hg : GoPath.Good es) :
    (root.find es = none ∧ Mem.openFile E v name = (v, .err .notExist)) ∨
    (∃ n, root.find es = some n ∧ ∃ v', Mem.openFile E v name = (v', .ok v.next) ∧
      OnMem E c hi root R v0 v' (ids ++ [v.next]) (hs ++ [.new es])) := by
  have hhere : v.here = c := by rw [h.later.grows.here]; exact hld.start.here
  obtain ⟨h1, h2⟩ := h.stored hp hld hd hg
  cases hf : root.find es with
  | none =>
    left
    refine ⟨rfl, ?_⟩
    simp only [Mem.openFile, Mem.parse, hhere, hn, h1 hf]
  | some n =>
    right
    obtain ⟨f, e1, e2, e3, e4, e5⟩ := h2 n hf
    obtain ⟨v', id, ho, hobj⟩ := openFile_of_lookup (by rw [hhere]; exact hn) e1 e2
    obtain ⟨_, _, _, _, _, _, q4, q5⟩ := openFile_ok ho
    subst q4
    have hl : Later E v v' := by have := Props.later_openFile E v name; rw [ho] at this; exact this
    refine ⟨n, rfl, v', ho, h.snoc hl (Nat.le_refl _) (n := n) ⟨hf, hd, h.later.grows.next, ?_, ?_, ?_, ?_, ?_, ?_⟩⟩
    · rw [q5]; simp [alloc]
    · rw [hobj]; exact e4
    · rw [hobj]; rfl
    · rw [hobj]; rfl
    · intro hdir
      rw [hobj]
      refine ⟨e5 hdir, Or.inr ?_⟩
      simp [openedObj, Path.zero, GoPath.mk]
    · intro _ _
      rw [hobj]
      exact ⟨e3, Int.le_refl 0, Or.inl ⟨rfl, rfl⟩⟩

/-- `Open` of an open directory, from embedded files. -/
theorem mem_openIn {E : Env} {c hi : Info} {m : List Str} {root : Node} (hp : Place E disk c m root) {R : List Str → Prop}
    {v0 v : World} (hld : Loaded E c hi root R v0) {ids : List Nat} {hs : List Handle}
    (h : OnMem E c hi root R v0 v ids hs) {id : Nat} {x : Handle} {n0 : Node} (hx : MemHandle c hi root R v0 v id x n0)
    (hdir : n0.isDir = true) {cs : List Str} (hw : Wanted c hi x.place cs) (hne : cs ≠ x.place) :
    (root.find (x.place ++ cs) = none ∧ fileOpen E v id (GoPath.mk cs) = (v, .err .notExist)) ∨
    (∃ n, root.find (x.place ++ cs) = some n ∧ ∃ v' id', fileOpen E v id (GoPath.mk cs) = (v', .ok id') ∧
      OnMem E c hi root R v0 v' (ids ++ [id']) (hs ++ [.new (x.place ++ cs)])) := by
  have hpl := (hp.names _ _ hx.place).1
  have hplc : Plain (x.place ++ cs) := plain_append.mpr ⟨hpl, hw.plain⟩
  have hp0 : E.parse (v.heap id).here (GoPath.mk cs) = .ok ⟨c.module.path, GoPath.mk cs⟩ := by
    rw [(hx.dir hdir).1]
    have := (ordinary_mk hw.plain.ord hw.clearHere).parse hld.laws
    rw [GoPath.rootedElems_mk hw.plain.good, hld.module] at this
    exact this
  have hown : (⟨c.module.path, GoPath.mk cs⟩ : Path) ≠ (v.heap id).path := by
    rw [hx.path]
    intro he
    injection he with _ he
    exact hne (GoPath.mk_injective hw.plain.good hpl.good he)
  have hpne : c.module.path ≠ [] := by
    intro he
    have := hp.infoOk.modulePlain.1
    rw [he] at this
    exact this (by decide)
  have hback : E.parse c (Path.str ⟨c.module.path, GoPath.mk (x.place ++ cs)⟩) = .ok ⟨c.module.path, GoPath.mk (x.place ++ cs)⟩ := by
    have := hp.laws.qualified _ _ hp.infoOk.modulePlain hplc hw.clear
    unfold Path.str
    rw [if_neg hpne, if_neg (by simp [GoPath.mk])]
    exact this
  have hheld : Held E c v id := by
    obtain ⟨ops, o1, o2⟩ := h.later.ops
    exact ⟨v0, ops, hld.start, o1, o2, hx.new, hx.lt⟩
  have hpk := hheld.pkging
  have hd : Declared R (x.place ++ cs) := by
    obtain ⟨rel, h1, h2⟩ := hx.declared
    exact ⟨rel, h1, h2.trans (List.prefix_append _ _)⟩
  have hname : (⟨c.module.path, GoPath.join2 (v.heap id).path.name (GoPath.mk cs)⟩ : Path) =
      ⟨c.module.path, GoPath.mk (x.place ++ cs)⟩ := by
    rw [hx.path]
    simp only [GoPath.join2_mk hpl.good hw.plain.good]
  rcases mem_open hp hld h hback hd hplc.good with ⟨h1, h2⟩ | ⟨n, h1, v', h2, h3⟩
  · left
    refine ⟨h1, ?_⟩
    simp only [fileOpen, hp0, if_neg hown, hpk, Bool.true_eq_false, if_false, hname, h2]
  · right
    refine ⟨n, h1, ?_⟩
    obtain ⟨id1, n1, a1, a2⟩ := h3.each hs.length (.new (x.place ++ cs)) (DiskClient.snoc_last _ _)
    have hid1 : id1 = v.next := by
      rw [← h.length, DiskClient.snoc_last] at a1
      exact (Option.some.inj a1).symm
    have hn1 : n1 = n := by
      have := a2.place
      simp only [Handle.new] at this
      rw [h1] at this
      exact (Option.some.inj this).symm
    subst hid1
    subst hn1
    have hdn := DiskClient.named_isDir (DiskClient.named_find _ hp.named h1)
    cases hnd : n1.isDir with
    | false =>
      refine ⟨v', v.next, ?_, h3⟩
      have : n1.details.isDir = false := hdn.trans hnd
      simp only [fileOpen, hp0, if_neg hown, hpk, Bool.true_eq_false, if_false, hname, h2, a2.info, this, Bool.false_eq_true]
    | true =>
      have hdt : n1.details.isDir = true := hdn.trans hnd
      let obj : FileObj :=
        { info := some (newFileInfo n1.details), here := (v'.heap v.next).here,
          path := ⟨c.module.path, GoPath.mk (x.place ++ cs)⟩, parent := (v.heap id).path,
          pkging := true, data := none, writer := none, reader := none }
      have hfo : fileOpen E v id (GoPath.mk cs) = ((alloc v' obj).1, .ok v'.next) := by
        simp only [fileOpen, hp0, if_neg hown, hpk, Bool.true_eq_false, if_false, hname, h2, a2.info, hdt, if_true]
        rfl
      have hl : Later E v (alloc v' obj).1 := by
        have := Props.later_fileOpen E v id (GoPath.mk cs)
        rw [hfo] at this
        exact this
      have hvn : v.next ≤ v'.next := Nat.le_of_lt a2.lt
      have hobj : (alloc v' obj).1.heap v'.next = obj := by simp [alloc]
      refine ⟨_, _, hfo, h.snoc hl hvn (n := n1)
        ⟨h1, hd, Nat.le_trans h.later.grows.next hvn, by simp [alloc], ?_, ?_, ?_, ?_, ?_⟩⟩
      · rw [hobj]; rfl
      · rw [hobj]; rfl
      · rw [hobj]
      · intro _
        rw [hobj]
        refine ⟨(a2.dir hnd).1, ?_⟩
        show (v.heap id).path.name = _ ∨ ¬ _ <+: (v.heap id).path.name
        rw [hx.path]
        by_cases hcs0 : cs = []
        · left; simp [hcs0, Handle.new]
        · right
          intro hpre
          have h1 : GoPath.mk x.place <+: GoPath.mk (x.place ++ cs) :=
            Spec.IsUnder.prefix ⟨x.place, cs, hplc.good, rfl, rfl⟩
          have h2 : (GoPath.mk x.place : Str) = GoPath.mk (x.place ++ cs) :=
            (h1.eq_of_length (Nat.le_antisymm h1.length_le hpre.length_le))
          have h3 := GoPath.mk_injective hpl.good hplc.good h2
          exact hcs0 (by simpa using h3)
      · intro hx
        rw [hnd] at hx
        cases hx

/-- Reading, from embedded files. -/
theorem fill_mem (E : Env) {ids : List Nat} {k id : Nat} (hk : ids[k]? = some id) {b : Str} (hne : b ≠ []) :
    ∀ (fuel n : Nat) {v : World} {p : Nat}, AtPos (v.heap id) b p → n ≤ fuel →
      ∃ v', (fill k fuel n).exec E v ids = (v', ids, ((b.drop p).take n, true)) ∧ Used E id v v' ∧
        AtPos (v'.heap id) b ((p + ((b.drop p).take n).length : Nat) : Int)
  | 0, n, v, p, h, hf => by
    have : n = 0 := by omega
    subst this
    exact ⟨v, by simp [fill], Used.refl E id v, by simpa using h⟩
  | fuel + 1, n, v, p, h, hf => by
    unfold fill
    by_cases hn : n = 0
    · subst hn; rw [if_pos rfl]; exact ⟨v, by simp, Used.refl E id v, by simpa using h⟩
    · rw [if_neg hn, Prog.exec_bind, Http.exec_read E hk]
      obtain ⟨h1, h2⟩ := callHandle_spec hne h (.read n)
      simp only [Props.callHandle, cursorStep] at h1 h2
      have hu := used_read E v id n
      revert h1 h2 hu
      generalize Mem.read v id n = r
      obtain ⟨v1, o, e⟩ := r
      intro h1 h2 hu
      simp only at h1 h2 hu ⊢
      by_cases hp : p < b.length
      · have hp' : (p : Int) < b.length := by omega
        rw [if_pos hp'] at h1 h2
        simp only [Spec.Out.read.injEq, Int.toNat_natCast] at h1 h2
        obtain ⟨rfl, rfl⟩ := h1
        simp only
        obtain ⟨v2, q1, q2, q3⟩ := fill_mem E hk hne fuel (n - ((b.drop p).take n).length) (v := v1)
          (p := p + ((b.drop p).take n).length) (by simpa using h2) (by
            rw [List.length_take, List.length_drop]; omega)
        have hcut : (b.drop p).take n ++ (b.drop (p + ((b.drop p).take n).length)).take (n - ((b.drop p).take n).length) =
            (b.drop p).take n := by
          rw [← List.drop_drop, List.length_take, List.length_drop]
          by_cases hle : n ≤ b.length - p
          · have : n - min n (b.length - p) = 0 := by omega
            rw [this]; simp
          · have : List.drop (min n (b.length - p)) (b.drop p) = [] := by
              apply List.drop_eq_nil_of_le
              rw [List.length_drop]; omega
            rw [this]; simp
        refine ⟨v2, ?_, hu.trans q2, ?_⟩
        · rw [Prog.exec_bind, q1]
          simp only [Prog.exec_pure, hcut]
        · have : p + ((b.drop p).take n).length + ((b.drop (p + ((b.drop p).take n).length)).take
              (n - ((b.drop p).take n).length)).length = p + ((b.drop p).take n).length := by
            rw [Nat.add_assoc, ← List.length_append, hcut]
          rw [this] at q3
          exact q3
      · have hp' : ¬ (p : Int) < b.length := by omega
        rw [if_neg hp'] at h1 h2
        simp only [Spec.Out.read.injEq] at h1
        obtain ⟨rfl, rfl⟩ := h1
        have hnil : b.drop p = [] := List.drop_eq_nil_of_le (by omega)
        refine ⟨v1, by rw [hnil]; simp, hu, ?_⟩
        rw [hnil]
        simpa using h2

/-- Walking does not depend on the files opened since. -/
theorem walkLoop_grows {v0 v : World} (hg : Grows v0 v) (hwf : WF v0) (root : Path) : ∀ (ks : List Path) (skip : Str)
    (l : List (Str × Details)),
    walkLoop (fun _ => v) Client.note root ks skip l = walkLoop (fun _ => v0) Client.note root ks skip l
  | [], _, _ => rfl
  | k :: ks, skip, l => by
    unfold walkLoop
    split
    · exact walkLoop_grows hg hwf root ks skip l
    split
    · exact walkLoop_grows hg hwf root ks skip l
    split
    · exact walkLoop_grows hg hwf root ks skip l
    simp only [hg.files]
    cases hk : AMap.get v0.files k with
    | none => rfl
    | some id =>
      simp only [hg.heap id (hwf.bound k id hk).1]
      cases (v0.heap id).info with
      | none => rfl
      | some d =>
        simp only [Client.note]
        exact walkLoop_grows hg hwf root ks skip _

/-- What the callback that notes is told is what is written down of a walk. -/
theorem walkLoop_notes (w : World) (root : Path) : ∀ (ks : List Path) (skip : Str) (vs : List Visit),
    walkLoop (fun _ => w) Client.note root ks skip (vs.map fun v => (v.path, v.details)) =
      (((walkLoop (fun x : World × List Visit => id x.1) (logged nod) root ks skip (w, vs)).1.2.map fun v => (v.path, v.details)),
        (walkLoop id nod root ks skip w).2)
  | [], _, _ => rfl
  | k :: ks, skip, vs => by
    unfold walkLoop
    split
    · exact walkLoop_notes w root ks skip vs
    split
    · exact walkLoop_notes w root ks skip vs
    split
    · exact walkLoop_notes w root ks skip vs
    simp only [id]
    cases AMap.get w.files k with
    | none => rfl
    | some i =>
      simp only
      cases (w.heap i).info with
      | none => rfl
      | some d =>
        simp only [Client.note, logged, nod]
        have := walkLoop_notes w root ks skip (vs ++ [⟨k.str, newFileInfo d, none⟩])
        simp only [List.map_append, List.map_cons, List.map_nil] at this
        exact this

theorem walk_notes {E : Env} {v0 v : World} (hg : Grows v0 v) (hwf : WF v0) (name : Str) :
    Mem.walk E (fun _ => v) Client.note [] name = (reported E v0 name, walkResult E id nod v0 name) := by
  unfold reported walkResult visits Mem.walk Mem.parse
  simp only [hg.here, hg.files, id]
  cases E.parse v0.here name with
  | error e => rfl
  | ok pt =>
    simp only
    rw [walkLoop_grows hg hwf]
    exact walkLoop_notes v0 pt _ _ []

/-- Lists in strict order with the same elements are the same. -/
theorem eq_of_perm_sorted {l l' : List (Str × Details)} (h : l.Perm l')
    (h1 : (l.map (·.1)).Pairwise (fun a b => Str.lt a b = true)) (h2 : (l'.map (·.1)).Pairwise (fun a b => Str.lt a b = true)) :
    l = l' := by
  have hin : ∀ x ∈ l, ∀ y ∈ l, x.1 = y.1 → x = y := by
    have hnd : (l.map (·.1)).Nodup := h1.imp fun {a b} hab he => ((Str.lt_iff _ _).mp hab).2 he
    exact DiskClient.nodup_key _ hnd
  have hle : ∀ l : List (Str × Details), (l.map (·.1)).Pairwise (fun a b => Str.lt a b = true) →
      l.Pairwise fun x y => Str.le x.1 y.1 = true := fun l hl => (List.pairwise_map.mp hl).imp fun h => ((Str.lt_iff _ _).mp h).1
  exact sorted_perm_unique (·.1) hin (hle l h1) (hle l' h2) h

theorem OnMem.same {E : Env} {c hi : Info} {root : Node} {R : List Str → Prop} {v0 v : World} {ids : List Nat}
    {hs : List Handle} (h : OnMem E c hi root R v0 v ids hs) {k id : Nat} {x x' : Handle} {n : Node} (hid : ids[k]? = some id)
    (hn : MemHandle c hi root R v0 v id x n) (hp : x'.place = x.place)
    (hf : n.isDir = false → x'.isOpen = true → AtPos (v.heap id) n.data x'.pos) :
    OnMem E c hi root R v0 v ids (hs.set k x') := h.move hid (Used.refl E id v) hn hp hf

/-- One question, to embedded files. -/
theorem mem_step {E : Env} {c hi : Info} {m : List Str} {root : Node} (hp : Place E disk c m root) {R : List Str → Prop}
    {v0 v : World} (hld : Loaded E c hi root R v0) {ids : List Nat} {hs : List Handle}
    (h : OnMem E c hi root R v0 v ids hs) {q : Ask} (hq : Fits c hi R root hs q) :
    ∃ v' ids', q.prog.exec E v ids = (v', ids', (step c.module.path root hs q).2) ∧
      OnMem E c hi root R v0 v' ids' (step c.module.path root hs q).1 := by
  have hhere : v.here = c := by rw [h.later.grows.here]; exact hld.start.here
  cases q with
  | openFile name =>
    obtain ⟨hn, hd, _⟩ := hq
    simp only [Ask.prog, Prog.exec_bind, Client.openFile, Prog.exec, Client.call, step, opening]
    rcases mem_open hp hld h (hn.parse hp.laws) hd (GoPath.good_rootedElems _) with ⟨h1, h2⟩ | ⟨n, h1, v', h2, h3⟩
    · simp only [h1, h2, Client.obtained]
      exact ⟨v, ids, rfl, h⟩
    · simp only [h1, h2, Client.obtained, h.length]
      exact ⟨v', _, rfl, h3⟩
  | openIn k cs =>
    obtain ⟨x, d, kids, hk, hf, hw, hne, _⟩ := hq
    obtain ⟨id, n, hid, hmh⟩ := h.each k x hk
    have hdir : n.isDir = true := by
      have := hmh.place
      rw [hf] at this
      cases this
      rfl
    simp only [Ask.prog, Prog.exec_bind, Client.openIn, Prog.exec, Client.call, Client.withHandle, hid, step, at_, hk, opening]
    rcases mem_openIn hp hld h hmh hdir hw hne with ⟨h1, h2⟩ | ⟨n, h1, v', id', h2, h3⟩
    · simp only [h1, h2, Client.obtained]
      exact ⟨v, ids, rfl, h⟩
    · simp only [h1, h2, Client.obtained, h.length]
      exact ⟨v', _, rfl, h3⟩
  | stat name =>
    obtain ⟨hn, hd, hsome⟩ := hq
    obtain ⟨n, hf⟩ := Option.isSome_iff_exists.mp hsome
    obtain ⟨f, e1, e2, _⟩ := (h.stored hp hld hd (GoPath.good_rootedElems name)).2 n hf
    obtain ⟨j, e3, e4⟩ := Option.map_eq_some_iff.mp e1
    subst e4
    refine ⟨v, ids, ?_, h⟩
    simp only [Ask.prog, Prog.exec, Client.call, Mem.stat, Mem.parse, hhere, hn.parse hp.laws, e3, fileStat, e2,
      Client.detailsOf, step, hf]
  | has name =>
    obtain ⟨hn, hd⟩ := hq
    obtain ⟨a1, a2⟩ := h.stored hp hld hd (GoPath.good_rootedElems name)
    refine ⟨v, ids, ?_, h⟩
    cases hf : root.find (GoPath.rootedElems name) with
    | none =>
      simp only [Ask.prog, Prog.exec, Client.call, Mem.stat, Mem.parse, hhere, hn.parse hp.laws, a1 hf, step, hf,
        Option.isSome_none]
    | some n =>
      obtain ⟨f, e1, e2, _⟩ := a2 n hf
      obtain ⟨j, e3, e4⟩ := Option.map_eq_some_iff.mp e1
      subst e4
      simp only [Ask.prog, Prog.exec, Client.call, Mem.stat, Mem.parse, hhere, hn.parse hp.laws, e3, fileStat, e2,
        Client.detailsOf, step, hf, Option.isSome_some]
  | fileStat k =>
    obtain ⟨x, hk⟩ := hq
    obtain ⟨id, n, hid, hmh⟩ := h.each k x hk
    refine ⟨v, ids, ?_, ?_⟩
    · simp only [Ask.prog, Prog.exec_bind, Http.exec_stat E hid hmh.info, Prog.exec_pure, step, at_, hk, hmh.place]
    · simp only [step, at_, hk]
      exact h
  | fileName k =>
    obtain ⟨x, hk⟩ := hq
    obtain ⟨id, n, hid, hmh⟩ := h.each k x hk
    refine ⟨v, ids, ?_, ?_⟩
    · simp only [Ask.prog, Prog.exec, Client.call, Client.withHandle, hid, hmh.path, step, at_, hk]
    · simp only [step, at_, hk]
      exact h
  | list k =>
    obtain ⟨x, d, kids, hk, ho, _, hf, hsep⟩ := hq
    obtain ⟨id, n, hid, hmh⟩ := h.each k x hk
    have hn : n = .dir d kids := by
      have := hmh.place
      rw [hf] at this
      exact (Option.some.inj this).symm
    subst hn
    obtain ⟨rel, hR, cs, hcs⟩ := hmh.declared
    have hheld : Held E c v id := by
      obtain ⟨ops, o1, o2⟩ := h.later.ops
      exact ⟨v0, ops, hld.start, o1, o2, hmh.new, hmh.lt⟩
    rw [← hcs] at hf hsep
    obtain ⟨infos, e1, e2⟩ := Props.mem_listing E hp.laws hp.infoOk hp.wf (hld.mirrors rel hR) hp.good hp.names hp.named h.later hf
      hsep (h := id) (by rw [hcs]; exact ⟨hheld, hmh.path, (hmh.dir rfl).2⟩)
    rw [hcs] at hf
    refine ⟨v, ids, ?_, ?_⟩
    · simp only [Ask.prog, Prog.exec_bind, Http.exec_readdir E hid, e1, Prog.exec_pure, step, at_, hk, hf]
      rw [entries_eq (DiskClient.named_find _ hp.named hf) (Disk.find_wf _ hp.wf hf).1 e2]
    · simp only [step, at_, hk, hf]
      exact h.same hid hmh rfl fun hx => (by cases hx)
  | read k n =>
    obtain ⟨x, d, b, hk, ho, hf, hne⟩ := hq
    obtain ⟨id, n', hid, hmh⟩ := h.each k x hk
    have hn : n' = .file d b := by
      have := hmh.place
      rw [hf] at this
      exact (Option.some.inj this).symm
    subst hn
    obtain ⟨v', e1, e2, e3⟩ := fill_mem E hid hne n n (hmh.file rfl ho) (Nat.le_refl _)
    refine ⟨v', ids, ?_, ?_⟩
    · simp only [Ask.prog, Prog.exec_bind, e1, Prog.exec_pure, if_true, step, at_, hk, hf]
    · simp only [step, at_, hk, hf]
      exact h.move hid e2 hmh rfl fun _ _ => e3
  | seek k off =>
    obtain ⟨x, d, b, hk, ho, hf, hne⟩ := hq
    obtain ⟨id, n', hid, hmh⟩ := h.each k x hk
    have hn : n' = .file d b := by
      have := hmh.place
      rw [hf] at this
      exact (Option.some.inj this).symm
    subst hn
    obtain ⟨h1, h2⟩ := callHandle_spec hne (hmh.file rfl ho) (.seek off 0)
    have ht : seekTarget b.length x.pos off 0 = some (off : Int) := by simp [seekTarget]
    simp only [Props.callHandle, cursorStep, ht, Int.natCast_nonneg, if_true] at h1 h2
    have hu := used_seek E v id off 0
    refine ⟨(Mem.seek v id off 0).1, ids, ?_, ?_⟩
    · simp only [Ask.prog, Prog.exec, Client.call, Client.withHandle, hid, step, at_, hk]
      revert h1
      generalize Mem.seek v id off 0 = r
      obtain ⟨r1, r2, r3⟩ := r
      intro h1
      simp only [Spec.Out.seek.injEq] at h1
      obtain ⟨rfl, rfl⟩ := h1
      rfl
    · simp only [step, at_, hk]
      exact h.move hid hu hmh rfl fun _ _ => h2
  | close k =>
    obtain ⟨x, hk, ho⟩ := hq
    obtain ⟨id, n, hid, hmh⟩ := h.each k x hk
    refine ⟨(Mem.close v id).1, ids, ?_, ?_⟩
    · simp only [Ask.prog, Prog.exec, Client.call, Client.withHandle, hid, Client.close_noWriter hmh.writer, step, at_, hk]
    · simp only [step, at_, hk]
      exact h.move hid (used_close E hmh.writer) hmh rfl fun _ hx => (by cases hx)
  | walk name =>
    obtain ⟨hn, ⟨rel, hR, cs, hcs⟩, n, hf, hsib, hord⟩ := hq
    rw [← hcs] at hf hsib hord
    obtain ⟨e1, e2, e3⟩ := embedded_walk E hp.laws hp.wf (hld.mirrors rel hR) hp.good hn hcs.symm hf hsib
    have heq := eq_of_perm_sorted e3 e2 (by rw [List.map_map]; exact hord)
    refine ⟨v, ids, ?_, h⟩
    simp only [Ask.prog, Prog.exec, Client.call, walk_notes h.later.grows (hld.start.inv.wf), e1, heq, step, ← hcs, hf]

/-- A program all of whose questions fit gets from embedded files what it should get. -/
theorem mem_runs {E : Env} {c hi : Info} {m : List Str} {root : Node} (hp : Place E disk c m root) {R : List Str → Prop}
    {v0 : World} (hld : Loaded E c hi root R v0) {α : Type} : ∀ (p : Plan α) {v : World} {ids : List Nat} {hs : List Handle},
    OnMem E c hi root R v0 v ids hs → p.Fits c hi R root hs →
      (p.prog.exec E v ids).2.2 = p.run c.module.path root hs
  | .ret a, v, ids, hs, _, _ => rfl
  | .ask q k, v, ids, hs, h, ⟨h1, h2⟩ => by
    obtain ⟨v', ids', e1, e2⟩ := mem_step hp hld h h1
    simp only [Plan.prog, Prog.exec_bind, e1, Plan.run]
    exact mem_runs hp hld _ e2 h2

theorem OnMem.nil {E : Env} {c hi : Info} {root : Node} {R : List Str → Prop} {v0 : World} :
    OnMem E c hi root R v0 v0 [] [] :=
  ⟨⟨⟨rfl, rfl, Nat.le_refl _, fun _ _ => rfl⟩, [], by simp, rfl⟩, rfl, fun k h hk => (by simp at hk), fun j k id hj => (by simp at hj)⟩

end Reader
end Verif
