import Verif.Lemmas.Touch
import Verif.Lemmas.Observe

/-! Handles: pending writes, and handles whose object no path is bound to. -/

namespace Verif
namespace Mem

theorem readObj_fields (f : FileObj) (n : Nat) :
    (readObj f n).1.data = f.data ∧ (readObj f n).1.writer = f.writer ∧ (readObj f n).1.info = f.info ∧
    (readObj f n).1.path = f.path ∧ (readObj f n).1.here = f.here ∧ (readObj f n).1.pkging = f.pkging ∧
    (readObj f n).1.parent = f.parent := by
  unfold readObj ensureReader
  cases hr : f.reader with
  | some r => obtain ⟨s, i⟩ := r; simp [hr]
  | none =>
    by_cases hb : f.bytes.length > 0
    · simp [hb]
    · simp [hb, hr]

theorem seekObj_fields (f : FileObj) (off whence : Int) :
    (seekObj f off whence).1.data = f.data ∧ (seekObj f off whence).1.writer = f.writer ∧
    (seekObj f off whence).1.info = f.info ∧ (seekObj f off whence).1.path = f.path ∧
    (seekObj f off whence).1.here = f.here ∧ (seekObj f off whence).1.pkging = f.pkging ∧
    (seekObj f off whence).1.parent = f.parent := by
  unfold seekObj ensureReader
  cases hr : f.reader with
  | some r => obtain ⟨s, i⟩ := r; simp [hr]
  | none =>
    by_cases hb : f.bytes.length > 0
    · simp [hb]
    · simp [hb, hr]

/-- The chunks written to handle `id` by a history. -/
def chunks (id : Nat) : List Op → List Str
  | [] => []
  | .write i b :: ops => if i = id then b :: chunks id ops else chunks id ops
  | _ :: ops => chunks id ops

/-- Until it is closed, the object of a handle keeps its data and details and collects the writes. -/
theorem pending_step (E : Env) {w : World} (hw : HeapOk w) {o : Op} (ho : o.HostOk) {id : Nat}
    (hid : id < w.next) (hc : o ≠ .close id) :
    ((step E w o).heap id).data = (w.heap id).data ∧
    ((step E w o).heap id).info = (w.heap id).info ∧
    ((step E w o).heap id).writer.getD [] = (w.heap id).writer.getD [] ++ (chunks id [o]).flatten := by
  by_cases ht : o.target = some id
  · cases o with
    | write i b =>
      simp only [Op.target, Option.some.injEq] at ht
      subst ht
      simp [step, write, setObj, writeObj, chunks]
    | close i =>
      simp only [Op.target, Option.some.injEq] at ht
      subst ht
      exact absurd rfl hc
    | read i n =>
      simp only [Op.target, Option.some.injEq] at ht
      subst ht
      have := readObj_fields (w.heap i) n
      simp only [step, Mem.read, setObj, upd_self]
      exact ⟨this.1, this.2.2.1, by rw [this.2.1]; simp [chunks]⟩
    | seek i off whence =>
      simp only [Op.target, Option.some.injEq] at ht
      subst ht
      have := seekObj_fields (w.heap i) off whence
      simp only [step, Mem.seek, setObj, upd_self]
      exact ⟨this.1, this.2.2.1, by rw [this.2.1]; simp [chunks]⟩
    | readdir i count => simp [step, chunks]
    | fileOpen i name =>
      simp only [Op.target, Option.some.injEq] at ht
      subst ht
      have := (ext_prims (prims_fileOpen E hw i name)).heap i hid
      simp only [step]
      rw [this]; simp [chunks]
    | _ => simp [Op.target] at ht
  · rw [heap_frame E hw o ho hid ht]
    refine ⟨rfl, rfl, ?_⟩
    cases o with
    | write i b =>
      have : i ≠ id := fun e => ht (by simp [Op.target, e])
      simp [chunks, this]
    | _ => simp [chunks]

theorem chunks_cons (id : Nat) (o : Op) (ops : List Op) :
    chunks id (o :: ops) = chunks id [o] ++ chunks id ops := by
  cases o <;> simp only [chunks, List.nil_append]
  split <;> simp

theorem pending_run (E : Env) {id : Nat} (ops : List Op) : ∀ {w : World}, HeapOk w →
    (∀ o ∈ ops, o.HostOk) → id < w.next → .close id ∉ ops →
    ((run E w ops).heap id).data = (w.heap id).data ∧
    ((run E w ops).heap id).info = (w.heap id).info ∧
    ((run E w ops).heap id).writer.getD [] = (w.heap id).writer.getD [] ++ (chunks id ops).flatten := by
  induction ops with
  | nil => intro w _ _ _ _; simp [chunks]
  | cons o ops ih =>
    intro w hw ho hid hc
    have h1 := pending_step E hw (ho o (by simp)) hid (by rintro rfl; simp at hc)
    have h2 := ih (heapOk_step E hw o (ho o (by simp))) (fun o' h' => ho o' (List.mem_cons_of_mem _ h'))
      (Nat.lt_of_lt_of_le hid (next_step E hw o (ho o (by simp)))) (fun h' => hc (List.mem_cons_of_mem _ h'))
    rw [run_cons, chunks_cons]
    refine ⟨h2.1.trans h1.1, h2.2.1.trans h1.2.1, ?_⟩
    rw [h2.2.2, h1.2.2]
    simp

theorem here_run' (E : Env) (ops : List Op) : ∀ {w : World}, HeapOk w → (∀ o ∈ ops, o.HostOk) →
    (run E w ops).here = w.here := by
  induction ops with
  | nil => intro w _ _; rfl
  | cons o ops ih =>
    intro w hw ho
    rw [run_cons, ih (heapOk_step E hw o (ho o (by simp))) (fun o' h' => ho o' (List.mem_cons_of_mem _ h')),
      here_step E hw o (ho o (by simp))]

/-- What a successful `Create` does. -/
theorem create_ok {E : Env} {w w1 : World} {name : Str} {id : Nat}
    (h : create E w name = (w1, .ok id)) :
    ∃ pt her, E.parse w.here name = .ok pt ∧ AMap.get w.infos pt.pkg = some her ∧
      id = (mkdirAll E w GoPath.rootS 0o755).1.next ∧
      w1 = store (alloc (mkdirAll E w GoPath.rootS 0o755).1 (createdObj her pt name w.now)).1 pt id ∧
      (GoPath.dir pt.name ≠ GoPath.rootS →
        ∃ i, stat E (mkdirAll E w GoPath.rootS 0o755).1 (GoPath.dir pt.name) = .ok i) := by
  have hx := ext_prims (prims_mkdirAll E w GoPath.rootS 0o755)
  unfold create at h
  revert h hx
  generalize mkdirAll E w GoPath.rootS 0o755 = m
  obtain ⟨w0, r0⟩ := m
  intro h hx
  have hr0 : r0 ≠ .panic := by rintro rfl; simp at h
  have hxi : w0.infos = w.infos := hx.infos
  have hxh : w0.here = w.here := hx.here
  have hxn : w0.now = w.now := hx.now
  simp only [parse] at h
  rw [hxh] at h
  cases hp : E.parse w.here name with
  | error e => cases r0 <;> simp [hp] at h
  | ok pt =>
    simp only [info, hxi] at h
    cases hi : AMap.get w.infos pt.pkg with
    | none => cases r0 <;> simp [hi, hp] at h
    | some her =>
      refine ⟨pt, her, rfl, hi, ?_⟩
      by_cases hd : GoPath.dir pt.name ≠ GoPath.rootS
      · cases hs : stat E w0 (GoPath.dir pt.name) with
        | ok i =>
          have : (store (alloc w0 (createdObj her pt name w0.now)).1 pt w0.next, Res.ok w0.next) = (w1, .ok id) := by
            cases r0 <;> simp [hi, hp, hd, hs] at h hr0 <;> simpa [alloc] using h
          simp only [Prod.mk.injEq, Res.ok.injEq] at this
          refine ⟨this.2.symm, ?_, fun _ => ⟨i, rfl⟩⟩
          rw [← this.1, ← this.2, hxn]
        | err e => cases r0 <;> simp [hi, hp, hd, hs] at h
        | panic => cases r0 <;> simp [hi, hp, hd, hs] at h
      · have hd' := Classical.not_not.mp hd
        have : (store (alloc w0 (createdObj her pt name w0.now)).1 pt w0.next, Res.ok w0.next) = (w1, .ok id) := by
          cases r0 <;> simp [hi, hp, hd'] at h hr0 <;> simpa [alloc] using h
        simp only [Prod.mk.injEq, Res.ok.injEq] at this
        refine ⟨this.2.symm, ?_, fun h' => absurd h' hd⟩
        rw [← this.1, ← this.2, hxn]

/-! ### Handles no path is bound to -/

/-- No path is bound to the object of handle `id`. -/
def Unbound (w : World) (id : Nat) : Prop :=
  id < w.next ∧ ∀ k, AMap.get w.files k ≠ some id

theorem unbound_prim {a b : World} (h : Prim a b) {id : Nat} (hu : Unbound a id) : Unbound b id := by
  cases h with
  | bind f hf =>
    refine ⟨Nat.lt_succ_of_lt hu.1, ?_⟩
    intro k
    simp only [store, alloc]
    rw [AMap.get_set]
    split
    · intro h; injection h with h; have := hu.1; omega
    · exact hu.2 k
  | alloc f hf => exact ⟨Nat.lt_succ_of_lt hu.1, hu.2⟩
  | drop p =>
    refine ⟨hu.1, ?_⟩
    intro k
    simp only
    rw [AMap.get_filter]
    split
    · exact hu.2 k
    · simp

theorem unbound_prims {a b : World} (h : Prims a b) {id : Nat} (hu : Unbound a id) : Unbound b id :=
  Prims.induct (P := fun w => Unbound w id) (fun _ _ hp => unbound_prim hp) h hu

theorem unbound_step (E : Env) {w : World} (hw : HeapOk w) {o : Op} (ho : o.HostOk) {id : Nat}
    (hu : Unbound w id) : Unbound (step E w o) id := by
  have hs := stepShape E hw o ho
  revert hs
  generalize step E w o = w'
  intro hs
  cases hs with
  | prims _ h => exact unbound_prims h hu
  | obj i f h => exact hu
  | tick t => exact hu

theorem unbound_run (E : Env) (ops : List Op) {id : Nat} : ∀ {w : World}, HeapOk w →
    (∀ o ∈ ops, o.HostOk) → Unbound w id → Unbound (run E w ops) id := by
  induction ops with
  | nil => intro w _ _ h; exact h
  | cons o ops ih =>
    intro w hw ho h
    exact ih (heapOk_step E hw o (ho o (by simp))) (fun o' h' => ho o' (List.mem_cons_of_mem _ h'))
      (unbound_step E hw (ho o (by simp)) h)

/-- The worlds differ at most in the object of `id`, and there only in content, details and buffers. -/
structure DiffAt (id : Nat) (w w' : World) : Prop where
  here : w'.here = w.here
  infos : w'.infos = w.infos
  files : w'.files = w.files
  next : w'.next = w.next
  now : w'.now = w.now
  heap : ∀ j, j ≠ id → w'.heap j = w.heap j
  path : (w'.heap id).path = (w.heap id).path
  hereObj : (w'.heap id).here = (w.heap id).here
  pkging : (w'.heap id).pkging = (w.heap id).pkging

theorem DiffAt.refl (id : Nat) (w : World) : DiffAt id w w :=
  ⟨rfl, rfl, rfl, rfl, rfl, fun _ _ => rfl, rfl, rfl, rfl⟩

theorem DiffAt.symm {id : Nat} {w w' : World} (h : DiffAt id w w') : DiffAt id w' w :=
  ⟨h.here.symm, h.infos.symm, h.files.symm, h.next.symm, h.now.symm, fun j hj => (h.heap j hj).symm,
   h.path.symm, h.hereObj.symm, h.pkging.symm⟩

theorem DiffAt.trans {id : Nat} {a b c : World} (h1 : DiffAt id a b) (h2 : DiffAt id b c) :
    DiffAt id a c :=
  ⟨h2.here.trans h1.here, h2.infos.trans h1.infos, h2.files.trans h1.files, h2.next.trans h1.next,
   h2.now.trans h1.now, fun j hj => (h2.heap j hj).trans (h1.heap j hj), h2.path.trans h1.path,
   h2.hereObj.trans h1.hereObj, h2.pkging.trans h1.pkging⟩

theorem diffAt_setObj {id : Nat} (w : World) {f : FileObj} (h1 : f.path = (w.heap id).path)
    (h2 : f.here = (w.heap id).here) (h3 : f.pkging = (w.heap id).pkging) :
    DiffAt id w (setObj w id f) :=
  ⟨rfl, rfl, rfl, rfl, rfl, fun j hj => upd_ne _ _ hj, by simp [setObj, h1], by simp [setObj, h2],
   by simp [setObj, h3]⟩

theorem DiffAt.alloc {id : Nat} {w w' : World} (h : DiffAt id w w') (hid : id < w.next) (f : FileObj) :
    DiffAt id (alloc w f).1 (alloc w' f).1 := by
  have hne : id ≠ w.next := by omega
  refine ⟨h.here, h.infos, h.files, by simp [Mem.alloc, h.next], h.now, ?_, ?_, ?_, ?_⟩
  · intro j hj
    simp only [Mem.alloc, h.next]
    by_cases hjn : j = w.next
    · subst hjn; simp
    · rw [upd_ne _ _ hjn, upd_ne _ _ hjn]; exact h.heap j hj
  · simp only [Mem.alloc, h.next]
    rw [upd_ne _ _ hne, upd_ne _ _ hne]; exact h.path
  · simp only [Mem.alloc, h.next]
    rw [upd_ne _ _ hne, upd_ne _ _ hne]; exact h.hereObj
  · simp only [Mem.alloc, h.next]
    rw [upd_ne _ _ hne, upd_ne _ _ hne]; exact h.pkging

theorem DiffAt.store {id : Nat} {w w' : World} (h : DiffAt id w w') (pt : Path) (i : Nat) :
    DiffAt id (store w pt i) (store w' pt i) :=
  ⟨h.here, h.infos, by simp [Mem.store, h.files], h.next, h.now, h.heap, h.path, h.hereObj, h.pkging⟩

theorem DiffAt.unbound {id : Nat} {w w' : World} (h : DiffAt id w w') (hu : Unbound w id) :
    Unbound w' id := ⟨by rw [h.next]; exact hu.1, by rw [h.files]; exact hu.2⟩

theorem DiffAt.bindFresh {id : Nat} {w w' : World} (h : DiffAt id w w') (hid : id < w.next) (f : FileObj)
    (pt : Path) :
    DiffAt id (Mem.store (Mem.alloc w f).1 pt (Mem.alloc w f).2)
      (Mem.store (Mem.alloc w' f).1 pt (Mem.alloc w' f).2) := by
  have : (Mem.alloc w' f).2 = (Mem.alloc w f).2 := h.next
  rw [this]
  exact (h.alloc hid f).store pt _

/-- `MkdirAll` does not look at objects at all. -/
theorem diff_mkdirAllF (E : Env) {id : Nat} (fuel : Nat) {w w' : World} (p : Str) (perm : Nat)
    (h : DiffAt id w w') (hid : id < w.next) :
    DiffAt id (mkdirAllF E fuel w p perm).1 (mkdirAllF E fuel w' p perm).1 ∧
    (mkdirAllF E fuel w' p perm).2 = (mkdirAllF E fuel w p perm).2 := by
  induction fuel generalizing w w' p with
  | zero => exact ⟨h, rfl⟩
  | succ n ih =>
    unfold mkdirAllF parse
    rw [h.here]
    cases hp : E.parse w.here p with
    | error e => exact ⟨h, rfl⟩
    | ok pt =>
      simp only
      have key : ∀ (m m' : World × Res Unit), DiffAt id m.1 m'.1 → m'.2 = m.2 → id < m.1.next →
          DiffAt id (match m.2 with
            | .err e => (m.1, Res.err e)
            | .panic => (m.1, .panic)
            | .ok _ =>
              let f : FileObj :=
                { here := m.1.here, pkging := true, path := pt,
                  info := some { isDir := true, name := (GoPath.split pt.name).2, mode := perm, modTime := m.1.now, size := 0 },
                  data := none, parent := Path.zero, writer := none, reader := none }
              (store (alloc m.1 (closeObj m.1.now f)).1 pt (alloc m.1 (closeObj m.1.now f)).2, Res.ok ())).1
          (match m'.2 with
            | .err e => (m'.1, Res.err e)
            | .panic => (m'.1, .panic)
            | .ok _ =>
              let f : FileObj :=
                { here := m'.1.here, pkging := true, path := pt,
                  info := some { isDir := true, name := (GoPath.split pt.name).2, mode := perm, modTime := m'.1.now, size := 0 },
                  data := none, parent := Path.zero, writer := none, reader := none }
              (store (alloc m'.1 (closeObj m'.1.now f)).1 pt (alloc m'.1 (closeObj m'.1.now f)).2, Res.ok ())).1 ∧
          (match m'.2 with
            | .err e => (m'.1, Res.err e)
            | .panic => (m'.1, .panic)
            | .ok _ =>
              let f : FileObj :=
                { here := m'.1.here, pkging := true, path := pt,
                  info := some { isDir := true, name := (GoPath.split pt.name).2, mode := perm, modTime := m'.1.now, size := 0 },
                  data := none, parent := Path.zero, writer := none, reader := none }
              (store (alloc m'.1 (closeObj m'.1.now f)).1 pt (alloc m'.1 (closeObj m'.1.now f)).2, Res.ok ())).2 =
          (match m.2 with
            | .err e => (m.1, Res.err e)
            | .panic => (m.1, .panic)
            | .ok _ =>
              let f : FileObj :=
                { here := m.1.here, pkging := true, path := pt,
                  info := some { isDir := true, name := (GoPath.split pt.name).2, mode := perm, modTime := m.1.now, size := 0 },
                  data := none, parent := Path.zero, writer := none, reader := none }
              (store (alloc m.1 (closeObj m.1.now f)).1 pt (alloc m.1 (closeObj m.1.now f)).2, Res.ok ())).2 := by
        intro m m' hd hr hlt
        rw [hr]
        cases m.2 with
        | err e => exact ⟨hd, rfl⟩
        | panic => exact ⟨hd, rfl⟩
        | ok u =>
          simp only [hd.here, hd.now]
          exact ⟨hd.bindFresh hlt _ pt, trivial⟩
      by_cases hd : (GoPath.split pt.name).1 ≠ GoPath.rootS
      · rw [if_pos hd, if_pos hd]
        have hrec := ih (GoPath.split pt.name).1 h hid
        have hn := (ext_prims (prims_mkdirAllF E n w (GoPath.split pt.name).1 perm)).next
        exact key _ _ hrec.1 hrec.2 (Nat.lt_of_lt_of_le hid hn)
      · rw [if_neg hd, if_neg hd]
        exact key (w, .ok ()) (w', .ok ()) h rfl hid

theorem diff_stat (E : Env) {id : Nat} {w w' : World} (name : Str) (h : DiffAt id w w')
    (hu : Unbound w id) : stat E w' name = stat E w name := by
  unfold stat parse
  rw [h.here, h.files]
  cases E.parse w.here name with
  | error e => rfl
  | ok pt =>
    simp only
    cases hg : AMap.get w.files pt with
    | none => rfl
    | some i =>
      have : i ≠ id := by rintro rfl; exact hu.2 pt hg
      simp only [fileStat, h.heap i this]

theorem diff_create (E : Env) {id : Nat} {w w' : World} (name : Str) (h : DiffAt id w w')
    (hu : Unbound w id) : DiffAt id (create E w name).1 (create E w' name).1 := by
  have hm := diff_mkdirAllF E (GoPath.rootS.length + 2) GoPath.rootS 0o755 h hu.1
  have hu0 := unbound_prims (prims_mkdirAll E w GoPath.rootS 0o755) hu
  unfold create
  change DiffAt id (mkdirAll E w GoPath.rootS 0o755).1 (mkdirAll E w' GoPath.rootS 0o755).1 ∧
    (mkdirAll E w' GoPath.rootS 0o755).2 = (mkdirAll E w GoPath.rootS 0o755).2 at hm
  revert hu0 hm
  generalize mkdirAll E w GoPath.rootS 0o755 = m
  generalize mkdirAll E w' GoPath.rootS 0o755 = m'
  obtain ⟨w0, r0⟩ := m
  obtain ⟨w0', r0'⟩ := m'
  rintro hu0 ⟨hd, hr⟩
  simp only at hd hr hu0
  subst hr
  simp only [parse, info, hd.here, hd.infos, diff_stat E _ hd hu0, hd.now]
  have hb := fun her pt => hd.bindFresh hu0.1 (createdObj her pt name w0.now) pt
  cases r0' with
  | panic => exact hd
  | ok u =>
    simp only
    cases E.parse w0.here name with
    | error e => exact hd
    | ok pt =>
      simp only
      cases AMap.get w0.infos pt.pkg with
      | none => exact hd
      | some her =>
        simp only
        split
        · exact hd
        · exact hd
        · exact hb her pt
  | err e =>
    simp only
    cases E.parse w0.here name with
    | error e => exact hd
    | ok pt =>
      simp only
      cases AMap.get w0.infos pt.pkg with
      | none => exact hd
      | some her =>
        simp only
        split
        · exact hd
        · exact hd
        · exact hb her pt

theorem diff_openFile (E : Env) {id : Nat} {w w' : World} (name : Str) (h : DiffAt id w w')
    (hu : Unbound w id) : DiffAt id (openFile E w name).1 (openFile E w' name).1 ∧
      (openFile E w' name).2 = (openFile E w name).2 ∧
      ∀ di, (openFile E w name).2 = .ok di → di ≠ id := by
  unfold openFile parse
  rw [h.here, h.files]
  cases E.parse w.here name with
  | error e => exact ⟨h, rfl, by simp⟩
  | ok pt =>
    simp only
    cases hg : AMap.get w.files pt with
    | none => exact ⟨h, rfl, by simp⟩
    | some i =>
      have : i ≠ id := by rintro rfl; exact hu.2 pt hg
      simp only [h.heap i this]
      cases (w.heap i).info with
      | none => exact ⟨h, rfl, by simp⟩
      | some d =>
        refine ⟨h.alloc hu.1 _, by simp [Mem.alloc, h.next], ?_⟩
        intro di hdi
        simp only [Mem.alloc, Res.ok.injEq] at hdi
        have := hu.1
        omega

theorem diff_fileOpen (E : Env) {id : Nat} {w w' : World} (hw : HeapOk w) (i : Nat) (name : Str)
    (h : DiffAt id w w') (hu : Unbound w id) :
    DiffAt id (fileOpen E w i name).1 (fileOpen E w' i name).1 := by
  have hp : (w'.heap i).path = (w.heap i).path := by
    by_cases hi : i = id
    · subst hi; exact h.path
    · rw [h.heap i hi]
  have hh : (w'.heap i).here = (w.heap i).here := by
    by_cases hi : i = id
    · subst hi; exact h.hereObj
    · rw [h.heap i hi]
  have hk : (w'.heap i).pkging = (w.heap i).pkging := by
    by_cases hi : i = id
    · subst hi; exact h.pkging
    · rw [h.heap i hi]
  unfold fileOpen
  simp only [hp, hh, hk]
  cases E.parse (w.heap i).here name with
  | error e => exact h
  | ok pt0 =>
    simp only
    by_cases h1 : pt0 = (w.heap i).path
    · simp only [h1, if_true]; exact h
    · simp only [h1, if_false]
      by_cases h2 : (w.heap i).pkging = false
      · simp only [h2, if_true]; exact h
      · simp only [h2, if_false, Bool.not_eq_false]
        have ho := diff_openFile E (Path.str ⟨pt0.pkg, GoPath.join2 (w.heap i).path.name pt0.name⟩) h hu
        have hu1 := unbound_prims (prims_openFile E hw (Path.str ⟨pt0.pkg, GoPath.join2 (w.heap i).path.name pt0.name⟩)) hu
        revert ho hu1
        generalize openFile E w (Path.str ⟨pt0.pkg, GoPath.join2 (w.heap i).path.name pt0.name⟩) = m
        generalize openFile E w' (Path.str ⟨pt0.pkg, GoPath.join2 (w.heap i).path.name pt0.name⟩) = m'
        obtain ⟨w1, r⟩ := m
        obtain ⟨w1', r'⟩ := m'
        rintro ⟨hd, hr, hne⟩ hu1
        simp only at hd hr hne hu1
        subst hr
        cases r' with
        | err e => exact hd
        | panic => exact hd
        | ok di =>
          have := hd.heap di (hne di rfl)
          simp only [this]
          cases (w1.heap di).info with
          | none => exact hd
          | some d =>
            simp only
            by_cases hdir : d.isDir = true
            · simp only [hdir, if_true]
              split
              · exact h
              · exact hd.alloc hu1.1 _
            · simp only [hdir, if_false]
              split
              · exact h
              · exact hd

theorem diff_addNode {id : Nat} {w w' : World} (her : Info) (pt : Path) (n : Disk.Node)
    (h : DiffAt id w w') (hid : id < w.next) : DiffAt id (addNode w her pt n) (addNode w' her pt n) :=
  h.bindFresh hid _ pt

theorem diff_addWalkFn (E : Env) {id : Nat} {w w' : World} (path : Str) (n : Disk.Node)
    (h : DiffAt id w w') (hid : id < w.next) :
    DiffAt id (addWalkFn E path n w).1 (addWalkFn E path n w').1 ∧
    (addWalkFn E path n w').2 = (addWalkFn E path n w).2 ∧ id < (addWalkFn E path n w).1.next := by
  unfold addWalkFn parse
  rw [h.here]
  split
  · exact ⟨h, rfl, hid⟩
  · split
    · exact ⟨h, rfl, hid⟩
    · exact ⟨diff_addNode _ _ n h hid, rfl, by simp [addNode, Mem.store, Mem.alloc]; omega⟩

mutual
theorem diff_walkNode (E : Env) {id : Nat} : ∀ (path : Str) (n : Disk.Node) {w w' : World},
    DiffAt id w w' → id < w.next →
    DiffAt id (Disk.walkNode (addWalkFn E) path n w).1 (Disk.walkNode (addWalkFn E) path n w').1 ∧
    (Disk.walkNode (addWalkFn E) path n w').2 = (Disk.walkNode (addWalkFn E) path n w).2 ∧
    id < (Disk.walkNode (addWalkFn E) path n w).1.next
  | path, .file d b, w, w', h, hid => by
    rw [Disk.walkNode, Disk.walkNode]
    exact diff_addWalkFn E path (.file d b) h hid
  | path, .dir d kids, w, w', h, hid => by
    rw [Disk.walkNode, Disk.walkNode]
    have h1 := diff_addWalkFn E path (.dir d kids) h hid
    revert h1
    generalize addWalkFn E path (.dir d kids) w = m
    generalize addWalkFn E path (.dir d kids) w' = m'
    obtain ⟨w1, r⟩ := m
    obtain ⟨w1', r'⟩ := m'
    rintro ⟨hd, hr, hn⟩
    simp only at hd hr hn
    subst hr
    cases r' with
    | some e => exact ⟨hd, rfl, hn⟩
    | none => exact diff_walkKids E path kids hd hn
theorem diff_walkKids (E : Env) {id : Nat} : ∀ (path : Str) (kids : List (Str × Disk.Node)) {w w' : World},
    DiffAt id w w' → id < w.next →
    DiffAt id (Disk.walkKids (addWalkFn E) path kids w).1 (Disk.walkKids (addWalkFn E) path kids w').1 ∧
    (Disk.walkKids (addWalkFn E) path kids w').2 = (Disk.walkKids (addWalkFn E) path kids w).2 ∧
    id < (Disk.walkKids (addWalkFn E) path kids w).1.next
  | path, [], w, w', h, hid => by rw [Disk.walkKids, Disk.walkKids]; exact ⟨h, rfl, hid⟩
  | path, (name, n) :: rest, w, w', h, hid => by
    rw [Disk.walkKids, Disk.walkKids]
    have h1 := diff_walkNode E (GoPath.join2 path name) n h hid
    revert h1
    generalize Disk.walkNode (addWalkFn E) (GoPath.join2 path name) n w = m
    generalize Disk.walkNode (addWalkFn E) (GoPath.join2 path name) n w' = m'
    obtain ⟨w1, r⟩ := m
    obtain ⟨w1', r'⟩ := m'
    rintro ⟨hd, hr, hn⟩
    simp only at hd hr hn
    subst hr
    cases r' with
    | none => exact diff_walkKids E path rest hd hn
    | some e =>
      simp only
      split
      · exact diff_walkKids E path rest hd hn
      · exact ⟨hd, rfl, hn⟩
end

theorem walk_snd {S : Type} (cb : Disk.WalkFn S) (root : Str) (n : Disk.Node) (s : S) :
    (Disk.walk cb root n s).2 =
      if (Disk.walkNode cb root n s).2 = some .skipDir then none else (Disk.walkNode cb root n s).2 := by
  unfold Disk.walk
  split
  · rename_i h; rw [h]; simp
  · rename_i hne
    rw [if_neg]
    intro he
    exact hne (Disk.walkNode cb root n s).1 (by rw [← he])

theorem diff_addOne (E : Env) {id : Nat} {w w' : World} (f : OsFile) (h : DiffAt id w w')
    (hid : id < w.next) :
    DiffAt id (addOne E w f).1 (addOne E w' f).1 ∧ (addOne E w' f).2 = (addOne E w f).2 ∧
    id < (addOne E w f).1.next := by
  unfold addOne parse
  rw [h.here]
  split
  · exact ⟨h, rfl, hid⟩
  · simp only
    split
    · exact ⟨h, rfl, hid⟩
    · split
      · have h1 := diff_walkNode E f.name f.node h hid
        have h2 : (Disk.walk (addWalkFn E) f.name f.node w').2 = (Disk.walk (addWalkFn E) f.name f.node w).2 := by
          rw [walk_snd, walk_snd, h1.2.1]
        rw [← walk_fst, ← walk_fst] at h1
        revert h1 h2
        generalize Disk.walk (addWalkFn E) f.name f.node w = m
        generalize Disk.walk (addWalkFn E) f.name f.node w' = m'
        obtain ⟨w1, r⟩ := m
        obtain ⟨w1', r'⟩ := m'
        rintro ⟨hd, _, hn⟩ hr
        simp only at hd hr hn
        subst hr
        cases r' with
        | none => exact ⟨hd, rfl, hn⟩
        | some e => exact ⟨hd, rfl, hn⟩
      · exact ⟨diff_addNode _ _ _ h hid, rfl, by simp [addNode, Mem.store, Mem.alloc]; omega⟩

theorem diff_add (E : Env) {id : Nat} (fs : List OsFile) : ∀ {w w' : World}, DiffAt id w w' →
    id < w.next → DiffAt id (add E w fs).1 (add E w' fs).1 := by
  induction fs with
  | nil => intro w w' h _; exact h
  | cons f fs ih =>
    intro w w' h hid
    have h1 := diff_addOne E f h hid
    unfold add
    revert h1
    generalize addOne E w f = m
    generalize addOne E w' f = m'
    obtain ⟨w1, r⟩ := m
    obtain ⟨w1', r'⟩ := m'
    rintro ⟨hd, hr, hn⟩
    simp only at hd hr hn
    subst hr
    cases r' with
    | ok u => exact ih hd hn
    | err e => exact hd
    | panic => exact hd

/-- `Read`, `Seek`, `Write` or `Close` on handle `id`. -/
def Op.usesHandle (id : Nat) : Op → Bool
  | .write i _ => i == id
  | .close i => i == id
  | .read i _ => i == id
  | .seek i _ _ => i == id
  | _ => false

theorem diff_handleOp (E : Env) (w : World) {id : Nat} {o : Op} (hu : o.usesHandle id = true) :
    DiffAt id w (step E w o) := by
  cases o with
  | write i b =>
    simp only [Op.usesHandle, beq_iff_eq] at hu; subst hu
    exact diffAt_setObj w rfl rfl rfl
  | close i =>
    simp only [Op.usesHandle, beq_iff_eq] at hu; subst hu
    have : (step E w (.close i)) = setObj w i (closeObj w.now (w.heap i)) := by
      simp only [step, close]; split <;> rfl
    rw [this]
    refine diffAt_setObj w ?_ ?_ ?_ <;> (unfold closeObj; split <;> rfl)
  | read i n =>
    simp only [Op.usesHandle, beq_iff_eq] at hu; subst hu
    have := readObj_fields (w.heap i) n
    exact diffAt_setObj w this.2.2.2.1 this.2.2.2.2.1 this.2.2.2.2.2.1
  | seek i off whence =>
    simp only [Op.usesHandle, beq_iff_eq] at hu; subst hu
    have := seekObj_fields (w.heap i) off whence
    exact diffAt_setObj w this.2.2.2.1 this.2.2.2.2.1 this.2.2.2.2.2.1
  | _ => simp [Op.usesHandle] at hu

theorem diff_setOther {id i : Nat} (hi : i ≠ id) {w w' : World} (h : DiffAt id w w') (f : FileObj) :
    DiffAt id (setObj w i f) (setObj w' i f) := by
  refine ⟨h.here, h.infos, h.files, h.next, h.now, ?_, ?_, ?_, ?_⟩
  · intro j hj
    simp only [setObj, upd]
    split
    · rfl
    · exact h.heap j hj
  · simp only [setObj, upd_ne _ _ (Ne.symm hi)]; exact h.path
  · simp only [setObj, upd_ne _ _ (Ne.symm hi)]; exact h.hereObj
  · simp only [setObj, upd_ne _ _ (Ne.symm hi)]; exact h.pkging

/-- Every other operation behaves the same whatever the object of the unbound handle holds. -/
theorem diff_step (E : Env) {id : Nat} {w w' : World} (hw : HeapOk w) (h : DiffAt id w w')
    (hu : Unbound w id) {o : Op} (ho : o.usesHandle id = false) :
    DiffAt id (step E w o) (step E w' o) := by
  cases o with
  | create name => exact diff_create E name h hu
  | mkdirAll p perm => exact (diff_mkdirAllF E _ p perm h hu.1).1
  | openFile name => exact (diff_openFile E name h hu).1
  | stat name => exact h
  | remove name =>
    simp only [step, remove, parse, h.here, h.files]
    split
    · exact h
    · split
      · exact h
      · exact ⟨rfl, h.infos, rfl, h.next, h.now, h.heap, h.path, h.hereObj, h.pkging⟩
  | removeAll name =>
    simp only [step, removeAll, parse, h.here, h.files]
    split
    · exact h
    · exact ⟨rfl, h.infos, rfl, h.next, h.now, h.heap, h.path, h.hereObj, h.pkging⟩
  | write i b =>
    have hi : i ≠ id := by simpa [Op.usesHandle] using ho
    simp only [step, write, h.heap i hi]
    exact diff_setOther hi h _
  | close i =>
    have hi : i ≠ id := by simpa [Op.usesHandle] using ho
    have hs : ∀ v : World, (step E v (.close i)) = setObj v i (closeObj v.now (v.heap i)) := by
      intro v; simp only [step, close]; split <;> rfl
    rw [hs, hs, h.heap i hi, h.now]
    exact diff_setOther hi h _
  | read i n =>
    have hi : i ≠ id := by simpa [Op.usesHandle] using ho
    simp only [step, Mem.read, h.heap i hi]
    exact diff_setOther hi h _
  | seek i off whence =>
    have hi : i ≠ id := by simpa [Op.usesHandle] using ho
    simp only [step, Mem.seek, h.heap i hi]
    exact diff_setOther hi h _
  | readdir i count => exact h
  | fileOpen i name => exact diff_fileOpen E hw i name h hu
  | add fs => exact diff_add E fs h hu.1
  | tick t => exact ⟨h.here, h.infos, h.files, h.next, rfl, h.heap, h.path, h.hereObj, h.pkging⟩

/-- Erasing the uses of an unbound handle from a history changes only that handle's object. -/
theorem diff_run_erase (E : Env) {id : Nat} (ops : List Op) : ∀ {w w' : World}, HeapOk w → HeapOk w' →
    (∀ o ∈ ops, o.HostOk) → Unbound w id → DiffAt id w w' →
    DiffAt id (run E w (ops.filter fun o => !o.usesHandle id)) (run E w' ops) := by
  induction ops with
  | nil => intro w w' _ _ _ _ h; exact h
  | cons o ops ih =>
    intro w w' hw hw' ho hu h
    have ho1 := ho o (by simp)
    have ho2 : ∀ o' ∈ ops, o'.HostOk := fun o' h' => ho o' (List.mem_cons_of_mem _ h')
    rw [run_cons]
    cases huse : o.usesHandle id with
    | true =>
      simp only [List.filter_cons, huse, Bool.not_true, Bool.false_eq_true, if_false]
      exact ih hw (heapOk_step E hw' o ho1) ho2 hu (h.trans (diff_handleOp E w' huse))
    | false =>
      simp only [List.filter_cons, huse, Bool.not_false, if_true, run_cons]
      exact ih (heapOk_step E hw o ho1) (heapOk_step E hw' o ho1) ho2 (unbound_step E hw ho1 hu)
        (diff_step E hw h hu huse)

theorem DiffAt.sameView (E : Env) {id : Nat} {w w' : World} (h : DiffAt id w w') (hu : Unbound w id) :
    SameView E w w' := by
  intro name
  apply sameAt_of_lookup h.here
  intro pt _
  unfold lookup
  rw [h.files]
  cases hg : AMap.get w.files pt with
  | none => rfl
  | some i =>
    have : i ≠ id := by rintro rfl; exact hu.2 pt hg
    simp [h.heap i this]

end Mem
end Verif
