import Verif.Lemmas.Script
import Verif.Props.Create
import Verif.Props.Dir

/-! Programs that change files, in memory. -/

namespace Verif
namespace Script

open FileSys Spec
open Mem hiding run step mkdirAll

/-- What a regular file holds. -/
def _root_.Verif.FileSys.Entry.bytes : Entry → Str
  | .dir => []
  | .file b => b

/-- What the Pkger has at a path. -/
def Shown (w : Mem.World) (q : Path) (name : Str) : Option Entry → Prop
  | none => lookup w q = none
  | some e => ∃ f d, lookup w q = some f ∧ f.info = some d ∧ d.name = name ∧ d.isDir = e.isDir ∧ f.bytes = e.bytes

/-- The path of the own module with these elements. -/
def own (c : Info) (es : List Str) : Path := ⟨c.module.path, GoPath.mk es⟩

/-- The in-memory Pkger has, at and below `rel`, the files `fs` of the module `c`, and nothing beside it that begins with
the same letters. -/
structure InMem (E : Env) (c : Info) (rel : List Str) (fs : Fs) (w : Mem.World) : Prop where
  reached : Reached E c w
  tree : Tree fs
  has : ∀ es, GoPath.Good es → es ≠ [] → rel <+: es → Shown w (own c es) (es.getLast?.getD []) (fs es)
  plain : ∀ q, lookup w q ≠ none → q.pkg = c.module.path → ∃ es, Plain es ∧ Clear c (GoPath.mk es) ∧ q.name = GoPath.mk es
  beside : ∀ es, GoPath.Good es → GoPath.mk rel <+: GoPath.mk es → lookup w (own c es) ≠ none → rel <+: es

/-- No other name in the tree begins with the same letters. -/
def Apart (rel : List Str) (fs : Fs) (es : List Str) : Prop :=
  ∀ q, rel <+: q → fs q ≠ none → GoPath.mk es <+: GoPath.mk q → es <+: q

/-- The name of no directory in the directory is the beginning of another name in it. -/
def Distinct (fs : Fs) (es : List Str) : Prop :=
  ∀ x y, fs (es ++ [x]) = some .dir → fs (es ++ [y]) ≠ none → x <+: y → x = y

/-- What both Pkgers do alike. -/
def Fits (c : Info) (rel : List Str) (fs : Fs) (a : Act) : Prop :=
  Named c a ∧ rel <+: a.elems ∧
  match a with
  | .put es _ => es ≠ rel ∧ (∀ b, fs es.dropLast ≠ some (.file b)) ∧ fs es ≠ some .dir
  | .get es sizes => fs es ≠ some (.file []) ∧ (∀ n ∈ sizes, 0 < n) ∧ ∀ b, fs es = some (.file b) → b.length < sizes.length
  | .mkdirAll es _ => ¬ OverFile fs es
  | .stat _ => True
  | .list es => (∀ b, fs es ≠ some (.file b)) ∧ Apart rel fs es ∧ Distinct fs es
  | .remove es => ¬ Full fs es
  | .removeAll es => ¬ BelowFile fs es ∧ Apart rel fs es

theorem Fits.sized {c : Info} {rel : List Str} {fs : Fs} {a : Act} (h : Fits c rel fs a) : Sized fs a := by
  obtain ⟨_, _, h⟩ := h
  cases a with
  | get es sizes => exact ⟨h.2.1, h.2.2⟩
  | _ => trivial

theorem rootOf_eq (c : Info) : Props.rootOf c = own c [] := rfl

theorem own_inj {c : Info} {a b : List Str} (ha : GoPath.Good a) (hb : GoPath.Good b) (h : own c a = own c b) : a = b :=
  GoPath.mk_injective ha hb (congrArg Path.name h)

theorem InMem.parse {E : Env} {c : Info} (hl : ParseLaws E c) {rel : List Str} {fs : Fs} {w : Mem.World} (h : InMem E c rel fs w)
    {es : List Str} (hp : Plain es) (hc : Clear c (GoPath.mk es)) : E.parse w.here (GoPath.mk es) = .ok (own c es) := by
  rw [h.reached.here, (ordinary_mk hp.ord hc).parse hl, GoPath.rootedElems_mk hp.good]
  rfl

/-- Other objects under the same paths. -/
theorem InMem.same {E : Env} {c : Info} {rel : List Str} {fs : Fs} {w w' : Mem.World} (h : InMem E c rel fs w)
    (hr : Reached E c w') (hs : ∀ q, lookup w' q = lookup w q) : InMem E c rel fs w' where
  reached := hr
  tree := h.tree
  has := by
    intro es h1 h2 h3
    have := h.has es h1 h2 h3
    unfold Shown at this ⊢
    simp only [hs]
    exact this
  plain := by intro q; rw [hs]; exact h.plain q
  beside := by intro es; rw [hs]; exact h.beside es

/-- No path leads to the object. -/
def Loose (w : Mem.World) (id : Nat) : Prop := ∀ q j, AMap.get w.files q = some j → j ≠ id

theorem Loose.lookup {w : Mem.World} {id : Nat} (h : Loose w id) (f : FileObj) (q : Path) :
    Mem.lookup (setObj w id f) q = Mem.lookup w q := by
  unfold Mem.lookup
  show (AMap.get w.files q).map _ = _
  cases hg : AMap.get w.files q with
  | none => rfl
  | some j => simp only [Option.map_some, setObj]; rw [upd_ne _ _ (h q j hg)]

theorem Loose.setObj {w : Mem.World} {id : Nat} (h : Loose w id) (f : FileObj) : Loose (setObj w id f) id := h

theorem lookup_alloc {w : Mem.World} (hw : WF w) (f : FileObj) (q : Path) : lookup (alloc w f).1 q = lookup w q := by
  unfold lookup
  show (AMap.get w.files q).map _ = _
  cases hg : AMap.get w.files q with
  | none => rfl
  | some j =>
    have := (hw.bound q j hg).1
    simp only [Option.map_some, alloc]; rw [upd_ne _ _ (by omega)]

theorem loose_alloc {w : Mem.World} (hw : WF w) (f : FileObj) : Loose (alloc w f).1 w.next := by
  intro q j hg
  have := (hw.bound q j hg).1
  omega

/-- Opening what is there. -/
theorem open_mem {E : Env} {w : Mem.World} {name : Str} {pt : Path} {f : FileObj} {d : Details}
    (hp : E.parse w.here name = .ok pt) (hf : lookup w pt = some f) (hd : f.info = some d) (hs : List Nat) :
    memCall E w hs (.openFile name) = ((alloc w (openedObj f d)).1, hs ++ [w.next], .opened (.ok hs.length)) := by
  unfold lookup at hf
  cases hg : AMap.get w.files pt with
  | none => rw [hg] at hf; cases hf
  | some i =>
    rw [hg] at hf
    simp only [Option.map_some, Option.some.injEq] at hf
    simp only [memCall, Mem.openFile, Mem.parse, hp, hg, hf, hd, gotMem]
    rfl

theorem open_mem_none {E : Env} {w : Mem.World} {name : Str} {pt : Path}
    (hp : E.parse w.here name = .ok pt) (hf : lookup w pt = none) (hs : List Nat) :
    memCall E w hs (.openFile name) = (w, hs, .opened (.err .notExist)) := by
  unfold lookup at hf
  cases hg : AMap.get w.files pt with
  | some i => rw [hg] at hf; cases hf
  | none => simp only [memCall, Mem.openFile, Mem.parse, hp, hg, gotMem]

theorem setObj_setObj (w : Mem.World) (i : Nat) (a b : FileObj) : setObj (setObj w i a) i b = setObj w i b := by
  unfold setObj
  have : upd (upd w.heap i a) i b = upd w.heap i b := by
    funext j
    unfold upd
    by_cases h : j = i
    · rw [if_pos h, if_pos h]
    · rw [if_neg h, if_neg h, if_neg h]
  simp only [this]

theorem setObj_same (w : Mem.World) (i : Nat) : setObj w i (w.heap i) = w := by
  unfold setObj
  have : upd w.heap i (w.heap i) = w.heap := by
    funext j
    unfold upd
    by_cases h : j = i
    · rw [if_pos h, h]
    · rw [if_neg h]
  rw [this]

theorem setObj_heap (w : Mem.World) (i : Nat) (a : FileObj) : (setObj w i a).heap i = a := by simp [setObj]

theorem writeAll_mem {E : Env} {c : Info} {k id : Nat} {hs : List Nat} (hk : hs[k]? = some id) :
    ∀ (chunks : List Str) (w : Mem.World), Reached E c w →
      ∃ wr, mem E (writeAll k chunks) w hs = (setObj w id { w.heap id with writer := wr }, hs, true) ∧
        Reached E c (setObj w id { w.heap id with writer := wr }) ∧
        wr.getD [] = (w.heap id).writer.getD [] ++ chunks.flatten := by
  intro chunks
  induction chunks with
  | nil =>
    intro w hr
    have hw : setObj w id { w.heap id with writer := (w.heap id).writer } = w := setObj_same w id
    refine ⟨(w.heap id).writer, ?_, ?_, by simp⟩
    · rw [hw]; rfl
    · rw [hw]; exact hr
  | cons b bs ih =>
    intro w hr
    obtain ⟨wr, h1, h2, h3⟩ := ih (setObj w id (writeObj (w.heap id) b)) (hr.step (o := .write id b) trivial)
    rw [setObj_setObj, setObj_heap] at h1 h2
    refine ⟨wr, ?_, h2, ?_⟩
    · simp only [writeAll, Script.mem, memCall, withMem, hk, Mem.write]
      exact h1
    · rw [h3, setObj_heap]
      simp [writeObj]

theorem close_mem {E : Env} {k id : Nat} {hs : List Nat} (hk : hs[k]? = some id) {w : Mem.World}
    (hi : (w.heap id).info ≠ none) :
    memCall E w hs (.close k) = (setObj w id (closeObj w.now (w.heap id)), hs, .did (.ok ())) := by
  simp only [memCall, withMem, hk, Mem.close]
  cases h1 : (w.heap id).writer <;> cases h2 : (w.heap id).info <;> first | rfl | exact absurd h2 hi

/-- Reading to the end. -/
theorem readAll_mem {E : Env} {c : Info} {k id : Nat} {hs : List Nat} (hk : hs[k]? = some id) {b : Str} :
    ∀ (sizes : List Nat) (w : Mem.World) (p : Nat), Reached E c w → (∀ n ∈ sizes, 0 < n) →
      (ensureReader (w.heap id)).reader = some (b, (p : Int)) → p ≤ b.length → b.length - p < sizes.length →
      ∃ f, mem E (readAll k sizes (b.take p)) w hs = (setObj w id f, hs, some b) ∧ f.info = (w.heap id).info ∧
        Reached E c (setObj w id f) := by
  intro sizes
  induction sizes with
  | nil => intro w p _ _ _ _ h; simp at h
  | cons n ns ih =>
    intro w p hr hn h1 hp hlen
    have hinfo : ∀ o : FileObj, (ensureReader o).info = o.info := by
      intro o
      unfold ensureReader
      split
      · rfl
      · split <;> rfl
    have hread : ∀ f out e, read w id n = (setObj w id f, out, e) → Reached E c (setObj w id f) := by
      intro f out e hf
      have := hr.step (o := .read id n) trivial
      simp only [Mem.step, hf] at this
      exact this
    by_cases hlt : p < b.length
    · have hstep : read w id n =
          (setObj w id { ensureReader (w.heap id) with reader := some (b, ((p + ((b.drop p).take n).length : Nat) : Int)) },
            (b.drop p).take n, none) := by
        have hnot : ¬ ((b.length : Int) ≤ (p : Int)) := by omega
        simp only [Mem.read, readObj, h1, readerRead, ge_iff_le, if_neg hnot, Int.toNat_natCast]
        rfl
      have hl : ((b.drop p).take n).length = min n (b.length - p) := by simp
      have hn0 := hn n (by simp)
      obtain ⟨f, g1, g2, g3⟩ := ih _ (p + ((b.drop p).take n).length) (hread _ _ _ hstep) (fun n' hn' => hn n' (by simp [hn']))
        (by rw [setObj_heap]; simp [ensureReader]) (by rw [hl]; omega) (by rw [hl]; simp only [List.length_cons] at hlen; omega)
      rw [setObj_setObj] at g1 g3
      refine ⟨f, ?_, ?_, g3⟩
      · simp only [readAll, Script.mem, memCall, withMem, hk, hstep]
        rw [← g1]
        congr 2
        rw [List.take_add, hl]
        congr 1
        by_cases hc : n ≤ b.length - p
        · rw [Nat.min_eq_left hc]
        · rw [Nat.min_eq_right (by omega), List.take_of_length_le (by simp; omega), List.take_of_length_le (by simp)]
      · rw [g2, setObj_heap]; exact hinfo _
    · have hstep : read w id n = (setObj w id { ensureReader (w.heap id) with reader := some (b, (p : Int)) }, [], some .eof) := by
        have hyes : (b.length : Int) ≤ (p : Int) := by omega
        simp only [Mem.read, readObj, h1, readerRead, ge_iff_le, if_pos hyes]
      refine ⟨{ ensureReader (w.heap id) with reader := some (b, (p : Int)) }, ?_, hinfo _, hread _ _ _ hstep⟩
      simp only [readAll, Script.mem, memCall, withMem, hk, hstep, mem_pure, List.append_nil]
      rw [List.take_of_length_le (by omega)]

/-- Nothing to read. -/
theorem readAll_mem_none {E : Env} {c : Info} {k id : Nat} {hs : List Nat} (hk : hs[k]? = some id) (sizes : List Nat)
    (w : Mem.World) (acc : Str) (hr : Reached E c w) (h1 : (w.heap id).reader = none) (h2 : (w.heap id).bytes = []) :
    ∃ f, mem E (readAll k sizes acc) w hs = (setObj w id f, hs, none) ∧ f.info = (w.heap id).info ∧
        Reached E c (setObj w id f) := by
  cases sizes with
  | nil => exact ⟨w.heap id, by rw [setObj_same]; rfl, rfl, by rw [setObj_same]; exact hr⟩
  | cons n ns =>
    have hens : ensureReader (w.heap id) = w.heap id := by simp [ensureReader, h1, h2]
    have hstep : read w id n = (setObj w id (w.heap id), [], some .unableToRead) := by
      simp [Mem.read, readObj, hens, h1]
    refine ⟨w.heap id, ?_, rfl, by rw [setObj_same]; exact hr⟩
    simp only [readAll, Script.mem, memCall, withMem, hk, hstep, mem_pure]

/-- `Create` where the parent is a directory that is there. -/
theorem create_there {E : Env} {c : Info} (hl : ParseLaws E c) (hi : InfoOk c) (hpk : c.importPath = c.module.path)
    {w : Mem.World} (hr : Reached E c w) {cs : List Str} {x : Str} (hp : Plain (cs ++ [x]))
    (hc : Clear c (GoPath.mk (cs ++ [x]))) (hpar : cs = [] ∨ Stored w (own c cs)) :
    ∃ w1 id, create E w (GoPath.mk (cs ++ [x])) = (w1, .ok id) := by
  have hh := hr.here
  have hwf := hr.inv.wf
  have hg := hp.good
  subst hh
  obtain ⟨m1, _, _⟩ := mkdirAll_spec hl hwf (Props.ordinary_root hi) 0o755
  have hx := ext_prims (prims_mkdirAll E w GoPath.rootS 0o755)
  have hpc : Plain cs := (plain_append.mp hp).1
  have hcc : Clear w.here (GoPath.mk cs) := clear_init hc
  have hdir : GoPath.dir (GoPath.mk (cs ++ [x])) = GoPath.mk cs :=
    GoPath.dir_mk_snoc (GoPath.good_append.mp hg).1 ((GoPath.good_append.mp hg).2 x (by simp))
  have hinfo : AMap.get w.infos w.here.module.path = some w.here := by rw [hr.infos.2, if_pos hpk.symm]
  have hst : cs ≠ [] → ∃ j, stat E (Mem.mkdirAll E w GoPath.rootS 0o755).1 (GoPath.mk cs) = .ok j := by
    intro hne
    rcases hpar with h | ⟨j, hj⟩
    · exact absurd h hne
    have hnr : own w.here cs ≠ Props.rootOf w.here := by
      intro h
      exact hne (own_inj hpc.good (by intro x hx; cases hx) (h.trans (rootOf_eq _)))
    refine ⟨j, ?_⟩
    unfold stat Mem.parse
    rw [hx.here, (ordinary_mk hpc.ord hcc).parse hl, GoPath.rootedElems_mk hpc.good]
    simp only
    have hget : AMap.get (Mem.mkdirAll E w GoPath.rootS 0o755).1.files ⟨w.here.module.path, GoPath.mk cs⟩ = some j := by
      show AMap.get _ (own w.here cs) = _
      rw [get_mkdirAll E 0o755 (fun hc => hnr (Props.chain_root hl hi hwf hc))]; exact hj
    rw [hget]
    simp only [fileStat]
    obtain ⟨h1, _, d, h3⟩ := hwf.bound _ _ hj
    rw [hx.heap j h1, h3]
  unfold create
  revert m1 hx hst
  generalize Mem.mkdirAll E w GoPath.rootS 0o755 = m
  obtain ⟨w0, r0⟩ := m
  intro m1 hx hst
  simp only at m1 hst
  subst m1
  have hxi : w0.infos = w.infos := hx.infos
  have hxh : w0.here = w.here := hx.here
  simp only [Mem.parse, hxh, (ordinary_mk hp.ord hc).parse hl, GoPath.rootedElems_mk hg, Mem.info, hxi, hinfo, hdir]
  by_cases hne : cs = []
  · subst hne
    simp only [GoPath.mk_nil, ne_eq, not_true, if_false]
    exact ⟨_, _, rfl⟩
  · obtain ⟨j, hj⟩ := hst hne
    rw [if_pos (fun h => hne ((GoPath.mk_eq_root hpc.good).mp h)), hj]
    exact ⟨_, _, rfl⟩

theorem good_snoc_of_ne {es : List Str} (h : es ≠ []) : ∃ cs x, es = cs ++ [x] :=
  ⟨es.dropLast, es.getLast h, (List.dropLast_concat_getLast h).symm⟩

/-- What `Create`, writing and `Close` leave behind. -/
theorem put_mem {E : Env} {c : Info} (hl : ParseLaws E c) (hi : InfoOk c) (hpk : c.importPath = c.module.path)
    {w : Mem.World} (hr : Reached E c w) {cs : List Str} {x : Str} (hp : Plain (cs ++ [x]))
    (hc : Clear c (GoPath.mk (cs ++ [x]))) (hpar : cs = [] ∨ Stored w (own c cs)) (chunks : List Str) (hs : List Nat) :
    ∃ w' hs', mem E (Act.put (cs ++ [x]) chunks).prog w hs = (w', hs', .done true) ∧ Reached E c w' ∧
      Shown w' (own c (cs ++ [x])) x (some (.file chunks.flatten)) ∧
      ∀ q, q ≠ own c [] → q ≠ own c (cs ++ [x]) → lookup w' q = lookup w q := by
  have hwf := hr.inv.wf
  obtain ⟨w1, id, h1⟩ := create_there hl hi hpk hr hp hc hpar
  have hpt : E.parse w.here (GoPath.mk (cs ++ [x])) = .ok (own c (cs ++ [x])) := by
    rw [hr.here, (ordinary_mk hp.ord hc).parse hl, GoPath.rootedElems_mk hp.good]; rfl
  have hr1 : Reached E c w1 := by
    have := hr.step (o := .create (GoPath.mk (cs ++ [x]))) trivial
    simp only [Mem.step, h1] at this
    exact this
  obtain ⟨pt, her, e1, e2, e3, e4, _⟩ := create_ok h1
  rw [hpt] at e1
  injection e1 with e1
  subst e1
  have hobj : w1.heap id = createdObj her (own c (cs ++ [x])) (GoPath.mk (cs ++ [x])) w.now := by
    rw [e4, e3]; simp [store, alloc]
  have hget : AMap.get w1.files (own c (cs ++ [x])) = some id := by rw [e4]; simp [store]
  -- no other path leads to the new object
  have hloose : ∀ q j, q ≠ own c (cs ++ [x]) → AMap.get w1.files q = some j → j ≠ id := by
    intro q j hq hj he
    rw [e4] at hj
    simp only [store, alloc] at hj
    rw [AMap.get_set_ne _ _ hq] at hj
    have hwf0 := (hr.step (o := .mkdirAll GoPath.rootS 0o755) trivial).inv.wf
    have := (hwf0.bound q j hj).1
    have e3' : id = (Mem.step E w (.mkdirAll GoPath.rootS 0o755)).next := e3
    omega
  obtain ⟨wr, k1, k2, k3⟩ := writeAll_mem (E := E) (c := c) (k := hs.length) (id := id) (hs := hs ++ [id]) (getElem?_snoc _ _)
    chunks w1 hr1
  have hcall : memCall E w hs (.create (GoPath.mk (cs ++ [x]))) = (w1, hs ++ [id], .opened (.ok hs.length)) := by
    simp only [memCall, h1, gotMem]
  generalize hf : ({ w1.heap id with writer := wr } : FileObj) = f2 at k1 k2
  rw [hobj] at hf k3
  have hin : ((setObj w1 id f2).heap id).info ≠ none := by
    rw [setObj_heap, ← hf]; simp only [createdObj]; simp
  have k4 := close_mem (E := E) (k := hs.length) (hs := hs ++ [id]) (getElem?_snoc _ _) hin
  rw [setObj_setObj, setObj_heap] at k4
  have hr3 := k2.step (o := .close id) trivial
  have hw3 : Mem.step E (setObj w1 id f2) (.close id) =
      setObj w1 id (closeObj (setObj w1 id f2).now f2) := by
    have := congrArg Prod.fst k4
    simp only [memCall, withMem, getElem?_snoc] at this
    exact this
  rw [hw3] at hr3
  refine ⟨_, hs ++ [id], ?_, hr3, ?_, ?_⟩
  · simp only [Act.prog, Script.mem, hcall, mem_bind, k1, k4, mem_pure, Ans.good, Bool.and_self]
  · refine ⟨closeObj (setObj w1 id f2).now f2, ?_⟩
    have hlk : lookup (setObj w1 id (closeObj (setObj w1 id f2).now f2)) (own c (cs ++ [x])) =
        some (closeObj (setObj w1 id f2).now f2) := by
      unfold lookup
      show (AMap.get w1.files _).map _ = _
      rw [hget]
      simp only [Option.map_some, setObj_heap]
    rw [← hf] at hlk ⊢
    have hb : GoPath.base (GoPath.mk (cs ++ [x])) = x := GoPath.base_mk_snoc (hp.good x (by simp))
    simp only [createdObj, Option.getD_none, List.nil_append] at k3
    cases wr with
    | none =>
      refine ⟨⟨GoPath.base (GoPath.mk (cs ++ [x])), 0, 0o644, w.now, false⟩, hlk, rfl, hb, rfl, ?_⟩
      simp only [Option.getD_none] at k3
      simp [closeObj, createdObj, FileObj.bytes, Entry.bytes, ← k3]
    | some b =>
      refine ⟨⟨GoPath.base (GoPath.mk (cs ++ [x])), (b.length : Int), 0o644, w1.now, false⟩, hlk, rfl, hb, rfl, ?_⟩
      simp only [Option.getD_some] at k3
      simp [closeObj, createdObj, FileObj.bytes, Entry.bytes, k3]
  · intro q hq0 hq
    have hfr : lookup w1 q = lookup w q := by
      have := Props.create_frame E (by rw [hr.here]; exact hl) (by rw [hr.here]; exact hi) hwf (name := GoPath.mk (cs ++ [x])) (q := q)
        (by rw [hr.here]; exact hq0) (by rw [hpt]; intro h; injection h with h; exact hq h.symm)
      rw [h1] at this
      exact this
    rw [← hfr]
    unfold lookup
    show (AMap.get w1.files q).map _ = _
    cases hg : AMap.get w1.files q with
    | none => rfl
    | some j => simp only [Option.map_some, setObj]; rw [upd_ne _ _ (hloose q j hq hg)]

/-! ### What is done is what should be done -/

theorem mk_prefix_of {a b : List Str} (h : a <+: b) : GoPath.mk a <+: GoPath.mk b := by
  obtain ⟨t, rfl⟩ := h
  by_cases ht : t = []
  · subst ht; simp
  by_cases ha : a = []
  · subst ha; exact ⟨GoPath.joinSlash t, by simp [GoPath.mk, GoPath.joinSlash]⟩
  · rw [GoPath.mk_append ha ht]; exact List.prefix_append _ _

theorem clear_of_prefix {c : Info} {a b : List Str} (h : a <+: b) (hc : Clear c (GoPath.mk b)) : Clear c (GoPath.mk a) := by
  rcases hc with hc | hc
  · exact Or.inl hc
  · exact Or.inr fun h' => hc (h'.trans (mk_prefix_of h))

theorem eq_of_prefixes {a b : Str} (h : a <+: b) (h' : b <+: a) : a = b :=
  h.eq_of_length (Nat.le_antisymm h.length_le h'.length_le)

/-- A path on the way is not beside. -/
theorem on_way {rel a es : List Str} (hg : GoPath.Good es) (ha : a <+: es) (hr : rel <+: es) (h : GoPath.mk rel <+: GoPath.mk a) :
    rel <+: a := by
  rcases List.prefix_or_prefix_of_prefix hr ha with h' | h'
  · exact h'
  · have ga : GoPath.Good a := by obtain ⟨t, rfl⟩ := ha; exact (GoPath.good_append.mp hg).1
    have gr : GoPath.Good rel := by obtain ⟨t, rfl⟩ := hr; exact (GoPath.good_append.mp hg).1
    have := GoPath.mk_injective ga gr (eq_of_prefixes (mk_prefix_of h') h)
    subst this
    exact List.prefix_refl _

/-- Another state that has other files. -/
theorem InMem.changed {E : Env} {c : Info} {rel : List Str} {fs fs' : Fs} {w w' : Mem.World} (h : InMem E c rel fs w)
    (hr : Reached E c w') (ht : Tree fs')
    (hhas : ∀ es, GoPath.Good es → es ≠ [] → rel <+: es → Shown w' (own c es) (es.getLast?.getD []) (fs' es))
    (hnew : ∀ q, q.pkg = c.module.path → lookup w' q ≠ none → lookup w q = none →
      ∃ es, Plain es ∧ Clear c (GoPath.mk es) ∧ q = own c es ∧ (GoPath.mk rel <+: GoPath.mk es → rel <+: es)) :
    InMem E c rel fs' w' where
  reached := hr
  tree := ht
  has := hhas
  plain := by
    intro q h1 h2
    by_cases hq : lookup w q = none
    · obtain ⟨es, g1, g2, g3, _⟩ := hnew q h2 h1 hq
      exact ⟨es, g1, g2, by rw [g3]; rfl⟩
    · exact h.plain q hq h2
  beside := by
    intro es h1 h2 h3
    by_cases hq : lookup w (own c es) = none
    · obtain ⟨es', g1, _, g3, g4⟩ := hnew _ rfl h3 hq
      have := own_inj h1 g1.good g3
      subst this
      exact g4 h2
    · exact h.beside es h1 h2 hq

theorem Shown.congr {w w' : Mem.World} {q : Path} {n : Str} {e : Option Entry} (h : Shown w q n e)
    (he : lookup w' q = lookup w q) : Shown w' q n e := by
  unfold Shown at h ⊢
  rw [he]
  exact h

/-- The root is not beside. -/
theorem root_not_beside {rel : List Str} (hrel : GoPath.Good rel) (h : GoPath.mk rel <+: GoPath.mk []) : rel <+: [] := by
  have : GoPath.mk [] = GoPath.mk rel := eq_of_prefixes (mk_prefix_of (List.nil_prefix)) h
  have := GoPath.mk_injective (by intro x hx; cases hx) hrel this
  subst this
  exact List.prefix_refl _

/-- Nothing is stored where there is nothing. -/
theorem InMem.lookup_none {E : Env} {c : Info} {rel : List Str} {fs : Fs} {w : Mem.World} (h : InMem E c rel fs w) {es : List Str}
    (hg : GoPath.Good es) (hne : es ≠ []) (hr : rel <+: es) (hf : fs es = none) : lookup w (own c es) = none := by
  have := h.has es hg hne hr
  rw [hf] at this
  exact this

theorem InMem.lookup_some {E : Env} {c : Info} {rel : List Str} {fs : Fs} {w : Mem.World} (h : InMem E c rel fs w) {es : List Str}
    (hg : GoPath.Good es) (hne : es ≠ []) (hr : rel <+: es) {e : Entry} (hf : fs es = some e) :
    ∃ f d, lookup w (own c es) = some f ∧ f.info = some d ∧ d.name = es.getLast?.getD [] ∧ d.isDir = e.isDir ∧
      f.bytes = e.bytes := by
  have := h.has es hg hne hr
  rw [hf] at this
  exact this

theorem InMem.fs_of_lookup {E : Env} {c : Info} {rel : List Str} {fs : Fs} {w : Mem.World} (h : InMem E c rel fs w) {es : List Str}
    (hg : GoPath.Good es) (hne : es ≠ []) (hr : rel <+: es) (hf : lookup w (own c es) ≠ none) : fs es ≠ none := by
  intro h'
  exact hf (h.lookup_none hg hne hr h')

/-- Reads and `Close` on a handle that was just opened change no path. -/
theorem InMem.handle {E : Env} {c : Info} {rel : List Str} {fs : Fs} {w : Mem.World} (h : InMem E c rel fs w) {f : FileObj}
    {f' : FileObj} (hr : Reached E c (setObj (alloc w f).1 w.next f')) : InMem E c rel fs (setObj (alloc w f).1 w.next f') := by
  refine h.same hr fun q => ?_
  have hwf := h.reached.inv.wf
  rw [(loose_alloc hwf f).lookup, lookup_alloc hwf]

theorem listable_mem {E : Env} {c : Info} (hl : ParseLaws E c) (ho : InfoOk c) {rel : List Str} {fs : Fs} {w : Mem.World}
    (h : InMem E c rel fs w) {es : List Str} (hp : Plain es) (hc : Clear c (GoPath.mk es)) (hne : es ≠ []) (hrel : rel <+: es)
    (hap : Apart rel fs es) (hdis : Distinct fs es) : Props.Listable E w (own c es) := by
  have hg := hp.good
  have hback : ∀ es, Plain es → Clear c (GoPath.mk es) → E.parse w.here (Path.str (own c es)) = .ok (own c es) := by
    intro es h1 h2
    have hpne : c.module.path ≠ [] := by
      intro h
      have := ho.modulePlain.1
      rw [h] at this
      exact this (by decide)
    have := hl.qualified _ _ ho.modulePlain h1 h2
    rw [h.reached.here]
    unfold Path.str own
    rw [if_neg hpne, if_neg (by simp [GoPath.mk])]
    exact this
  have hstored : ∀ q, Stored w q → lookup w q ≠ none := by
    intro q hq
    obtain ⟨f, hf⟩ := stored_iff_lookup.mp hq
    rw [hf]; simp
  have hunder : ∀ t, GoPath.Good (es ++ t) → Stored w (own c (es ++ t)) → fs (es ++ t) ≠ none := fun t hgt hst =>
    h.fs_of_lookup hgt (by simp [hne]) (hrel.trans (List.prefix_append _ _)) (hstored _ hst)
  refine ⟨?_, hback es hp hc, ?_, ?_, ?_⟩
  · intro q hq hqp
    obtain ⟨qs, h1, h2, h3⟩ := h.plain q (hstored q hq) hqp
    have : q = own c qs := by cases q; simp only [own] at h3 hqp ⊢; rw [h3, hqp]
    rw [this]
    exact hback qs h1 h2
  · intro q hq hqp hpre
    obtain ⟨qs, h1, h2, h3⟩ := h.plain q (hstored q hq) hqp
    have he : q = own c qs := by cases q; simp only [own] at h3 hqp ⊢; rw [h3, hqp]
    subst he
    have hpre' : GoPath.mk es <+: GoPath.mk qs := hpre
    have hrq : rel <+: qs := h.beside qs h1.good ((mk_prefix_of hrel).trans hpre') (hstored _ hq)
    have hqne : qs ≠ [] := by
      intro hq0
      subst hq0
      have := root_not_beside hg hpre'
      exact hne (by simpa using this)
    obtain ⟨t, rfl⟩ := hap qs hrq (h.fs_of_lookup h1.good hqne hrq (hstored _ hq)) hpre'
    exact ⟨es, t, h1.good, rfl, rfl⟩
  · intro xs x ys hx hgx hy hst
    have e1 := GoPath.mk_injective hg (b := xs) (GoPath.good_append.mp hgx).1 hx
    subst e1
    have h1 := hunder (x :: ys) hgx hst
    have hsplit : es ++ x :: ys = (es ++ [x]) ++ ys := by simp
    rw [hsplit] at h1 hgx
    have h2 := h.tree.above hy h1
    obtain ⟨f, d, g1, g2, _, g4, _⟩ := h.lookup_some (GoPath.good_append.mp hgx).1 (by simp)
      (hrel.trans (List.prefix_append _ _)) h2
    exact ⟨d, ⟨f, g1, g2⟩, g4⟩
  · rintro a b d ⟨pa, xs, x, hx1, hx2, hx3⟩ ⟨pb, ys, y, hy1, hy2, hy3⟩ hda hdir hst hpre
    have e1 := GoPath.mk_injective hg (b := xs) (GoPath.good_append.mp hx1).1 hx2
    have e2 := GoPath.mk_injective hg (b := ys) (GoPath.good_append.mp hy1).1 hy2
    subst e1
    subst e2
    have ea : a = own c (es ++ [x]) := by cases a; simp only [own] at pa hx3 ⊢; rw [pa, hx3]
    have eb : b = own c (es ++ [y]) := by cases b; simp only [own] at pb hy3 ⊢; rw [pb, hy3]
    subst ea
    subst eb
    have hsx : fs (es ++ [x]) ≠ none := hunder [x] hx1 (Props.HasDetails.stored hda)
    have hsy : fs (es ++ [y]) ≠ none := hunder [y] hy1 hst
    have hxd : fs (es ++ [x]) = some .dir := by
      cases hf : fs (es ++ [x]) with
      | none => exact absurd hf hsx
      | some e =>
        obtain ⟨f, d', g1, g2, _, g4, _⟩ := h.lookup_some hx1 (by simp) (hrel.trans (List.prefix_append _ _)) hf
        have := Props.HasDetails.unique hda ⟨f, g1, g2⟩
        rw [this, g4] at hdir
        cases e with
        | dir => rfl
        | file b => cases hdir
    have hpre' : GoPath.mk (es ++ [x]) <+: GoPath.mk (es ++ [y]) := hpre
    rw [GoPath.mk_snoc, GoPath.mk_snoc, if_neg hne, List.prefix_append_right_inj] at hpre'
    rw [hdis x y hxd hsy hpre']

/-- The entries `Readdir` returns are those of the directory. -/
theorem readdir_mem {E : Env} {c : Info} (hl : ParseLaws E c) (ho : InfoOk c) {rel : List Str} {fs : Fs} {w : Mem.World}
    (h : InMem E c rel fs w) {es : List Str} (hp : Plain es) (hc : Clear c (GoPath.mk es)) (hne : es ≠ []) (hrel : rel <+: es)
    (hap : Apart rel fs es) (hdis : Distinct fs es) {id : Nat} (hd : Props.DirHandle E c w id (own c es)) :
    ∃ infos, readdir E w id (-1) = .ok infos ∧ Listing fs es (names infos) := by
  have hclean : CleanNames w c.module.path := by
    intro q hq hqp
    obtain ⟨f, hf⟩ := stored_iff_lookup.mp hq
    obtain ⟨qs, h1, _, h3⟩ := h.plain q (by rw [hf]; simp) hqp
    exact ⟨qs, h1.good, h3⟩
  obtain ⟨qs, infos, p1, p2, p3⟩ := Props.C26_readdir_children_partial E (count := -1) hd hclean ⟨es, hp.good, rfl⟩
    (listable_mem hl ho h hp hc hne hrel hap hdis) (by decide)
  -- the children and their details
  have hkid : ∀ q ∈ qs, ∃ x e d, q = own c (es ++ [x]) ∧ fs (es ++ [x]) = some e ∧ Props.entry w q = some d ∧ d.name = x ∧
      d.isDir = e.isDir := by
    intro q hq
    obtain ⟨hst, hpk, xs, x, hx1, hx2, hx3⟩ := (p1.mem q).mp hq
    have e1 := GoPath.mk_injective hp.good (b := xs) (GoPath.good_append.mp hx1).1 hx2
    subst e1
    have eq : q = own c (es ++ [x]) := by cases q; simp only [own] at hpk hx3 ⊢; rw [hpk, hx3]
    subst eq
    obtain ⟨f, hf⟩ := stored_iff_lookup.mp hst
    have hr' := hrel.trans (List.prefix_append es [x])
    cases hfs : fs (es ++ [x]) with
    | none => exact absurd hfs (h.fs_of_lookup hx1 (by simp) hr' (by rw [hf]; simp))
    | some e =>
      obtain ⟨f, d, g1, g2, g3, g4, _⟩ := h.lookup_some hx1 (by simp) hr' hfs
      exact ⟨x, e, d, rfl, hfs, by simp [Props.entry, g1, g2], by rw [g3]; simp, g4⟩
  refine ⟨infos, p2, names_listing ?_ ?_⟩
  · have hpw : (infos.map some).Pairwise fun a b : Option Details => ∀ d d', a = some d → b = some d' → d.name ≠ d'.name := by
      rw [p3, List.pairwise_map]
      refine List.Pairwise.imp_of_mem ?_ p1.order
      intro a b ha hb hlt d d' h1 h2 he
      obtain ⟨x, e, dx, g1, _, g3, g4, _⟩ := hkid a ha
      obtain ⟨y, e', dy, k1, _, k3, k4, _⟩ := hkid b hb
      rw [h1] at g3
      rw [h2] at k3
      injection g3 with g3
      injection k3 with k3
      subst g3
      subst k3
      have : a = b := by rw [g1, k1, ← g4, ← k4, he]
      rw [this] at hlt
      exact lt_ne hlt rfl
    rw [List.pairwise_map] at hpw
    rw [List.Nodup, List.pairwise_map]
    exact hpw.imp fun h => h _ _ rfl rfl
  · intro x b
    constructor
    · rintro ⟨d, hd, h1, h2⟩
      have : some d ∈ qs.map (Props.entry w) := by rw [← p3]; exact List.mem_map_of_mem hd
      obtain ⟨q, hq, he⟩ := List.mem_map.mp this
      obtain ⟨y, e, d', g1, g2, g3, g4, g5⟩ := hkid q hq
      rw [he] at g3
      injection g3 with g3
      subst g3
      rw [← h1, g4]
      exact ⟨e, g2, by rw [← g5]; exact h2⟩
    · rintro ⟨e, h1, h2⟩
      have hgx := h.tree.good _ (by rw [h1]; simp : fs (es ++ [x]) ≠ none)
      obtain ⟨f, d, g1, g2, g3, g4, _⟩ := h.lookup_some hgx (by simp) (hrel.trans (List.prefix_append _ _)) h1
      have hq : own c (es ++ [x]) ∈ qs := (p1.mem _).mpr ⟨stored_iff_lookup.mpr ⟨f, g1⟩, rfl, es, x, hgx, rfl, rfl⟩
      have : some d ∈ infos.map some := by
        rw [p3]
        exact List.mem_map.mpr ⟨_, hq, by simp [Props.entry, g1, g2]⟩
      obtain ⟨d', hd', he⟩ := List.mem_map.mp this
      injection he with he
      subst he
      exact ⟨d', hd', by rw [g3]; simp, by rw [g4]; exact h2⟩

theorem lookup_removeAll {E : Env} {w : Mem.World} {name : Str} {pt : Path} (hp : E.parse w.here name = .ok pt) (q : Path) :
    lookup (Mem.removeAll E w name).1 q = if pt.name <+: q.name then none else lookup w q := by
  have hw : Mem.removeAll E w name =
      ({ w with files := w.files.filter fun e => !Str.hasPrefix e.1.name pt.name }, .ok ()) := by
    simp [Mem.removeAll, Mem.parse, hp]
  rw [hw]
  unfold lookup
  simp only
  rw [AMap.get_filter w.files (fun k => !Str.hasPrefix k.name pt.name)]
  by_cases h : pt.name <+: q.name
  · simp [h, (Str.hasPrefix_iff q.name pt.name).mpr h]
  · simp [h, (Str.hasPrefix_false_iff q.name pt.name).mpr h]

/-- In memory, what should be done is done, if it `Fits`. -/
theorem act_mem {E : Env} {c : Info} (hl : ParseLaws E c) (hi : InfoOk c) (hpk : c.importPath = c.module.path) {rel : List Str}
    (hrel : GoPath.Good rel) {fs fs' : Fs} {w : Mem.World} {a : Act} {o : Out} (h : InMem E c rel fs w) (hf : Fits c rel fs a)
    (hd : Does fs a fs' o) (hs : List Nat) :
    ∃ w' hs', mem E a.prog w hs = (w', hs', o) ∧ InMem E c rel fs' w' := by
  have htree := hd.tree h.tree hf.1.ne hf.1.plain.good
  have hwf := h.reached.inv.wf
  obtain ⟨⟨hne, hp, hc⟩, hr, hf⟩ := hf
  have hparse := h.parse hl hp hc
  have hg := hp.good
  have hfresh : ∀ q : Path, q = own c [] → ∃ es, Plain es ∧ Clear c (GoPath.mk es) ∧ q = own c es ∧
      (GoPath.mk rel <+: GoPath.mk es → rel <+: es) := fun q hq =>
    ⟨[], plain_nil, Props.clear_root hi, hq, root_not_beside hrel⟩
  have hother : ∀ es es', GoPath.Good es → GoPath.Good es' → es ≠ es' → own c es ≠ own c es' :=
    fun es es' h1 h2 h3 h4 => h3 (own_inj h1 h2 h4)
  cases hd with
  | put es chunks h1 h2 =>
    simp only [Act.elems] at hne hp hc hr hparse hg
    obtain ⟨cs, x, rfl⟩ := good_snoc_of_ne hne
    rw [List.dropLast_concat] at h1
    have hgc := (GoPath.good_append.mp hg).1
    have hpar : cs = [] ∨ Stored w (own c cs) := by
      by_cases h0 : cs = []
      · exact Or.inl h0
      · right
        have hrc : rel <+: cs := by
          rcases List.prefix_concat_iff.mp hr with h' | h'
          · exact absurd h'.symm hf.1
          · exact h'
        obtain ⟨f, d, g1, _⟩ := h.lookup_some hgc h0 hrc h1
        exact stored_iff_lookup.mpr ⟨f, g1⟩
    obtain ⟨w', hs', k1, k2, k3, k4⟩ := put_mem hl hi hpk h.reached hp hc hpar chunks hs
    refine ⟨w', hs', k1, h.changed k2 htree ?_ ?_⟩
    · intro es' g1 g2 g3
      simp only [Fs.set]
      by_cases he : es' = cs ++ [x]
      · subst he; rw [if_pos rfl]; simpa using k3
      · rw [if_neg he]
        exact (h.has es' g1 g2 g3).congr (k4 _ (hother _ _ g1 (by intro x hx; cases hx) g2) (hother _ _ g1 hg he))
    · intro q _ q2 q3
      by_cases e1 : q = own c []
      · exact hfresh q e1
      by_cases e2 : q = own c (cs ++ [x])
      · exact ⟨_, hp, hc, e2, fun _ => hr⟩
      · rw [k4 q e1 e2] at q2; exact absurd q3 q2
  | putFails es chunks h1 =>
    simp only [Act.elems] at hne hp hc hr hparse hg
    obtain ⟨cs, x, rfl⟩ := good_snoc_of_ne hne
    simp only [List.dropLast_concat] at h1 hf
    have hgc := (GoPath.good_append.mp hg).1
    have hnone : fs cs = none := by
      cases he : fs cs with
      | none => rfl
      | some e =>
        exfalso
        cases e with
        | dir =>
          rcases h1 with h1 | h1
          · exact h1 he
          · exact hf.2.2 h1
        | file b => exact hf.2.1 b he
    have hcs : cs ≠ [] := by rintro rfl; rw [h.tree.root] at hnone; cases hnone
    have hrc : rel <+: cs := by
      rcases List.prefix_concat_iff.mp hr with h' | h'
      · exact absurd h'.symm hf.1
      · exact h'
    have hfail : ∀ id, (Mem.create E w (GoPath.mk (cs ++ [x]))).2 ≠ .ok id := by
      intro id he
      have hcr : create E w (GoPath.mk (cs ++ [x])) = ((create E w (GoPath.mk (cs ++ [x]))).1, .ok id) := by rw [← he]
      have hclean : GoPath.clean (GoPath.mk (cs ++ [x])) = GoPath.mk (cs ++ [x]) := by
        rw [(ordinary_mk hp.ord hc).clean, GoPath.rootedElems_mk hg]
      have := Props.create_parent E (w := w) (by rw [h.reached.here]; exact hl) (by rw [h.reached.here]; exact hi) hwf
        (by rw [h.reached.here]; exact ordinary_mk hp.ord hc) (parent := own c cs)
        ⟨by rw [h.reached.here]; rfl, cs, x, hg, rfl, hclean⟩ hcr
      rcases this with h' | h'
      · rw [h.reached.here] at h'
        exact hcs (own_inj hgc (by intro x hx; cases hx) h')
      · obtain ⟨f, hf'⟩ := stored_iff_lookup.mp h'
        rw [h.lookup_none hgc hcs hrc hnone] at hf'
        cases hf'
    have hr' : Reached E c (Mem.create E w (GoPath.mk (cs ++ [x]))).1 :=
      h.reached.step (o := .create (GoPath.mk (cs ++ [x]))) trivial
    have hfr : ∀ q, q ≠ own c [] → lookup (Mem.create E w (GoPath.mk (cs ++ [x]))).1 q = lookup w q := fun q hq =>
      Props.create_err_frame E (by rw [h.reached.here]; exact hl) (by rw [h.reached.here]; exact hi) hwf
        (by rw [h.reached.here]; exact hq) hfail
    refine ⟨(Mem.create E w (GoPath.mk (cs ++ [x]))).1, hs, ?_, h.changed hr' h.tree ?_ ?_⟩
    · have hcall : memCall E w hs (.create (GoPath.mk (cs ++ [x]))) = gotMem hs (Mem.create E w (GoPath.mk (cs ++ [x]))) := rfl
      simp only [Act.prog, Script.mem, hcall]
      revert hfail
      generalize Mem.create E w (GoPath.mk (cs ++ [x])) = r
      obtain ⟨w1, r1⟩ := r
      intro hfail
      cases r1 with
      | ok id => exact absurd rfl (hfail id)
      | err e => rfl
      | panic => rfl
    · intro es' g1 g2 g3
      exact (h.has es' g1 g2 g3).congr (hfr _ (hother _ _ g1 (by intro x hx; cases hx) g2))
    · intro q _ q2 q3
      by_cases e1 : q = own c []
      · exact hfresh q e1
      · rw [hfr q e1] at q2; exact absurd q3 q2
  | get es sizes b h1 =>
    simp only [Act.elems] at hne hp hc hr hparse hg
    obtain ⟨f, d, g1, g2, g3, g4, g5⟩ := h.lookup_some hg hne hr h1
    have hb : b ≠ [] := by rintro rfl; exact hf.1 h1
    have hop := open_mem hparse g1 g2 hs
    have hr1 : Reached E c (alloc w (openedObj f d)).1 := by
      have := h.reached.step (o := .openFile (GoPath.mk es)) trivial
      have e := congrArg Prod.fst hop
      simp only [memCall] at e
      have e2 : ∀ r : Mem.World × Res Nat, (gotMem hs r).1 = r.1 := by
        rintro ⟨w1, r1⟩; cases r1 <;> rfl
      rw [e2] at e
      rw [← e]; exact this
    have hobj : (alloc w (openedObj f d)).1.heap w.next = openedObj f d := by simp [alloc]
    obtain ⟨f1, k1, k2, k3⟩ := readAll_mem (E := E) (c := c) (hs := hs ++ [w.next]) (k := hs.length) (getElem?_snoc _ _) (b := b)
      sizes (alloc w (openedObj f d)).1 0 hr1 hf.2.1 (by
        rw [hobj]
        have hbb : (openedObj f d).bytes = b := g5
        have : 0 < (openedObj f d).bytes.length := by rw [hbb]; exact List.length_pos_iff.mpr hb
        simp only [ensureReader]
        have hr0 : (openedObj f d).reader = none := rfl
        rw [hr0]
        rw [if_pos this, hbb]
        rfl) (Nat.zero_le _) (by simpa using hf.2.2 b h1)
    have hcl := close_mem (E := E) (k := hs.length) (hs := hs ++ [w.next]) (getElem?_snoc _ _)
      (w := setObj (alloc w (openedObj f d)).1 w.next f1) (by rw [setObj_heap, k2, hobj]; simp [openedObj])
    rw [setObj_setObj, setObj_heap] at hcl
    have hr3 := k3.step (o := .close w.next) trivial
    have hw3 : Mem.step E (setObj (alloc w (openedObj f d)).1 w.next f1) (.close w.next) =
        setObj (alloc w (openedObj f d)).1 w.next (closeObj (setObj (alloc w (openedObj f d)).1 w.next f1).now f1) := by
      have := congrArg Prod.fst hcl
      simp only [memCall, withMem, getElem?_snoc] at this
      exact this
    rw [hw3] at hr3
    rw [List.take_zero] at k1
    refine ⟨_, hs ++ [w.next], ?_, h.handle hr3⟩
    simp only [Act.prog, Script.mem, hop, mem_bind, k1, hcl, mem_pure]
  | getFails es sizes h1 =>
    simp only [Act.elems] at hne hp hc hr hparse hg
    cases he : fs es with
    | none =>
      have hop := open_mem_none hparse (h.lookup_none hg hne hr he) hs
      refine ⟨w, hs, ?_, h⟩
      simp only [Act.prog, Script.mem, hop, mem_pure]
    | some e =>
      cases e with
      | file b => exact absurd he (h1 b)
      | dir =>
        obtain ⟨f, d, g1, g2, g3, g4, g5⟩ := h.lookup_some hg hne hr he
        have hop := open_mem hparse g1 g2 hs
        have hr1 : Reached E c (alloc w (openedObj f d)).1 := by
          have := h.reached.step (o := .openFile (GoPath.mk es)) trivial
          have e := congrArg Prod.fst hop
          simp only [memCall] at e
          have e2 : ∀ r : Mem.World × Res Nat, (gotMem hs r).1 = r.1 := by
            rintro ⟨w1, r1⟩; cases r1 <;> rfl
          rw [e2] at e
          rw [← e]; exact this
        have hobj : (alloc w (openedObj f d)).1.heap w.next = openedObj f d := by simp [alloc]
        obtain ⟨f1, k1, k2, k3⟩ := readAll_mem_none (E := E) (c := c) (hs := hs ++ [w.next]) (k := hs.length) (getElem?_snoc _ _)
          sizes (alloc w (openedObj f d)).1 [] hr1 (by rw [hobj]; rfl) (by rw [hobj]; exact g5)
        have hcl := close_mem (E := E) (k := hs.length) (hs := hs ++ [w.next]) (getElem?_snoc _ _)
          (w := setObj (alloc w (openedObj f d)).1 w.next f1) (by rw [setObj_heap, k2, hobj]; simp [openedObj])
        rw [setObj_setObj, setObj_heap] at hcl
        have hr3 := k3.step (o := .close w.next) trivial
        have hw3 : Mem.step E (setObj (alloc w (openedObj f d)).1 w.next f1) (.close w.next) =
            setObj (alloc w (openedObj f d)).1 w.next (closeObj (setObj (alloc w (openedObj f d)).1 w.next f1).now f1) := by
          have := congrArg Prod.fst hcl
          simp only [memCall, withMem, getElem?_snoc] at this
          exact this
        rw [hw3] at hr3
        refine ⟨_, hs ++ [w.next], ?_, h.handle hr3⟩
        simp only [Act.prog, Script.mem, hop, mem_bind, k1, hcl, mem_pure]
  | mkdirAll es perm h1 =>
    simp only [Act.elems] at hne hp hc hr hparse hg
    have hrel' : GoPath.rootedElems (GoPath.mk es) = es := GoPath.rootedElems_mk hg
    obtain ⟨m1, m2, m3⟩ := mkdirAll_spec (w := w) (by rw [h.reached.here]; exact hl) hwf
      (s := GoPath.mk es) (by rw [h.reached.here]; exact ordinary_mk hp.ord hc) perm
    rw [hrel', h.reached.here] at m2 m3
    have hr' : Reached E c (Mem.mkdirAll E w (GoPath.mk es) perm).1 := h.reached.step (o := .mkdirAll (GoPath.mk es) perm) trivial
    have hfr : ∀ q, (¬ ∃ as, as <+: es ∧ q = own c as) → lookup (Mem.mkdirAll E w (GoPath.mk es) perm).1 q = lookup w q := by
      intro q hq
      refine lookup_mkdirAll E hwf perm fun hch => hq ?_
      rw [h.reached.here] at hch
      obtain ⟨as, e1, _, e2⟩ := m3 q hch
      exact ⟨as, e1, e2⟩
    have hgood : ∀ {as}, as <+: es → GoPath.Good as := by
      rintro as ⟨t, rfl⟩; exact (GoPath.good_append.mp hg).1
    refine ⟨(Mem.mkdirAll E w (GoPath.mk es) perm).1, hs, ?_, h.changed hr' htree ?_ ?_⟩
    · simp only [Act.prog, Script.mem, memCall, m1, mem_pure, Ans.good]
    · intro es' g1 g2 g3
      simp only [Fs.mkdirs]
      by_cases he : es' <+: es
      · rw [if_pos he]
        obtain ⟨f, k1, k2, k3⟩ := m2 es' he (Or.inl g2)
        exact ⟨f, _, k1, k2, rfl, rfl, by simp [FileObj.bytes, k3, Entry.bytes]⟩
      · rw [if_neg he]
        refine (h.has es' g1 g2 g3).congr (hfr _ ?_)
        rintro ⟨as, e1, e2⟩
        exact he (own_inj g1 (hgood e1) e2 ▸ e1)
    · intro q _ q2 q3
      by_cases he : ∃ as, as <+: es ∧ q = own c as
      · obtain ⟨as, e1, e2⟩ := he
        refine ⟨as, ?_, clear_of_prefix e1 hc, e2, on_way hg e1 hr⟩
        obtain ⟨t, rfl⟩ := e1
        exact (plain_append.mp hp).1
      · rw [hfr q he] at q2; exact absurd q3 q2
  | mkdirAllFails es perm h1 => exact absurd h1 hf
  | stat es =>
    simp only [Act.elems] at hne hp hc hr hparse hg
    refine ⟨w, hs, ?_, h⟩
    cases he : fs es with
    | none =>
      have hlk := h.lookup_none hg hne hr he
      unfold lookup at hlk
      cases hgt : AMap.get w.files (own c es) with
      | some j => rw [hgt] at hlk; cases hlk
      | none => simp only [Act.prog, Script.mem, memCall, Mem.stat, Mem.parse, hparse, hgt, mem_pure, Option.map_none]
    | some e =>
      obtain ⟨f, d, g1, g2, g3, g4, g5⟩ := h.lookup_some hg hne hr he
      unfold lookup at g1
      cases hgt : AMap.get w.files (own c es) with
      | none => rw [hgt] at g1; cases g1
      | some j =>
        rw [hgt] at g1
        simp only [Option.map_some, Option.some.injEq] at g1
        have habout : about d = e.about := by
          unfold about Entry.about
          rw [g4]
          cases e with
          | dir => rfl
          | file b =>
            have := (h.reached.inv.heap j).size d (by rw [g1]; exact g2) g4
            rw [g1, g5] at this
            simp [Entry.isDir, this, Entry.bytes]
        simp only [Act.prog, Script.mem, memCall, Mem.stat, Mem.parse, hparse, hgt, fileStat, g1, g2, Client.detailsOf, mem_pure,
          Option.map_some, habout]
  | list es l h1 h2 =>
    simp only [Act.elems] at hne hp hc hr hparse hg
    obtain ⟨f, d, g1, g2, g3, g4, g5⟩ := h.lookup_some hg hne hr h1
    have hop := open_mem hparse g1 g2 hs
    have hstep : Mem.step E w (.openFile (GoPath.mk es)) = (alloc w (openedObj f d)).1 := by
      have e := congrArg Prod.fst hop
      simp only [memCall] at e
      have e2 : ∀ r : Mem.World × Res Nat, (gotMem hs r).1 = r.1 := by
        rintro ⟨w1, r1⟩; cases r1 <;> rfl
      rw [e2] at e
      exact e
    have hr1 : Reached E c (alloc w (openedObj f d)).1 := by
      rw [← hstep]; exact h.reached.step (o := .openFile (GoPath.mk es)) trivial
    have hobj : (alloc w (openedObj f d)).1.heap w.next = openedObj f d := by simp [alloc]
    have hpath : f.path = own c es := by
      unfold lookup at g1
      cases hgt : AMap.get w.files (own c es) with
      | none => rw [hgt] at g1; cases g1
      | some j =>
        rw [hgt] at g1
        simp only [Option.map_some, Option.some.injEq] at g1
        rw [← g1]; exact (hwf.bound _ _ hgt).2.1
    have h' : InMem E c rel fs (alloc w (openedObj f d)).1 := h.same hr1 fun q => lookup_alloc hwf _ q
    have hdh : Props.DirHandle E c (alloc w (openedObj f d)).1 w.next (own c es) := by
      refine ⟨?_, by rw [hobj]; exact hpath, Or.inr ?_⟩
      · rw [← hstep]
        exact h.reached.held (o := .openFile (GoPath.mk es)) trivial (Nat.le_refl _) (by rw [hstep]; simp [alloc])
      · rw [hobj]; simp [openedObj, Path.zero, own, GoPath.mk]
    obtain ⟨infos, k1, k2⟩ := readdir_mem hl hi h' hp hc hne hr hf.2.1 hf.2.2 hdh
    have hcl := close_mem (E := E) (k := hs.length) (hs := hs ++ [w.next]) (getElem?_snoc _ _)
      (w := (alloc w (openedObj f d)).1) (by rw [hobj]; simp [openedObj])
    have hr3 := hr1.step (o := .close w.next) trivial
    have hw3 : Mem.step E (alloc w (openedObj f d)).1 (.close w.next) =
        setObj (alloc w (openedObj f d)).1 w.next (closeObj (alloc w (openedObj f d)).1.now ((alloc w (openedObj f d)).1.heap w.next)) := by
      have := congrArg Prod.fst hcl
      simp only [memCall, withMem, getElem?_snoc] at this
      exact this
    rw [hw3] at hr3
    have hrd : memCall E (alloc w (openedObj f d)).1 (hs ++ [w.next]) (.readdir hs.length (-1)) =
        ((alloc w (openedObj f d)).1, hs ++ [w.next], .entries (.ok infos)) := by
      simp only [memCall, withMem, getElem?_snoc, k1]
    refine ⟨_, hs ++ [w.next], ?_, h.handle hr3⟩
    simp only [Act.prog, Script.mem, hop, hrd, hcl, mem_pure]
    rw [listing_unique k2 h2]
  | listFails es h1 =>
    simp only [Act.elems] at hne hp hc hr hparse hg
    have he : fs es = none := by
      cases he : fs es with
      | none => rfl
      | some e =>
        cases e with
        | dir => exact absurd he h1
        | file b => exact absurd he (hf.1 b)
    have hop := open_mem_none hparse (h.lookup_none hg hne hr he) hs
    refine ⟨w, hs, ?_, h⟩
    simp only [Act.prog, Script.mem, hop, mem_pure]
  | remove es h1 h2 =>
    simp only [Act.elems] at hne hp hc hr hparse hg
    cases he : fs es with
    | none => exact absurd he h1
    | some e =>
      obtain ⟨f, d, g1, _⟩ := h.lookup_some hg hne hr he
      unfold lookup at g1
      cases hgt : AMap.get w.files (own c es) with
      | none => rw [hgt] at g1; cases g1
      | some j =>
        have hrm : Mem.remove E w (GoPath.mk es) = ({ w with files := AMap.erase w.files (own c es) }, .ok ()) := by
          simp only [Mem.remove, Mem.parse, hparse, hgt]
        have hr' : Reached E c { w with files := AMap.erase w.files (own c es) } := by
          have := h.reached.step (o := .remove (GoPath.mk es)) trivial
          simp only [Mem.step, hrm] at this
          exact this
        have hlk : ∀ q, lookup { w with files := AMap.erase w.files (own c es) } q = if q = own c es then none else lookup w q := by
          intro q
          unfold lookup
          simp only
          by_cases hq : q = own c es
          · subst hq; simp
          · rw [if_neg hq, AMap.get_erase_ne _ hq]
        refine ⟨_, hs, ?_, h.changed hr' htree ?_ ?_⟩
        · simp only [Act.prog, Script.mem, memCall, hrm, mem_pure, Ans.good]
        · intro es' k1 k2 k3
          simp only [Fs.unset]
          by_cases heq : es' = es
          · subst heq; rw [if_pos rfl]; exact (hlk _).trans (if_pos rfl)
          · rw [if_neg heq]
            exact (h.has es' k1 k2 k3).congr ((hlk _).trans (if_neg (hother _ _ k1 hg heq)))
        · intro q _ q2 q3
          rw [hlk q] at q2
          split at q2
          · exact absurd rfl q2
          · exact absurd q3 q2
  | removeFails es h1 =>
    simp only [Act.elems] at hne hp hc hr hparse hg
    have he : fs es = none := by
      rcases h1 with h1 | h1
      · exact h1
      · exact absurd h1 hf
    have hlk := h.lookup_none hg hne hr he
    unfold lookup at hlk
    refine ⟨w, hs, ?_, h⟩
    cases hgt : AMap.get w.files (own c es) with
    | some j => rw [hgt] at hlk; cases hlk
    | none => simp only [Act.prog, Script.mem, memCall, Mem.remove, Mem.parse, hparse, hgt, mem_pure, Ans.good]
  | removeAll es h1 =>
    simp only [Act.elems] at hne hp hc hr hparse hg
    have hok : (Mem.removeAll E w (GoPath.mk es)).2 = .ok () := by simp [Mem.removeAll, Mem.parse, hparse]
    have hlk := lookup_removeAll hparse
    have hr' : Reached E c (Mem.removeAll E w (GoPath.mk es)).1 := h.reached.step (o := .removeAll (GoPath.mk es)) trivial
    refine ⟨(Mem.removeAll E w (GoPath.mk es)).1, hs, ?_, h.changed hr' htree ?_ ?_⟩
    · simp only [Act.prog, Script.mem, memCall, hok, mem_pure, Ans.good]
    · intro es' k1 k2 k3
      simp only [Fs.prune]
      by_cases hpre : GoPath.mk es <+: GoPath.mk es'
      · have hnone : lookup (Mem.removeAll E w (GoPath.mk es)).1 (own c es') = none := (hlk _).trans (if_pos hpre)
        by_cases hin : es <+: es'
        · rw [if_pos hin]; exact hnone
        · rw [if_neg hin]
          have : fs es' = none := by
            cases he : fs es' with
            | none => rfl
            | some e => exact absurd (hf.2 es' k3 (by rw [he]; simp) hpre) hin
          rw [this]; exact hnone
      · rw [if_neg fun h' => hpre (mk_prefix_of h')]
        exact (h.has es' k1 k2 k3).congr ((hlk _).trans (if_neg hpre))
    · intro q _ q2 q3
      rw [hlk q] at q2
      split at q2
      · exact absurd rfl q2
      · exact absurd q3 q2
  | removeAllFails es h1 => exact absurd h1 hf.1

end Script
end Verif
