import Verif.Lemmas.Http
import Verif.Props.Readers
import Verif.Spec.Site

/-! C72 - C75: serving files over HTTP. -/

namespace Verif
namespace Props

open Mem Client Spec Http
open Site (rootedPath RangesOk slice contentAnswer)

/-- The directory `/d₁/.../dₙ` of module `m` is served: through a handle of it, the program's first, or as `pkger.Dir`
with a name of it.  `hi` is what the directory's entry knows of its package. -/
def Serving (E : Env) (i : Info) (w : World) (hs : List Nat) (m : Str) (ds : List Str) (hi : Info) : Source → Prop
  | .handle => ∃ id, hs[0]? = some id ∧ (w.heap id).here = hi ∧ Root E i w id m ds
  | .dir d => Reached E i w ∧ E.parse i d = .ok ⟨m, GoPath.mk ds⟩ ∧ Plain ds ∧ PlainPkg m ∧ ParseLaws E i ∧
      ParseLaws E hi ∧ hi.module.path = m ∧
      ∃ f dd, lookup w ⟨m, GoPath.mk ds⟩ = some f ∧ f.info = some dd ∧ dd.isDir = true ∧ f.here = hi

/-- The request asks for `/c₁/.../cₙ`, relative to the served directory: plain elements, not under the module's own
directory on disk, and not the served directory's own path. -/
structure Wanted (i hi : Info) (ds cs : List Str) : Prop where
  plain : Plain cs
  clear : Clear i (GoPath.mk (ds ++ cs))
  clearHere : Clear hi (GoPath.mk cs)
  own : cs = [] ∨ cs ≠ ds

/-- Some opens later. -/
structure Later (E : Env) (w w' : World) : Prop where
  grows : Grows w w'
  ops : ∃ ops : List Op, (∀ o ∈ ops, o.HostOk) ∧ w' = run E w ops

theorem Later.refl (E : Env) (w : World) : Later E w w := ⟨Grows.refl w, [], by simp, rfl⟩

theorem Later.trans {E : Env} {w w' w'' : World} (h : Later E w w') (h' : Later E w' w'') : Later E w w'' := by
  refine ⟨h.grows.trans h'.grows, ?_⟩
  obtain ⟨a, h1, h2⟩ := h.ops
  obtain ⟨b, h3, h4⟩ := h'.ops
  refine ⟨a ++ b, ?_, by rw [run_append, ← h2, ← h4]⟩
  intro o ho
  rcases List.mem_append.mp ho with ho | ho
  · exact h1 o ho
  · exact h3 o ho

theorem Later.held {E : Env} {w w' : World} (h : Later E w w') {i : Info} {id : Nat} (hh : Held E i w id) :
    Held E i w' id := by
  obtain ⟨a, h1, rfl⟩ := h.ops
  exact hh.run a h1

theorem Later.reached {E : Env} {w w' : World} (h : Later E w w') {i : Info} (hh : Reached E i w) : Reached E i w' := by
  obtain ⟨a, h1, rfl⟩ := h.ops
  exact hh.run a h1

theorem later_fileOpen (E : Env) (w : World) (id : Nat) (name : Str) : Later E w (fileOpen E w id name).1 :=
  ⟨grows_fileOpen E w id name, [.fileOpen id name], by intro o ho; simp at ho; subst ho; trivial, rfl⟩

theorem later_openFile (E : Env) (w : World) (name : Str) : Later E w (Mem.openFile E w name).1 :=
  ⟨grows_openFile E w name, [.openFile name], by intro o ho; simp at ho; subst ho; trivial, rfl⟩

theorem Serving.reached {E : Env} {i : Info} {w : World} {hs : List Nat} {m : Str} {ds : List Str} {hi : Info}
    {src : Source} (h : Serving E i w hs m ds hi src) : Reached E i w := by
  cases src with
  | handle => obtain ⟨_, _, _, h⟩ := h; exact h.dir.held.reached
  | dir d => exact h.1

theorem Serving.later {E : Env} {i : Info} {w w' : World} {hs hs' : List Nat} {m : Str} {ds : List Str} {hi : Info}
    {src : Source} (h : Serving E i w hs m ds hi src) (hl : Later E w w')
    (hk : ∀ (j x : Nat), hs[j]? = some x → hs'[j]? = some x) : Serving E i w' hs' m ds hi src := by
  have hwf := h.reached.inv.wf
  cases src with
  | handle =>
    obtain ⟨id, h1, h2, h3⟩ := h
    exact ⟨id, hk 0 id h1, by rw [hl.grows.heap id h3.dir.held.lt]; exact h2, h3.grow hl.grows (hl.held h3.dir.held)⟩
  | dir d =>
    obtain ⟨h1, h2, h3, h4, h5, h6, h7, f, dd, h8, h9⟩ := h
    exact ⟨hl.reached h1, h2, h3, h4, h5, h6, h7, f, dd, by rw [hl.grows.lookup hwf]; exact h8, h9⟩

/-- What is known after a successful open. -/
structure Opened (E : Env) (i : Info) (w w' : World) (hs hs' : List Nat) (k h : Nat) (q : Path) (f : FileObj)
    (d : Details) : Prop where
  at_ : hs'[k]? = some h
  info : (w'.heap h).info = some d
  file : d.isDir = false → AtPos (w'.heap h) f.bytes 0
  dir : d.isDir = true → DirHandle E i w' h q

theorem snoc_keeps {hs : List Nat} (x : Nat) : ∀ (j y : Nat), hs[j]? = some y → (hs ++ [x])[j]? = some y := by
  intro j y h
  rw [getElem?_snoc]
  exact Or.inl h

theorem exec_openIn (E : Env) {w : World} {hs : List Nat} {k id : Nat} (h : hs[k]? = some id) (name : Str) :
    (Client.openIn k name).exec E w hs =
      ((fileOpen E w id name).1, match (fileOpen E w id name).2 with
        | .ok h => (hs ++ [h], .ok hs.length)
        | .err e => (hs, .err e)
        | .panic => (hs, .panic)) := by
  simp only [Client.openIn, Prog.exec, call, withHandle, h]
  generalize fileOpen E w id name = m
  obtain ⟨w', r⟩ := m
  cases r <;> rfl

theorem openIn_root (E : Env) {i : Info} {w : World} {hs : List Nat} {k0 id : Nat} {m : Str} {ds cs : List Str}
    (hk : hs[k0]? = some id) (hroot : Root E i w id m ds) (ha : Wanted i (w.heap id).here ds cs) :
    ∃ w' hs' r, (Client.openIn k0 (GoPath.mk cs)).exec E w hs = (w', hs', r) ∧ Later E w w' ∧
      (∀ (j x : Nat), hs[j]? = some x → hs'[j]? = some x) ∧
      (¬ Stored w ⟨m, GoPath.mk (ds ++ cs)⟩ → r = .err .notExist) ∧
      (∀ f d, lookup w ⟨m, GoPath.mk (ds ++ cs)⟩ = some f → f.info = some d →
        ∃ k h, r = .ok k ∧ Opened E i w w' hs hs' k h ⟨m, GoPath.mk (ds ++ cs)⟩ f d) := by
  obtain ⟨h1, h2⟩ := fileOpen_root E hroot ⟨ha.plain, ha.clear, ha.clearHere, ha.own⟩ (cs := cs)
  have hl := later_fileOpen E w id (GoPath.mk cs)
  rw [exec_openIn E hk]
  revert h1 h2 hl
  generalize fileOpen E w id (GoPath.mk cs) = mm
  obtain ⟨w', r⟩ := mm
  intro h1 h2 hl
  simp only at h1 h2 hl ⊢
  cases r with
  | ok h =>
    refine ⟨w', hs ++ [h], .ok hs.length, rfl, hl, snoc_keeps h, ?_, ?_⟩
    · intro hns; cases h1 hns
    · intro f d hf hfd
      obtain ⟨w'', h', e1, _, _, e4, e5, e6⟩ := h2 f d hf hfd
      simp only [Prod.mk.injEq, Res.ok.injEq] at e1
      obtain ⟨rfl, rfl⟩ := e1
      exact ⟨hs.length, h, rfl, by rw [getElem?_snoc]; exact Or.inr ⟨rfl, rfl⟩, e4, e5, e6⟩
  | err e =>
    refine ⟨w', hs, .err e, rfl, hl, fun _ _ h => h, ?_, ?_⟩
    · intro hns; have := h1 hns; simpa using this
    · intro f d hf hfd
      obtain ⟨w'', h', e1, _⟩ := h2 f d hf hfd
      cases e1
  | panic =>
    refine ⟨w', hs, .panic, rfl, hl, fun _ _ h => h, ?_, ?_⟩
    · intro hns; cases h1 hns
    · intro f d hf hfd
      obtain ⟨w'', h', e1, _⟩ := h2 f d hf hfd
      cases e1

/-- Opening through what is served. -/
theorem openBy_spec (E : Env) {i : Info} {w : World} {hs : List Nat} {m : Str} {ds cs : List Str} {hi : Info}
    {src : Source} (hsv : Serving E i w hs m ds hi src) (ha : Wanted i hi ds cs) :
    ∃ w' hs' r, (openBy src (GoPath.mk cs)).exec E w hs = (w', hs', r) ∧ Later E w w' ∧
      (∀ (j x : Nat), hs[j]? = some x → hs'[j]? = some x) ∧
      (¬ Stored w ⟨m, GoPath.mk (ds ++ cs)⟩ → r = .err .notExist) ∧
      (∀ f d, lookup w ⟨m, GoPath.mk (ds ++ cs)⟩ = some f → f.info = some d →
        ∃ k h, r = .ok k ∧ Opened E i w w' hs hs' k h ⟨m, GoPath.mk (ds ++ cs)⟩ f d) := by
  cases src with
  | handle =>
    obtain ⟨id, h1, h2, h3⟩ := hsv
    subst h2
    exact openIn_root E h1 h3 ha
  | dir d =>
    obtain ⟨hr, hp, hpl, hpk, hl, hl', hm, f0, d0, hf0, hd0, hdir0, hh0⟩ := hsv
    have hwf := hr.inv.wf
    have hhere := hr.here
    subst hhere
    obtain ⟨w1, h, ho, hobj⟩ := openFile_of_lookup hp hf0 hd0
    have hlat : Later E w w1 := by have := later_openFile E w d; rw [ho] at this; exact this
    have hnext := openFile_ok ho
    obtain ⟨pt, i0, dd, q1, q2, q3, q4, q5⟩ := hnext
    have hpath : f0.path = ⟨m, GoPath.mk ds⟩ := by
      unfold lookup at hf0
      cases hg : AMap.get w.files ⟨m, GoPath.mk ds⟩ with
      | none => rw [hg] at hf0; cases hf0
      | some j =>
        rw [hg] at hf0
        simp only [Option.map_some, Option.some.injEq] at hf0
        rw [← hf0]
        exact (hwf.bound _ j hg).2.1
    have hlook : lookup w1 ⟨m, GoPath.mk ds⟩ = some f0 := by rw [hlat.grows.lookup hwf]; exact hf0
    have hstep : step E w (.openFile d) = w1 := by simp [step, ho]
    have hheld : Held E w.here w1 h := by
      rw [← hstep]
      refine hr.held (o := .openFile d) trivial (by rw [q4]; exact Nat.le_refl _) ?_
      rw [hstep, q5, q4]
      simp [alloc]
    have hroot : Root E w.here w1 h m ds := by
      refine ⟨⟨hheld, by rw [hobj]; exact hpath, Or.inr ?_⟩, by rw [hobj]; simpa [openedObj, hh0] using hm,
        ⟨d0, by rw [hobj]; rfl, ⟨f0, hlook, hd0⟩, hdir0⟩, hpl, hpk, hl, by rw [hobj]; simpa [openedObj, hh0] using hl'⟩
      rw [hobj]
      simp [openedObj, Path.zero, GoPath.mk]
    have hwant : Wanted w.here (w1.heap h).here ds cs := by
      have : (w1.heap h).here = hi := by rw [hobj]; exact hh0
      rw [this]; exact ha
    obtain ⟨w', hs', r, e1, e2, e3, e4, e5⟩ := openIn_root E (hs := hs ++ [h]) (k0 := hs.length)
      (by rw [getElem?_snoc]; exact Or.inr ⟨rfl, rfl⟩) hroot hwant
    refine ⟨w', hs', r, ?_, hlat.trans e2, fun j x hj => e3 j x (snoc_keeps h j x hj), ?_, ?_⟩
    · have hex : (Client.openFile d).exec E w hs = (w1, hs ++ [h], .ok hs.length) := by
        simp [Client.openFile, Prog.exec, call, obtained, ho]
      simp only [openBy, Prog.exec_bind, hex]
      exact e1
    · intro hns
      exact e4 (fun hst => hns ((hlat.grows.stored _).mp hst))
    · intro f d' hf hfd
      obtain ⟨k, hh, e6, e7⟩ := e5 f d' (by rw [hlat.grows.lookup hwf]; exact hf) hfd
      exact ⟨k, hh, e6, e7.1, e7.2, e7.3, e7.4⟩

/-! ### The content of a file -/

theorem body_exec (E : Env) {S : Server} (hS : S.Ok) {r : Request} {w : World} {hs : List Nat} {k id : Nat}
    (hk : hs[k]? = some id) {content : Str} {pos n : Int} (h : AtPos (w.heap id) content pos) (hn : 0 ≤ n)
    (hle : pos + n ≤ content.length) :
    ((body S r k n).exec E w hs).2.2 = if r.head then [] else slice content (pos, n) := by
  unfold body
  by_cases hh : r.head = true
  · simp [hh]
  · have hn' : ((n.toNat : Nat) : Int) = n := by omega
    obtain ⟨w', e, _⟩ := copyN_exec E hS hk n.toNat n.toNat h (Nat.le_refl _) (by omega)
    simp only [hh, Bool.false_eq_true, if_false]
    rw [e]
    rfl

theorem sendContent_exec (E : Env) {S : Server} (hS : S.Ok) {r : Request} {w : World} {hs : List Nat} {k id : Nat}
    (hk : hs[k]? = some id) {content : Str} (h : AtPos (w.heap id) content 0) {d : Details}
    (hsize : d.size = content.length) {rs : List (Int × Int)} (hrs : r.ranges d.modTime d.size = .ok rs)
    (hok : RangesOk content.length rs) :
    ((sendContent S r k d).exec E w hs).2.2 =
      contentAnswer r.head content (if total rs > content.length then [] else rs) := by
  unfold sendContent
  rw [hrs]
  simp only [hsize]
  have hall : RangesOk content.length (if total rs > content.length then [] else rs) := by
    split
    · intro r hr; cases hr
    · exact hok
  revert hall
  generalize (if total rs > (content.length : Int) then [] else rs) = l
  intro hall
  match l, hall with
  | [], _ =>
    simp only [Prog.exec_bind, Prog.exec_pure, contentAnswer]
    rw [body_exec E hS hk h (by omega) (by omega)]
    simp [slice]
  | [(s, n)], hall =>
    obtain ⟨h1, h2, h3⟩ := hall (s, n) (by simp)
    simp only at h1 h2 h3
    obtain ⟨e1, e2⟩ := seek_atPos h h1 (by omega)
    simp only [Prog.exec_bind, exec_seekStart E hk, e2, contentAnswer, Prog.exec_pure]
    rw [body_exec E hS hk e1 h2 h3]
  | a :: b :: l, hall =>
    simp only [contentAnswer]
    by_cases hh : r.head = true
    · simp [hh]
    · obtain ⟨w', e⟩ := copyParts_exec E hS hk (a :: b :: l) h hall
      simp only [hh, Bool.false_eq_true, if_false, Prog.exec_bind, e, Prog.exec_pure]
      rfl

theorem serveContent_exec (E : Env) {S : Server} (hS : S.Ok) {r : Request} {w : World} {hs : List Nat} {k id : Nat}
    (hk : hs[k]? = some id) {content : Str} (h : AtPos (w.heap id) content 0) {d : Details}
    (hsize : d.size = content.length) (hcond : r.cond d.modTime = none) {rs : List (Int × Int)}
    (hrs : r.ranges d.modTime d.size = .ok rs) (hok : RangesOk content.length rs) :
    ((serveContent S r k d).exec E w hs).2.2 =
      contentAnswer r.head content (if total rs > content.length then [] else rs) := by
  unfold serveContent
  rw [hcond]
  simp only
  by_cases ht : S.typed d.name = true
  · rw [if_pos ht]; exact sendContent_exec E hS hk h hsize hrs hok
  · rw [if_neg ht]
    obtain ⟨w1, b, pos1, e1, e2⟩ := readFull_exec E hk 512 512 h
    obtain ⟨e3, e4⟩ := seek_atPos e2 (Int.le_refl 0) (by omega)
    simp only [Prog.exec_bind, e1, exec_seekStart E hk, e4]
    exact sendContent_exec E hS hk e3 hsize hrs hok

theorem rooted_rootedPath (p : Str) : GoPath.rooted (rootedPath p) = true := by
  unfold rootedPath
  cases p with
  | nil => decide
  | cons b p =>
    by_cases hb : b = Str.slash
    · subst hb; simp [Str.hasPrefix, List.isPrefixOf, GoPath.rooted]
    · simp only [Str.hasPrefix, List.isPrefixOf, GoPath.rooted]
      have : (Str.slash == b) = false := by simp; exact fun h => hb h.symm
      simp [this]

theorem exec_serve (E : Env) (S : Server) (src : Source) (r : Request) (w : World) (hs : List Nat) :
    (serve S src r).exec E w hs =
      (serveFile S src r (rootedPath r.path) (GoPath.mk (GoPath.rootedElems (rootedPath r.path)))).exec E w hs := by
  have := GoPath.clean_of_rooted (rooted_rootedPath r.path)
  simp only [serve]
  rw [← this]
  rfl

/-- The size of a stored regular file. -/
theorem size_of_lookup {w : World} (hi : Inv w) {q : Path} {f : FileObj} {d : Details} (hf : lookup w q = some f)
    (hd : f.info = some d) (hdir : d.isDir = false) : d.size = f.bytes.length := by
  unfold lookup at hf
  cases hg : AMap.get w.files q with
  | none => rw [hg] at hf; cases hf
  | some j =>
    rw [hg] at hf
    simp only [Option.map_some, Option.some.injEq] at hf
    subst hf
    exact (hi.heap j).1 d hd hdir

/-- A request for a regular file: all answers. -/
theorem serve_file (E : Env) {S : Server} (hS : S.Ok) {i : Info} {w : World} {hs : List Nat} {m : Str} {ds : List Str}
    {hi : Info} {src : Source} (hsv : Serving E i w hs m ds hi src) {r : Request}
    (hw : Wanted i hi ds (GoPath.rootedElems (rootedPath r.path)))
    (hindex : Str.hasSuffix (rootedPath r.path) indexPage = false)
    (hslash : (rootedPath r.path).getLast? ≠ some Str.slash) {f : FileObj} {d : Details}
    (hf : lookup w ⟨m, GoPath.mk (ds ++ GoPath.rootedElems (rootedPath r.path))⟩ = some f) (hd : f.info = some d)
    (hdir : d.isDir = false) (hcond : r.cond d.modTime = none) {rs : List (Int × Int)}
    (hrs : r.ranges d.modTime d.size = .ok rs) (hok : RangesOk f.bytes.length rs) :
    ((serve S src r).exec E w hs).2.2 =
      contentAnswer r.head f.bytes (if total rs > f.bytes.length then [] else rs) := by
  rw [exec_serve]
  obtain ⟨w1, hs1, r1, e1, _, _, _, e5⟩ := openBy_spec E hsv hw
  obtain ⟨k, h, rfl, ho⟩ := e5 f d hf hd
  have hsize := size_of_lookup hsv.reached.inv hf hd hdir
  unfold serveFile
  simp only [hindex, Bool.false_eq_true, if_false, Prog.exec_bind, e1, exec_stat E ho.at_ ho.info, Prog.exec_pure]
  unfold serveOpened
  simp only [hdir, Bool.false_eq_true, false_and, true_and, if_false, if_neg hslash]
  unfold finish
  simp only [hdir, Bool.false_eq_true, if_false]
  exact serveContent_exec E hS ho.at_ (ho.file hdir) hsize hcond hrs hok

theorem serve_missing (E : Env) {S : Server} {i : Info} {w : World} {hs : List Nat} {m : Str} {ds : List Str}
    {hi : Info} {src : Source} (hsv : Serving E i w hs m ds hi src) {r : Request}
    (hw : Wanted i hi ds (GoPath.rootedElems (rootedPath r.path)))
    (hindex : Str.hasSuffix (rootedPath r.path) indexPage = false)
    (hns : ¬ Stored w ⟨m, GoPath.mk (ds ++ GoPath.rootedElems (rootedPath r.path))⟩) :
    ((serve S src r).exec E w hs).2.2 = .status 404 := by
  rw [exec_serve]
  obtain ⟨w1, hs1, r1, e1, _, _, e4, _⟩ := openBy_spec E hsv hw
  have := e4 hns
  subst this
  unfold serveFile
  simp only [hindex, Bool.false_eq_true, if_false, Prog.exec_bind, e1, Prog.exec_pure, errCode, Err.isNotExist, if_true]

theorem getLast?_mk {cs : List Str} (h : GoPath.Good cs) (hne : cs ≠ []) : (GoPath.mk cs).getLast? ≠ some Str.slash := by
  obtain ⟨a, c, rfl⟩ : ∃ a c, cs = a ++ [c] := ⟨cs.dropLast, cs.getLast hne, (List.dropLast_concat_getLast hne).symm⟩
  obtain ⟨_, hc⟩ := GoPath.good_append.mp h
  have hc := hc c (by simp)
  rw [GoPath.mk_snoc]
  intro he
  obtain ⟨c0, hcl⟩ : ∃ x, c.getLast? = some x := by
    cases hx : c.getLast? with
    | none => exact absurd (List.getLast?_eq_none_iff.mp hx) hc.1
    | some x => exact ⟨x, rfl⟩
  have hs : Str.slash ∈ c := by
    have : ∀ l : Str, (l ++ c).getLast? = c.getLast? := by
      intro l
      rw [List.getLast?_append, hcl]
      rfl
    first
      | (rw [this, hcl] at he; exact List.mem_of_getLast? (he ▸ hcl))
      | (split at he <;> (rw [this, hcl] at he; exact List.mem_of_getLast? (he ▸ hcl)))
  exact hc.2.1 hs

/-- The name under which the index page is looked up. -/
theorem index_name {cs : List Str} (h : GoPath.Good cs) :
    trimSlash (GoPath.mk cs) ++ indexPage = GoPath.mk (cs ++ [b! "index.html"]) := by
  by_cases hne : cs = []
  · subst hne; decide
  · unfold trimSlash
    rw [if_neg (getLast?_mk h hne), GoPath.mk_append hne (by simp)]
    rfl

theorem CleanNames.grow {w w' : World} (h : Grows w w') {pkg : Str} (hc : CleanNames w pkg) : CleanNames w' pkg :=
  fun q hq => hc q ((h.stored q).mp hq)

theorem Listable.grow {E : Env} {w w' : World} (h : Grows w w') (hwf : WF w) {root : Path} (hl : Listable E w root) :
    Listable E w' root where
  parses := fun q hq => by rw [h.here]; exact hl.parses q ((h.stored q).mp hq)
  parsesRoot := by rw [h.here]; exact hl.parsesRoot
  noSibling := fun q hq => hl.noSibling q ((h.stored q).mp hq)
  dirs := by
    intro cs c ds h1 h2 h3 h4
    obtain ⟨d, h5, h6⟩ := hl.dirs cs c ds h1 h2 h3 ((h.stored _).mp h4)
    exact ⟨d, (h.hasDetails hwf _ d).mpr h5, h6⟩
  noPrefix := fun a b d h1 h2 h3 h4 h5 => hl.noPrefix a b d h1 h2 ((h.hasDetails hwf a d).mp h3) h4 ((h.stored b).mp h5)

/-- The children's recorded names are the last elements of their paths. -/
def BaseNames (w : World) (root : Path) : Prop :=
  ∀ q d, IsParent root q → HasDetails w q d → d.name = GoPath.base q.name

/-- The text of the link to a stored child. -/
def childLink (w : World) (q : Path) : Str :=
  GoPath.base q.name ++ if (entry w q).any (·.isDir) then [Str.slash] else []

/-- A list in order stays as it is. -/
theorem sortBy_sorted_self {α : Type} (key : α → Str) : ∀ (l : List α),
    (l.Pairwise fun x y => Str.le (key x) (key y) = true) → sortBy key l = l
  | [], _ => rfl
  | a :: l, h => by
    obtain ⟨h1, h2⟩ := List.pairwise_cons.mp h
    rw [sortBy, sortBy_sorted_self key l h2]
    cases l with
    | nil => rfl
    | cons b l => simp [insertBy, h1 b (by simp)]

/-- Children in the order of their paths are in the order of their last elements. -/
theorem base_order {root a b : Path} (ha : IsParent root a) (hb : IsParent root b)
    (h : Str.lt a.str b.str = true) : Str.le (GoPath.base a.name) (GoPath.base b.name) = true := by
  obtain ⟨pa, cs, c, hg, e1, e2⟩ := ha
  obtain ⟨pb, cs', c', hg', e1', e2'⟩ := hb
  have hcs : cs = cs' := GoPath.mk_injective (GoPath.good_append.mp hg).1 (GoPath.good_append.mp hg').1 (e1.symm.trans e1')
  subst hcs
  have hc := (GoPath.good_append.mp hg).2 c (by simp)
  have hc' := (GoPath.good_append.mp hg').2 c' (by simp)
  rw [e2, e2', GoPath.base_mk_snoc hc, GoPath.base_mk_snoc hc']
  have hl := ((Str.lt_iff _ _).mp h).1
  unfold Path.str at hl
  rw [e2, e2', ← pa, ← pb] at hl
  have n1 : ∀ l : List Str, GoPath.mk l ≠ [] := fun l => by simp [GoPath.mk]
  simp only [n1, if_false] at hl
  rw [GoPath.mk_snoc, GoPath.mk_snoc] at hl
  by_cases hp : root.pkg = []
  · simp only [hp, if_true] at hl
    rwa [Str.le_append_left] at hl
  · simp only [hp, if_false] at hl
    rw [Str.le_append_left] at hl
    generalize (if cs = [] then [Str.slash] else GoPath.mk cs ++ [Str.slash]) = p at hl
    have : ∀ x : Str, Str.colon :: (p ++ x) = (Str.colon :: p) ++ x := fun _ => rfl
    rw [this, this, Str.le_append_left] at hl
    exact hl

theorem serve_dir_open (E : Env) {S : Server} {i : Info} {w : World} {hs : List Nat} {m : Str} {ds : List Str}
    {hi : Info} {src : Source} (hsv : Serving E i w hs m ds hi src) {r : Request}
    (hw : Wanted i hi ds (GoPath.rootedElems (rootedPath r.path)))
    (hindex : Str.hasSuffix (rootedPath r.path) indexPage = false) {f : FileObj} {d : Details}
    (hf : lookup w ⟨m, GoPath.mk (ds ++ GoPath.rootedElems (rootedPath r.path))⟩ = some f) (hd : f.info = some d)
    (hdir : d.isDir = true) :
    ∃ w1 hs1 k h, Later E w w1 ∧ Serving E i w1 hs1 m ds hi src ∧ hs1[k]? = some h ∧ (w1.heap h).info = some d ∧
      DirHandle E i w1 h ⟨m, GoPath.mk (ds ++ GoPath.rootedElems (rootedPath r.path))⟩ ∧
      ((serve S src r).exec E w hs).2.2 = ((serveOpened S src r (rootedPath r.path)
        (GoPath.mk (GoPath.rootedElems (rootedPath r.path))) k d).exec E w1 hs1).2.2 := by
  obtain ⟨w1, hs1, r1, e1, e2, e3, _, e5⟩ := openBy_spec E hsv hw
  obtain ⟨k, h, rfl, ho⟩ := e5 f d hf hd
  refine ⟨w1, hs1, k, h, e2, hsv.later e2 e3, ho.at_, ho.info, ho.dir hdir, ?_⟩
  rw [exec_serve]
  unfold serveFile
  simp only [hindex, Bool.false_eq_true, if_false, Prog.exec_bind, e1, exec_stat E ho.at_ ho.info, Prog.exec_pure]

/-! ### C72 -/

/-- The statement of **C72**: whatever the spelling of its path, a stored regular file is answered with 200 and its
content, whatever the sizes of buffers; what is not stored is answered with 404. -/
def C72_statement (E : Env) : Prop :=
  ∀ (S : Server) (i : Info) (w : World) (hs : List Nat) (m : Str) (ds : List Str) (hi : Info) (src : Source)
    (r : Request), S.Ok → Serving E i w hs m ds hi src → Plain (GoPath.rootedElems (rootedPath r.path)) →
    Clear i (GoPath.mk (ds ++ GoPath.rootedElems (rootedPath r.path))) →
    Clear hi (GoPath.mk (GoPath.rootedElems (rootedPath r.path))) →
    Str.hasSuffix (rootedPath r.path) indexPage = false → (rootedPath r.path).getLast? ≠ some Str.slash →
    (∀ t, r.cond t = none) → (∀ t n, r.ranges t n = .ok []) →
    (∀ f d, lookup w ⟨m, GoPath.mk (ds ++ GoPath.rootedElems (rootedPath r.path))⟩ = some f → f.info = some d →
      d.isDir = false →
      ((serve S src r).exec E w hs).2.2 = .content 200 f.bytes.length none (if r.head then [] else f.bytes)) ∧
    (¬ Stored w ⟨m, GoPath.mk (ds ++ GoPath.rootedElems (rootedPath r.path))⟩ →
      ((serve S src r).exec E w hs).2.2 = .status 404)

/-- **C72** (what holds): this is so for all paths but the served directory's own. -/
theorem C72_file_partial (E : Env) {S : Server} (hS : S.Ok) {i : Info} {w : World} {hs : List Nat} {m : Str}
    {ds : List Str} {hi : Info} {src : Source} (hsv : Serving E i w hs m ds hi src) {r : Request}
    (hw : Wanted i hi ds (GoPath.rootedElems (rootedPath r.path)))
    (hindex : Str.hasSuffix (rootedPath r.path) indexPage = false) :
    (∀ f d, lookup w ⟨m, GoPath.mk (ds ++ GoPath.rootedElems (rootedPath r.path))⟩ = some f → f.info = some d →
      d.isDir = false → (rootedPath r.path).getLast? ≠ some Str.slash → r.cond d.modTime = none →
      r.ranges d.modTime d.size = .ok [] →
      ((serve S src r).exec E w hs).2.2 = .content 200 f.bytes.length none (if r.head then [] else f.bytes)) ∧
    (¬ Stored w ⟨m, GoPath.mk (ds ++ GoPath.rootedElems (rootedPath r.path))⟩ →
      ((serve S src r).exec E w hs).2.2 = .status 404) := by
  refine ⟨?_, serve_missing E hsv hw hindex⟩
  intro f d hf hd hdir hslash hcond hrs
  rw [serve_file E hS hsv hw hindex hslash hf hd hdir hcond hrs (by intro r hr; cases hr)]
  simp [contentAnswer]

/-! ### C73 -/

/-- **C73** in full: for every path, a request for one range that is inside the file is answered with exactly its bytes. -/
def C73_statement (E : Env) : Prop :=
  ∀ (S : Server) (i : Info) (w : World) (hs : List Nat) (m : Str) (ds : List Str) (hi : Info) (src : Source)
    (r : Request) (f : FileObj) (d : Details) (s n : Int), S.Ok → Serving E i w hs m ds hi src →
    Plain (GoPath.rootedElems (rootedPath r.path)) →
    Clear i (GoPath.mk (ds ++ GoPath.rootedElems (rootedPath r.path))) →
    Clear hi (GoPath.mk (GoPath.rootedElems (rootedPath r.path))) →
    Str.hasSuffix (rootedPath r.path) indexPage = false → (rootedPath r.path).getLast? ≠ some Str.slash →
    (∀ t, r.cond t = none) → r.head = false →
    lookup w ⟨m, GoPath.mk (ds ++ GoPath.rootedElems (rootedPath r.path))⟩ = some f → f.info = some d →
    d.isDir = false → (∀ t k, r.ranges t k = .ok [(s, n)]) → RangesOk f.bytes.length [(s, n)] →
    ((serve S src r).exec E w hs).2.2 = .content 206 n (some (s, n)) ((f.bytes.drop s.toNat).take n.toNat)

/-- **C73** (what holds): all paths but the served directory's own.  A request for ranges of a regular file is answered
with exactly the bytes of each; if the ranges together are longer than the file, with the whole file. -/
theorem C73_ranges_partial (E : Env) {S : Server} (hS : S.Ok) {i : Info} {w : World} {hs : List Nat} {m : Str}
    {ds : List Str} {hi : Info} {src : Source} (hsv : Serving E i w hs m ds hi src) {r : Request}
    (hw : Wanted i hi ds (GoPath.rootedElems (rootedPath r.path)))
    (hindex : Str.hasSuffix (rootedPath r.path) indexPage = false)
    (hslash : (rootedPath r.path).getLast? ≠ some Str.slash) {f : FileObj} {d : Details}
    (hf : lookup w ⟨m, GoPath.mk (ds ++ GoPath.rootedElems (rootedPath r.path))⟩ = some f) (hd : f.info = some d)
    (hdir : d.isDir = false) (hcond : r.cond d.modTime = none) (hget : r.head = false) {rs : List (Int × Int)}
    (hrs : r.ranges d.modTime d.size = .ok rs) (hok : RangesOk f.bytes.length rs) :
    (∀ s n, rs = [(s, n)] →
      ((serve S src r).exec E w hs).2.2 = .content 206 n (some (s, n)) ((f.bytes.drop s.toNat).take n.toNat)) ∧
    (2 ≤ rs.length → total rs ≤ f.bytes.length → ((serve S src r).exec E w hs).2.2 =
      .parts (rs.map fun x => (x, (f.bytes.drop x.1.toNat).take x.2.toNat))) ∧
    (total rs > f.bytes.length → ((serve S src r).exec E w hs).2.2 = .content 200 f.bytes.length none f.bytes) := by
  have h := serve_file E hS hsv hw hindex hslash hf hd hdir hcond hrs hok
  rw [h]
  refine ⟨?_, ?_, ?_⟩
  · rintro s n rfl
    obtain ⟨h1, h2, h3⟩ := hok (s, n) (by simp)
    simp only at h1 h2 h3
    have : ¬ total [(s, n)] > f.bytes.length := by simp [total]; omega
    rw [if_neg this]
    simp [contentAnswer, hget, slice]
  · intro hlen htot
    rw [if_neg (by omega)]
    match rs, hlen with
    | a :: b :: l, _ => simp [contentAnswer, hget, slice]
  · intro htot
    rw [if_pos htot]
    simp [contentAnswer, hget]

/-! ### C74 -/

/-- The statement of **C74** about listings, without the conditions of `Readdir`. -/
def C74_statement (E : Env) : Prop :=
  ∀ (S : Server) (i : Info) (w : World) (hs : List Nat) (m : Str) (ds : List Str) (hi : Info) (src : Source)
    (r : Request) (d : Details), Serving E i w hs m ds hi src →
    Wanted i hi ds (GoPath.rootedElems (rootedPath r.path)) → Str.hasSuffix (rootedPath r.path) indexPage = false →
    HasDetails w ⟨m, GoPath.mk (ds ++ GoPath.rootedElems (rootedPath r.path))⟩ d → d.isDir = true →
    (rootedPath r.path).getLast? = some Str.slash → r.cond d.modTime = none →
    Wanted i hi ds (GoPath.rootedElems (rootedPath r.path) ++ [b! "index.html"]) →
    ¬ Stored w ⟨m, GoPath.mk (ds ++ (GoPath.rootedElems (rootedPath r.path) ++ [b! "index.html"]))⟩ →
    CleanNames w m → BaseNames w ⟨m, GoPath.mk (ds ++ GoPath.rootedElems (rootedPath r.path))⟩ →
    ∃ qs, ChildList w ⟨m, GoPath.mk (ds ++ GoPath.rootedElems (rootedPath r.path))⟩ qs ∧
      ((serve S src r).exec E w hs).2.2 = .page (qs.map (childLink w))

/-- **C74** (spelling).  A directory asked for without a slash at the end: the answer says where to find it. -/
theorem C74_redirect_partial (E : Env) {S : Server} {i : Info} {w : World} {hs : List Nat} {m : Str} {ds : List Str}
    {hi : Info} {src : Source} (hsv : Serving E i w hs m ds hi src) {r : Request}
    (hw : Wanted i hi ds (GoPath.rootedElems (rootedPath r.path)))
    (hindex : Str.hasSuffix (rootedPath r.path) indexPage = false) {d : Details}
    (hd : HasDetails w ⟨m, GoPath.mk (ds ++ GoPath.rootedElems (rootedPath r.path))⟩ d) (hdir : d.isDir = true)
    (hslash : (rootedPath r.path).getLast? ≠ some Str.slash) :
    ((serve S src r).exec E w hs).2.2 = .redirect (GoPath.base (rootedPath r.path) ++ [Str.slash]) := by
  obtain ⟨f, hf, hfd⟩ := hd
  obtain ⟨w1, hs1, k, h, _, _, _, _, _, e⟩ := serve_dir_open E (S := S) hsv hw hindex hf hfd hdir
  rw [e]
  unfold serveOpened
  simp [hdir, hslash]

/-- **C74** (index pages).  A directory with an index page is answered with the page. -/
theorem C74_index_partial (E : Env) {S : Server} (hS : S.Ok) {i : Info} {w : World} {hs : List Nat} {m : Str}
    {ds : List Str} {hi : Info} {src : Source} (hsv : Serving E i w hs m ds hi src) {r : Request}
    (hw : Wanted i hi ds (GoPath.rootedElems (rootedPath r.path)))
    (hindex : Str.hasSuffix (rootedPath r.path) indexPage = false) {d : Details}
    (hd : HasDetails w ⟨m, GoPath.mk (ds ++ GoPath.rootedElems (rootedPath r.path))⟩ d) (hdir : d.isDir = true)
    (hslash : (rootedPath r.path).getLast? = some Str.slash)
    (hw' : Wanted i hi ds (GoPath.rootedElems (rootedPath r.path) ++ [b! "index.html"])) {f : FileObj} {d' : Details}
    (hf : lookup w ⟨m, GoPath.mk (ds ++ (GoPath.rootedElems (rootedPath r.path) ++ [b! "index.html"]))⟩ = some f)
    (hd' : f.info = some d') (hfile : d'.isDir = false) (hcond : r.cond d'.modTime = none)
    (hrs : r.ranges d'.modTime d'.size = .ok []) :
    ((serve S src r).exec E w hs).2.2 = .content 200 f.bytes.length none (if r.head then [] else f.bytes) := by
  obtain ⟨f0, hf0, hfd0⟩ := hd
  have hwf := hsv.reached.inv.wf
  obtain ⟨w1, hs1, k, h, e1, e2, e3, e4, e5, e⟩ := serve_dir_open E (S := S) hsv hw hindex hf0 hfd0 hdir
  rw [e]
  obtain ⟨w2, hs2, r2, q1, _, _, _, q5⟩ := openBy_spec E e2 hw'
  obtain ⟨k2, h2, rfl, ho⟩ := q5 f d' (by rw [e1.grows.lookup hwf]; exact hf) hd'
  have hsize := size_of_lookup hsv.reached.inv hf hd' hfile
  unfold serveOpened
  rw [index_name hw.plain.good]
  simp only [hdir, hslash, ne_eq, not_true_eq_false, and_false, if_false, Bool.true_eq_false, false_and, if_true,
    Prog.exec_bind, q1, exec_stat E ho.at_ ho.info, Prog.exec_pure]
  unfold finish
  simp only [hfile, Bool.false_eq_true, if_false]
  have := serveContent_exec E hS ho.at_ (ho.file hfile) hsize hcond hrs (by intro r hr; cases hr)
  rw [this]
  simp [contentAnswer]

/-- **C74** (listings).  A directory without index page is answered with a page of links to exactly its children, in
lexical order, directories with a slash at the end.  This takes the conditions under which `Readdir` is right (C26) and
children whose recorded names are the last elements of their paths. -/
theorem C74_page_partial (E : Env) {S : Server} {i : Info} {w : World} {hs : List Nat} {m : Str}
    {ds : List Str} {hi : Info} {src : Source} (hsv : Serving E i w hs m ds hi src) {r : Request}
    (hw : Wanted i hi ds (GoPath.rootedElems (rootedPath r.path)))
    (hindex : Str.hasSuffix (rootedPath r.path) indexPage = false) {d : Details}
    (hd : HasDetails w ⟨m, GoPath.mk (ds ++ GoPath.rootedElems (rootedPath r.path))⟩ d) (hdir : d.isDir = true)
    (hslash : (rootedPath r.path).getLast? = some Str.slash) (hcond : r.cond d.modTime = none)
    (hw' : Wanted i hi ds (GoPath.rootedElems (rootedPath r.path) ++ [b! "index.html"]))
    (hns : ¬ Stored w ⟨m, GoPath.mk (ds ++ (GoPath.rootedElems (rootedPath r.path) ++ [b! "index.html"]))⟩)
    (hc : CleanNames w m) (hl : Listable E w ⟨m, GoPath.mk (ds ++ GoPath.rootedElems (rootedPath r.path))⟩)
    (hb : BaseNames w ⟨m, GoPath.mk (ds ++ GoPath.rootedElems (rootedPath r.path))⟩) :
    ∃ qs, ChildList w ⟨m, GoPath.mk (ds ++ GoPath.rootedElems (rootedPath r.path))⟩ qs ∧
      ((serve S src r).exec E w hs).2.2 = .page (qs.map (childLink w)) := by
  obtain ⟨f0, hf0, hfd0⟩ := hd
  have hwf := hsv.reached.inv.wf
  obtain ⟨w1, hs1, k, h, e1, e2, e3, e4, e5, e⟩ := serve_dir_open E (S := S) hsv hw hindex hf0 hfd0 hdir
  obtain ⟨w2, hs2, r2, q1, q2, q3, q4, _⟩ := openBy_spec E e2 hw'
  have := q4 (fun hst => hns ((e1.grows.stored _).mp hst))
  subst this
  have hlat := e1.trans q2
  have hdh : DirHandle E i w2 h ⟨m, GoPath.mk (ds ++ GoPath.rootedElems (rootedPath r.path))⟩ :=
    Http.DirHandle.grow e5 q2.grows (q2.held e5.held)
  have hroot : Plain ds := by
    cases src with
    | handle => obtain ⟨_, _, _, h⟩ := hsv; exact h.plain
    | dir d => exact hsv.2.2.1
  have hgood : GoPath.Good (ds ++ GoPath.rootedElems (rootedPath r.path)) :=
    GoPath.good_append.mpr ⟨hroot.good, hw.plain.good⟩
  obtain ⟨qs, infos, p1, p2, p3⟩ := C26_readdir_children_partial E (count := -1) hdh (CleanNames.grow hlat.grows hc)
    ⟨_, hgood, rfl⟩ (Listable.grow hlat.grows hwf hl) (by decide)
  have hent : ∀ q, entry w2 q = entry w q := by
    intro q
    unfold entry
    rw [hlat.grows.lookup hwf]
  have p1' : ChildList w ⟨m, GoPath.mk (ds ++ GoPath.rootedElems (rootedPath r.path))⟩ qs :=
    ⟨p1.order, fun q => by rw [p1.mem q, hlat.grows.stored]⟩
  refine ⟨qs, p1', ?_⟩
  rw [e]
  unfold serveOpened
  rw [index_name hw.plain.good]
  simp only [hdir, hslash, ne_eq, not_true_eq_false, and_false, if_false, Bool.true_eq_false, false_and, if_true,
    Prog.exec_bind, q1]
  unfold finish
  simp only [hdir, if_true, hcond]
  unfold dirList
  simp only [Prog.exec_bind, exec_readdir E (q3 k h e3), p2, Prog.exec_pure]
  have hq : ∀ q ∈ qs, IsParent ⟨m, GoPath.mk (ds ++ GoPath.rootedElems (rootedPath r.path))⟩ q ∧
      ∀ x, entry w q = some x → x.name = GoPath.base q.name := by
    intro q hq
    have hpar := ((p1'.mem q).mp hq).2
    refine ⟨hpar, fun x hx => hb q x hpar ?_⟩
    obtain ⟨f, hf, hfx⟩ := Option.bind_eq_some_iff.mp hx
    exact ⟨f, hf, hfx⟩
  have p3' : infos.map some = qs.map (entry w) := by
    rw [p3]; exact List.map_congr_left fun q _ => hent q
  have hsorted : infos.Pairwise fun x y => Str.le x.name y.name = true := by
    have h1 : (qs.map (entry w)).Pairwise fun a b => ∀ x y, a = some x → b = some y → Str.le x.name y.name = true := by
      rw [List.pairwise_map]
      refine List.Pairwise.imp_of_mem ?_ p1'.order
      intro a b ha hb' hlt x y hx hy
      rw [(hq a ha).2 x hx, (hq b hb').2 y hy]
      exact base_order (hq a ha).1 (hq b hb').1 hlt
    rw [← p3', List.pairwise_map] at h1
    exact h1.imp fun h => h _ _ rfl rfl
  rw [sortBy_sorted_self _ infos hsorted]
  have hlink : ∀ (l : List Details) (ps : List Path), l.map some = ps.map (entry w) →
      (∀ q ∈ ps, ∀ x, entry w q = some x → x.name = GoPath.base q.name) → l.map linkText = ps.map (childLink w) := by
    intro l
    induction l with
    | nil => intro ps h _; cases ps with | nil => rfl | cons a ps => cases h
    | cons x l ih =>
      intro ps h hn
      cases ps with
      | nil => cases h
      | cons q ps =>
        simp only [List.map_cons, List.cons.injEq] at h ⊢
        refine ⟨?_, ih ps h.2 fun q' hq' => hn q' (List.mem_cons_of_mem _ hq')⟩
        unfold linkText childLink
        rw [← h.1, hn q (by simp) x h.1.symm]
        by_cases hxd : x.isDir = true <;> simp [hxd]
  rw [hlink infos qs p3' fun q hq' => (hq q hq').2]

/-! ### C75 -/

/-- **C75** (`pkger.Dir`).  Any number of requests at once, answered in any interleaving: each answer is the one the
request would have got alone, nothing is changed, and each request is answered. -/
theorem C75_dir (E : Env) {i : Info} {w : World} (hr : Reached E i w) (S : Server) (d : Str) (rq : Nat → Request)
    (sched : List Nat) :
    (∀ t resp, ((Threads.run E ⟨w, fun t => ([], serve S (.dir d) (rq t))⟩ sched).threads t).2 = .ret resp →
      resp = ((serve S (.dir d) (rq t)).exec E w []).2.2) ∧
    (∀ t, (serve S (.dir d) (rq t)).calls E w [] ≤ sched.count t →
      ∃ resp, ((Threads.run E ⟨w, fun t => ([], serve S (.dir d) (rq t))⟩ sched).threads t).2 = .ret resp) ∧
    SameView E w (Threads.run E ⟨w, fun t => ([], serve S (.dir d) (rq t))⟩ sched).w := by
  have h := fun t => C71_readers_partial E hr (fun t => ([], serve S (.dir d) (rq t))) (by simp) (by simp) sched t
  exact ⟨fun t => (h t).2.1, fun t => (h t).2.2,
    (C71_unchanged E hr (fun t => ([], serve S (.dir d) (rq t))) (by simp) (by simp) sched).1⟩

/-- The statement of **C75** for a served handle. -/
def C75_statement (E : Env) : Prop :=
  ∀ (i : Info) (w : World) (id : Nat) (S : Server) (rq : Nat → Request), Held E i w id → Readable w id → S.Ok →
    ∀ (sched : List Nat) (t : Nat) (resp : Resp),
      ((Threads.run E ⟨w, fun t => ([id], serve S .handle (rq t))⟩ sched).threads t).2 = .ret resp →
      resp = ((serve S .handle (rq t)).exec E w [id]).2.2

/-- **C75** (what holds for a served handle): the same, if the handle is inert, as those of directories are. -/
theorem C75_handle_partial (E : Env) {i : Info} {w : World} {id : Nat} (hid : Held E i w id) (hrd : Readable w id)
    (hin : Inert (w.heap id)) (S : Server) (rq : Nat → Request) (sched : List Nat) :
    (∀ t resp, ((Threads.run E ⟨w, fun t => ([id], serve S .handle (rq t))⟩ sched).threads t).2 = .ret resp →
      resp = ((serve S .handle (rq t)).exec E w [id]).2.2) ∧
    (∀ t, (serve S .handle (rq t)).calls E w [id] ≤ sched.count t →
      ∃ resp, ((Threads.run E ⟨w, fun t => ([id], serve S .handle (rq t))⟩ sched).threads t).2 = .ret resp) ∧
    SameView E w (Threads.run E ⟨w, fun t => ([id], serve S .handle (rq t))⟩ sched).w := by
  have h1 : ∀ t : Nat, ∀ a ∈ ((fun t => ([id], serve S .handle (rq t)) : Nat → List Nat × Prog Resp) t).1, Readable w a := by
    intro t a ha; simp at ha; subst ha; exact hrd
  have h2 : ∀ t u : Nat, t ≠ u → ∀ a ∈ ((fun t => ([id], serve S .handle (rq t)) : Nat → List Nat × Prog Resp) t).1,
      a ∈ ((fun t => ([id], serve S .handle (rq t)) : Nat → List Nat × Prog Resp) u).1 → Inert (w.heap a) := by
    intro t u _ a ha _; simp at ha; subst ha; exact hin
  have h := fun t => C71_readers_partial E hid.reached _ h1 h2 sched t
  exact ⟨fun t => (h t).2.1, fun t => (h t).2.2, (C71_unchanged E hid.reached _ h1 h2 sched).1⟩

/-- The handle of a directory that holds no bytes, just opened, is readable and inert. -/
theorem inert_of_open (E : Env) {i : Info} {w : World} (hr : Reached E i w) {name : Str} {pt : Path} {f : FileObj}
    {d : Details} (hp : E.parse i name = .ok pt) (hf : lookup w pt = some f) (hd : f.info = some d)
    (hb : f.bytes = []) :
    ∃ w' h, Mem.openFile E w name = (w', .ok h) ∧ Held E i w' h ∧ Readable w' h ∧ Inert (w'.heap h) := by
  have hh := hr.here
  subst hh
  obtain ⟨w', h, ho, hobj⟩ := openFile_of_lookup hp hf hd
  obtain ⟨pt', i0, dd, q1, q2, q3, q4, q5⟩ := openFile_ok ho
  have hstep : step E w (.openFile name) = w' := by simp [step, ho]
  have hlt : h < w'.next := by rw [q5, q4]; simp [alloc]
  refine ⟨w', h, ho, ?_, ?_, ?_⟩
  · rw [← hstep]
    exact hr.held (o := .openFile name) trivial (by rw [q4]; exact Nat.le_refl _) (by rw [hstep]; exact hlt)
  · refine ⟨hlt, by rw [hobj]; rfl, Or.inl ?_⟩
    intro q hq
    rw [q5] at hq
    have := (hr.inv.wf.bound q h hq).1
    rw [q4] at this
    omega
  · exact ⟨by rw [hobj]; exact hb, by rw [hobj]; rfl, by rw [hobj]; rfl⟩

/-! ### A served directory -/

/-- Two directories, a file, an empty file, an index page, a file with the path of the directory as its name, and a
handle of the directory (12) and of the file (13). -/
def wwwOps : List Op :=
  [.mkdirAll (b! "/www/img") 0o755, .mkdirAll (b! "/www/doc") 0o755, .create (b! "/www/a.txt"), .write 5 (b! "hello"),
   .close 5, .create (b! "/www/img/empty"), .create (b! "/www/doc/index.html"), .write 9 (b! "<p>"), .close 9,
   .create (b! "/www/www"), .write 11 (b! "inner"), .close 11, .openFile (b! "/www"), .openFile (b! "/www/a.txt")]

def www : World := Demo.after wwwOps

theorem wwwOps_ok : ∀ o ∈ wwwOps, o.HostOk := by
  intro o ho
  simp [wwwOps] at ho
  rcases ho with rfl | rfl | rfl | rfl | rfl | rfl | rfl | rfl | rfl | rfl | rfl | rfl | rfl | rfl <;> trivial

theorem www_reached : Reached Demo.env Demo.info www := Reached.ofNew 1000 wwwOps wwwOps_ok

theorem www_held {id : Nat} (h : id < www.next) : Held Demo.env Demo.info www id := Held.ofNew 1000 wwwOps wwwOps_ok h

/-- A GET request without conditions and ranges. -/
def getReq (p : Str) : Request := ⟨p, false, fun _ => none, fun _ _ => .ok []⟩

/-- A server that looks at the content of every file for its type, and copies two bytes at a time. -/
def demoServer : Server := ⟨fun _ => false, fun n => min n 2⟩

theorem demoServer_ok : demoServer.Ok := by
  intro n hn
  simp [demoServer]
  omega

theorem www_root : Root Demo.env Demo.info www 12 (b! "app") [b! "www"] where
  dir := ⟨www_held (by decide +kernel), by decide +kernel, by decide +kernel⟩
  module := by decide +kernel
  details := by
    have h1 : (www.heap 12).info = some ⟨b! "www", 0, 0o755, 1000, true⟩ := by decide +kernel
    have h2 : (lookup www ⟨b! "app", b! "/www"⟩).bind (·.info) = some ⟨b! "www", 0, 0o755, 1000, true⟩ := by decide +kernel
    obtain ⟨f, hf, hfd⟩ := Option.bind_eq_some_iff.mp h2
    exact ⟨_, h1, ⟨f, hf, hfd⟩, rfl⟩
  plain := by decide
  plainPkg := by decide
  laws := Demo.laws
  lawsHere := by
    have : (www.heap 12).here = Demo.info := by decide +kernel
    rw [this]; exact Demo.laws

theorem www_serving : Serving Demo.env Demo.info www [12] (b! "app") [b! "www"] Demo.info .handle :=
  ⟨12, rfl, by decide +kernel, www_root⟩

theorem www_servingDir : Serving Demo.env Demo.info www [] (b! "app") [b! "www"] Demo.info (.dir (b! "/../www//.")) := by
  refine ⟨www_reached, by decide +kernel, by decide, by decide, Demo.laws, Demo.laws, by decide, ?_⟩
  have h2 : (lookup www ⟨b! "app", b! "/www"⟩).map (fun f => (f.info, f.here)) =
      some (some ⟨b! "www", 0, 0o755, 1000, true⟩, Demo.info) := by decide +kernel
  obtain ⟨f, hf, hfd⟩ := Option.map_eq_some_iff.mp h2
  simp only [Prod.mk.injEq] at hfd
  exact ⟨f, _, hf, hfd.1, rfl, hfd.2⟩

/-- A case of `C72_file_partial`, and what it says there. -/
example :
    Wanted Demo.info Demo.info [b! "www"] (GoPath.rootedElems (rootedPath (b! "x/..//./a.txt"))) ∧
    Wanted Demo.info Demo.info [b! "www"] (GoPath.rootedElems (rootedPath (b! "/img/empty"))) ∧
    ((serve demoServer .handle (getReq (b! "x/..//./a.txt"))).exec Demo.env www [12]).2.2 =
      .content 200 5 none (b! "hello") ∧
    ((serve demoServer (.dir (b! "/../www//.")) (getReq (b! "/img/empty"))).exec Demo.env www []).2.2 =
      .content 200 0 none [] ∧
    ((serve demoServer .handle (getReq (b! "/nope"))).exec Demo.env www [12]).2.2 = .status 404 :=
  ⟨⟨by decide, by decide, by decide, by decide⟩, ⟨by decide, by decide, by decide, by decide⟩, by decide +kernel,
    by decide +kernel, by decide +kernel⟩

/-- **C72 is false** for the served directory's own path: a file `/www/www`, asked for as `/www` below the served
directory `/www`, is not found; the handle returns itself instead (pkging/mem/file.go:176-178). -/
theorem C72_own_path_refuted : ¬ C72_statement Demo.env := by
  intro h
  have h1 := (h demoServer Demo.info www [12] (b! "app") [b! "www"] Demo.info .handle (getReq (b! "/www")) demoServer_ok
    www_serving (by decide) (by decide) (by decide) (by decide) (by decide) (fun _ => rfl) (fun _ _ => rfl)).1
  have h2 : (lookup www ⟨b! "app", b! "/www/www"⟩).map (fun f => (f.info, f.bytes)) =
      some (some ⟨b! "www", 5, 0o644, 1000, false⟩, b! "inner") := by decide +kernel
  obtain ⟨f, hf, hfd⟩ := Option.map_eq_some_iff.mp h2
  simp only [Prod.mk.injEq] at hfd
  have h3 := h1 f _ hf hfd.1 rfl
  rw [hfd.2] at h3
  revert h3
  decide +kernel

/-- **C73** is false of the served directory's own path, for the same reason. -/
theorem C73_own_path_refuted : ¬ C73_statement Demo.env := by
  intro h
  have h2 : (lookup www ⟨b! "app", b! "/www/www"⟩).map (fun f => (f.info, f.bytes)) =
      some (some ⟨b! "www", 5, 0o644, 1000, false⟩, b! "inner") := by decide +kernel
  obtain ⟨f, hf, hfd⟩ := Option.map_eq_some_iff.mp h2
  simp only [Prod.mk.injEq] at hfd
  have h3 := h demoServer Demo.info www [12] (b! "app") [b! "www"] Demo.info .handle
    { getReq (b! "/www") with ranges := fun _ _ => .ok [(1, 3)] } f _ 1 3 demoServer_ok www_serving (by decide) (by decide)
    (by decide) (by decide) (by decide) (fun _ => rfl) rfl hf hfd.1 rfl (fun _ _ => rfl) (by rw [hfd.2]; simp [RangesOk])
  rw [hfd.2] at h3
  revert h3
  decide +kernel

/-- A case of `C73_ranges_partial`. -/
example :
    RangesOk 5 [(1, 3)] ∧ RangesOk 5 [(0, 1), (3, 2)] ∧
    ((serve demoServer .handle { getReq (b! "/a.txt") with ranges := fun _ _ => .ok [(1, 3)] }).exec Demo.env www [12]).2.2 =
      .content 206 3 (some (1, 3)) (b! "ell") ∧
    ((serve demoServer .handle { getReq (b! "/a.txt") with ranges := fun _ _ => .ok [(0, 1), (3, 2)] }).exec
      Demo.env www [12]).2.2 = .parts [((0, 1), b! "h"), ((3, 2), b! "lo")] :=
  ⟨by simp [RangesOk], by simp [RangesOk], by decide +kernel, by decide +kernel⟩

/-- Cases of the theorems about directories. -/
example :
    Listable Demo.env www ⟨b! "app", b! "/www"⟩ ∧
    ((serve demoServer .handle (getReq (b! "/img"))).exec Demo.env www [12]).2.2 = .redirect (b! "img/") ∧
    ((serve demoServer .handle (getReq (b! "/doc/"))).exec Demo.env www [12]).2.2 = .content 200 3 none (b! "<p>") ∧
    ((serve demoServer .handle (getReq (b! "/"))).exec Demo.env www [12]).2.2 =
      .page [b! "a.txt", b! "doc/", b! "img/", b! "www"] :=
  ⟨listable_of_keys (rs := [b! "www"]) (by decide) (CleanNames.of_keys (by decide +kernel)) (by decide +kernel)
    (by decide +kernel) (by decide +kernel) (by decide +kernel) (by decide +kernel), by decide +kernel, by decide +kernel,
    by decide +kernel⟩

/-- Names of children can be read off the stored keys. -/
theorem baseNames_of_keys {w : World} {root : Path}
    (h : ∀ q ∈ AMap.keys w.files, (entry w q).all (fun d => d.name = GoPath.base q.name) = true ∨ q.name = b! "/") :
    BaseNames w root := by
  intro q d hp hd
  obtain ⟨f, hf, hfd⟩ := hd
  have hs : Stored w q := stored_iff_lookup.mpr ⟨f, hf⟩
  have hk : q ∈ AMap.keys w.files := (AMap.mem_keys_iff _ _).mpr hs
  rcases h q hk with h | h
  · have he : entry w q = some d := by simp [entry, hf, hfd]
    rw [he] at h
    simpa using h
  · obtain ⟨_, cs, c, h1, h2, h3⟩ := hp
    rw [h3] at h
    have := GoPath.mk_injective h1 (b := []) (by intro c hc; cases hc) h
    simp at this

example : BaseNames www ⟨b! "app", b! "/www"⟩ := baseNames_of_keys (by decide +kernel)

/-- **C74 is false** without the conditions: the page of `/` in this tree has no links to the files `/ab` and `/xy`. -/
theorem C74_page_refuted : ¬ C74_statement Demo.env := by
  intro h
  have hl : (lookup (Demo.after tree) ⟨b! "app", b! "/"⟩).map (fun f => (f.info, f.here)) =
      some (some ⟨[], 0, 0o755, 1000, true⟩, Demo.info) := by decide +kernel
  obtain ⟨f, hf, hfd⟩ := Option.map_eq_some_iff.mp hl
  simp only [Prod.mk.injEq] at hfd
  obtain ⟨qs, hq, hp⟩ := h demoServer Demo.info (Demo.after tree) [] (b! "app") [] Demo.info (.dir (b! "/")) (getReq (b! "/"))
    _ ⟨tree_reached, by decide +kernel, by decide, by decide, Demo.laws, Demo.laws, by decide, f, _, hf, hfd.1, rfl, hfd.2⟩
    ⟨by decide, by decide, by decide, Or.inl (by decide)⟩ (by decide) ⟨f, hf, hfd.1⟩ rfl (by decide) rfl
    ⟨by decide, by decide, by decide, Or.inr (by decide)⟩
    (by
      rintro ⟨x, hx⟩
      revert hx
      have : AMap.get (Demo.after tree).files ⟨b! "app", b! "/index.html"⟩ = none := by decide +kernel
      intro hx
      have hx' : AMap.get (Demo.after tree).files ⟨b! "app", b! "/index.html"⟩ = some x := hx
      rw [this] at hx'
      cases hx')
    (tree_clean _) (baseNames_of_keys (by decide +kernel))
  have hab : (⟨b! "app", b! "/ab"⟩ : Path) ∈ qs := by
    refine (hq.mem _).mpr ⟨Option.isSome_iff_exists.mp (by decide +kernel), rfl, [], b! "ab", by decide, rfl, rfl⟩
  have hmem := List.mem_map_of_mem (f := childLink (Demo.after tree)) hab
  have hpg : ((serve demoServer (.dir (b! "/")) (getReq (b! "/"))).exec Demo.env (Demo.after tree) []).2.2 =
      .page [b! "a/", b! "m/", b! "x/"] := by decide +kernel
  rw [hpg] at hp
  injection hp with hp
  rw [← hp] at hmem
  revert hmem
  decide +kernel

/-- **C75 is false** for handles of regular files: two requests for the path of the served file itself take turns reading
from the one handle, and each gets a part of the content. -/
theorem C75_shared_refuted : ¬ C75_statement Demo.env := by
  intro h
  have hrd : Readable www 13 :=
    readable_of_unstored (by decide +kernel) (by decide +kernel) (by decide +kernel)
  have := h Demo.info www 13 demoServer (fun _ => getReq (b! "/www/a.txt")) (www_held (by decide +kernel)) hrd
    demoServer_ok ((List.replicate 14 [0, 1]).flatten) 0 (.content 200 5 none (b! "ll")) (by
      have e : (match ((Threads.run Demo.env ⟨www, fun _ => ([13], serve demoServer .handle (getReq (b! "/www/a.txt")))⟩
          ((List.replicate 14 [0, 1]).flatten)).threads 0).2 with
        | .ret r => decide (r = .content 200 5 none (b! "ll"))
        | .step _ _ => false) = true := by decide +kernel
      revert e
      generalize ((Threads.run Demo.env ⟨www, fun _ => ([13], serve demoServer .handle (getReq (b! "/www/a.txt")))⟩
          ((List.replicate 14 [0, 1]).flatten)).threads 0).2 = p
      intro e
      cases p with
      | ret r => simp only [decide_eq_true_eq] at e; rw [e]
      | step c k => cases e)
  revert this
  decide +kernel

/-- A case of `C75_handle_partial`. -/
example : Readable www 12 ∧ Inert (www.heap 12) :=
  ⟨readable_of_unstored (by decide +kernel) (by decide +kernel) (by decide +kernel),
    ⟨by decide +kernel, by decide +kernel, by decide +kernel⟩⟩

end Props
end Verif
