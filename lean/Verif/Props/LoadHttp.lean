import Verif.Props.LoadModes
import Verif.Props.Http

/-! C117: a directory copied into a Pkger and served over HTTP. -/

namespace Verif
namespace Props

open FileSys Script
open LoadFiles hiding loadFiles
open Spec hiding Out
open Disk (Node)
open Disk.Node (WF WFKids)
open Site (rootedPath)
open Http (Request Server serve indexPage)

/-! ### What a directory knows of its package -/

theorem mkdirAllF_here (E : Env) {q : Path} {f : Mem.FileObj} (perm : Nat) : ∀ (fuel : Nat) (w : Mem.World) (p : Str), Mem.WF w →
    Mem.lookup (Mem.mkdirAllF E fuel w p perm).1 q = some f → Mem.lookup w q = some f ∨ f.here = w.here := by
  intro fuel
  induction fuel with
  | zero => intro w p _ h; exact Or.inl h
  | succ k ih =>
    intro w p hw h
    rw [Mem.mkdirAllF] at h
    cases hp : Mem.parse E w p with
    | error e => rw [hp] at h; exact Or.inl h
    | ok pt =>
      rw [hp] at h
      simp only at h
      have key : ∀ (w1 : Mem.World) (r : Res Unit), Mem.WF w1 → w1.here = w.here →
          (Mem.lookup w1 q = some f → Mem.lookup w q = some f ∨ f.here = w.here) →
          Mem.lookup (match r with
            | .err e => (w1, Res.err e)
            | .panic => (w1, .panic)
            | .ok _ => (Mem.store (Mem.alloc w1 (Mem.closeObj w1.now
                { here := w1.here, pkging := true, path := pt,
                  info := some { isDir := true, name := (GoPath.split pt.name).2, mode := perm, modTime := w1.now, size := 0 },
                  data := none, parent := Path.zero, writer := none, reader := none })).1 pt w1.next, .ok ())).1 q = some f →
          Mem.lookup w q = some f ∨ f.here = w.here := by
        intro w1 r hw1 hh hold h
        cases r with
        | err e => exact hold h
        | panic => exact hold h
        | ok u =>
          have hb := Mem.lookup_bind hw1 pt (Mem.closeObj w1.now
                { here := w1.here, pkging := true, path := pt,
                  info := some { isDir := true, name := (GoPath.split pt.name).2, mode := perm, modTime := w1.now, size := 0 },
                  data := none, parent := Path.zero, writer := none, reader := none }) q
          have h : Mem.lookup (Mem.bind w1 pt (Mem.closeObj w1.now
                { here := w1.here, pkging := true, path := pt,
                  info := some { isDir := true, name := (GoPath.split pt.name).2, mode := perm, modTime := w1.now, size := 0 },
                  data := none, parent := Path.zero, writer := none, reader := none })) q = some f := h
          rw [hb] at h
          by_cases hq : q = pt
          · rw [if_pos hq] at h
            right
            cases h
            exact hh
          · rw [if_neg hq] at h
            exact hold h
      by_cases hd : (GoPath.split pt.name).1 ≠ GoPath.rootS
      · rw [if_pos hd] at h
        have hpr := Mem.prims_mkdirAllF E k w (GoPath.split pt.name).1 perm
        have ih := ih w (GoPath.split pt.name).1 hw
        revert h hpr ih
        generalize Mem.mkdirAllF E k w (GoPath.split pt.name).1 perm = x
        intro h hpr ih
        exact key x.1 x.2 (Mem.wf_prims hpr hw) (Mem.ext_prims hpr).here ih h
      · rw [if_neg hd] at h
        exact key w (.ok ()) hw rfl Or.inl h

/-- What is stored there, if anything is, knows that it belongs to `c`. -/
def HereAt (c : Info) (w : Mem.World) (q : List Str) : Prop := ∀ f, Mem.lookup w (own c q) = some f → f.here = c

theorem chain_here {E : Env} {c : Info} (hl : ParseLaws E c) (hi : InfoOk c) (hpk : c.importPath = c.module.path) {rel : List Str}
    (hrel : GoPath.Good rel) {q : List Str} (hg : GoPath.Good q) (hq : q ≠ []) {r : Bool} : ∀ (as : List Script.Act) {fs fs' : Fs}
    {w : Mem.World} (hs : List Nat), InMem E c rel fs w → Goes c rel fs (chain as (.ret r)) fs' true →
    (∀ a ∈ as, (∃ es p, a = .mkdirAll es p) ∨ ¬ Touch q a) → HereAt c w q →
    HereAt c (mem E (chain as (.ret r)).prog w hs).1 q := by
  intro as
  induction as with
  | nil => intro fs fs' w hs _ _ _ h; exact h
  | cons a as ih =>
    intro fs fs' w hs hw h ht hh
    obtain ⟨fs1, hf, hd, h⟩ := chain_first h
    obtain ⟨w1, hs1, e1, e2⟩ := act_mem hl hi hpk hrel hw hf hd hs
    have h1 : HereAt c w1 q := by
      rcases ht a (by simp) with ⟨es, p, rfl⟩ | hn
      · have hrun : (mem E (Script.Act.mkdirAll es p).prog w hs).1 = (Mem.mkdirAll E w (GoPath.mk es) p).1 := by
          simp only [Script.Act.prog, Script.mem, memCall, mem_pure]
        rw [e1] at hrun
        simp only at hrun
        subst hrun
        intro f hf
        rcases mkdirAllF_here E p _ _ _ hw.reached.inv.wf hf with h' | h'
        · exact hh f h'
        · rw [h', hw.reached.here]
      · have := (act_modes hl hi hpk hw hf hd hs hg hq).1 hn
        rw [e1] at this
        simp only at this
        intro f hf
        exact hh f (by rw [← this]; exact hf)
    have := ih hs1 e2 h (fun b hb => ht b (by simp [hb])) h1
    show HereAt c (mem E (Plan.act a (andThen (chain as (.ret r)))).prog w hs).1 q
    simp only [Plan.prog, mem_bind, e1]
    exact this

/-! ### Opening a directory to serve it -/

theorem serving_open (E : Env) {c : Info} (hl : ParseLaws E c) (hi : InfoOk c) {w : Mem.World} (hr : Mem.Reached E c w) {es : List Str}
    (hp : Plain es) (hc : Clear c (GoPath.mk es)) {f : Mem.FileObj} {d : Mem.Details}
    (hf : Mem.lookup w (own c es) = some f) (hd : f.info = some d) (hdir : d.isDir = true) (hh : f.here = c) :
    ∃ w1 h, Mem.openFile E w (GoPath.mk es) = (w1, .ok h) ∧ Serving E c w1 [h] c.module.path es c .handle ∧
      ∀ q, Mem.lookup w1 q = Mem.lookup w q := by
  have hwf := hr.inv.wf
  have hhere := hr.here
  have hparse : E.parse c (GoPath.mk es) = .ok ⟨c.module.path, GoPath.mk es⟩ := by
    rw [(ordinary_mk hp.ord hc).parse hl, GoPath.rootedElems_mk hp.good]
  subst hhere
  obtain ⟨w1, h, ho, hobj⟩ := Mem.openFile_of_lookup hparse hf hd
  have hlat : Later E w w1 := by have := later_openFile E w (GoPath.mk es); rw [ho] at this; exact this
  obtain ⟨pt, i0, dd, q1, q2, q3, q4, q5⟩ := Mem.openFile_ok ho
  have hpath : f.path = ⟨w.here.module.path, GoPath.mk es⟩ := by
    have hf := hf
    unfold Mem.lookup at hf
    cases hg : AMap.get w.files (own w.here es) with
    | none => rw [hg] at hf; cases hf
    | some j =>
      rw [hg] at hf
      simp only [Option.map_some, Option.some.injEq] at hf
      rw [← hf]
      exact (hwf.bound _ j hg).2.1
  have hstep : Mem.step E w (.openFile (GoPath.mk es)) = w1 := by simp [Mem.step, ho]
  have hheld : Mem.Held E w.here w1 h := by
    rw [← hstep]
    refine hr.held (o := .openFile (GoPath.mk es)) trivial (by rw [q4]; exact Nat.le_refl _) ?_
    rw [hstep, q5, q4]
    simp [Mem.alloc]
  have hlook : ∀ q, Mem.lookup w1 q = Mem.lookup w q := hlat.grows.lookup hwf
  refine ⟨w1, h, ho, ⟨h, rfl, by rw [hobj]; exact hh, ?_⟩, hlook⟩
  refine ⟨⟨hheld, by rw [hobj]; exact hpath, Or.inr ?_⟩, by rw [hobj]; simp [Mem.openedObj, hh],
    ⟨d, by rw [hobj]; rfl, ⟨f, by rw [hlook]; exact hf, hd⟩, hdir⟩, hp, hi.modulePlain, hl,
    by rw [hobj]; simpa [Mem.openedObj, hh] using hl⟩
  rw [hobj]
  simp [Mem.openedObj, Path.zero, GoPath.mk]

/-! ### C117 -/

/-- A request that asks for the whole file whatever its time is. -/
structure Whole (r : Request) : Prop where
  cond : ∀ t, r.cond t = none
  ranges : ∀ t n, r.ranges t n = .ok []

/-- What is at a path of the directory, unless it is hidden. -/
def visible (es : List Str) (n : Node) (cs : List Str) (k : Node) : Prop := n.find cs = some k ∧ ¬ Hidden (es ++ cs)

/-- The directory is opened and what is stored at and below it is what was copied. -/
theorem loaded_serving (E : Env) {c : Info} (hl : ParseLaws E c) (hi : InfoOk c) (hpk : c.importPath = c.module.path) (t : Int)
    {cut : Str → List Str} (hcut : ∀ b, (cut b).flatten = b) {n : Node} (hn : WF n) (hnd : n.isDir = true) {es : List Str}
    (hes : es ≠ []) (hv : ¬ Hidden es) (hcl : Clean es n)
    (hp : ∀ cs, n.find cs ≠ none → Plain (es ++ cs) ∧ Clear c (GoPath.mk (es ++ cs))) :
    ∃ w hs w1 h fs', mem E (LoadFiles.loadFiles cut es n).prog (Mem.new c t) [] = (w, hs, true) ∧
      Mem.openFile E w (GoPath.mk es) = (w1, .ok h) ∧ Serving E c w1 [h] c.module.path es c .handle ∧ InMem E c [] fs' w1 ∧
      (∀ cs k, visible es n cs k → ∃ f d, Mem.lookup w1 (own c (es ++ cs)) = some f ∧ f.info = some d ∧
        d.name = (es ++ cs).getLast?.getD [] ∧ d.isDir = k.isDir ∧ f.bytes = k.data) ∧
      ∀ q, GoPath.Good q → q ≠ [] → Mem.lookup w1 (own c q) ≠ none →
        (q <+: es ∧ q ≠ es) ∨ ∃ cs k, q = es ++ cs ∧ visible es n cs k := by
  have ht : Tree (fun q => if q = [] then some .dir else none) := by
    refine ⟨by simp, ?_, ?_⟩
    · intro es x h; simp at h
    · intro es h
      by_cases he : es = []
      · subst he; decide
      · simp [he] at h
  have hw0 : InMem E c [] _ (Mem.new c t) := inMem_new E c t ht (by intro es he _; simp [he])
  obtain ⟨fs', _, hgo⟩ := goes_loadFiles (c := c) (rel := []) hcut hn hnd hes hv hcl hp List.nil_prefix
    (fs := fun q => if q = [] then some .dir else none)
    (by
      rintro ⟨a, b, _, h⟩
      by_cases ha : a = [] <;> simp [ha] at h)
    (by
      rintro x q ⟨t, rfl⟩
      simp)
  have hroot : n.find [] = some n := by cases n <;> rfl
  obtain ⟨hpe, hce⟩ := hp [] (by rw [hroot]; simp)
  rw [List.append_nil] at hpe hce
  have hhere : HereAt c (mem E (LoadFiles.loadFiles cut es n).prog (Mem.new c t) []).1 es := by
    have hgo := hgo
    unfold LoadFiles.loadFiles at hgo ⊢
    rw [if_pos hnd, load_chain] at hgo ⊢
    refine chain_here hl hi hpk (by decide) hpe.good hes _ [] hw0 hgo ?_ (by intro f hf; cases hf)
    intro a ha
    obtain ⟨⟨ds, m⟩, he, hae⟩ := List.mem_filterMap.mp ha
    have hfm : n.find ds = some m := (Disk.mem_tree_iff _ _ _ hn).mp he
    unfold actOf at hae
    split at hae
    · cases hae
    · cases hae
      cases m with
      | dir d ks => exact Or.inl ⟨_, _, rfl⟩
      | file d b =>
        right
        intro htouch
        have : es = es ++ ds := htouch
        have : ds = [] := by simpa using this
        subst this
        rw [hroot, Option.some.injEq] at hfm
        rw [hfm] at hnd
        cases hnd
  obtain ⟨w, hs, e1, e2, e3⟩ := C116_new_partial E hl hi hpk t hcut hn hnd hes hv hcl hp
  have him : InMem E c [] fs' w := by
    obtain ⟨w', hs', q1, q2⟩ := C97_mem_partial E hl hi hpk (by decide) hgo.2 hw0 hgo.1 []
    rw [e1] at q1
    cases q1
    exact q2
  have hrd := him.reached
  rw [e1] at hhere
  obtain ⟨f, d, g1, g2, _, g4, _⟩ := e2 [] n hroot (by rw [List.append_nil]; exact hv)
  rw [List.append_nil] at g1
  obtain ⟨w1, h, o1, o2, o3⟩ := serving_open E hl hi hrd hpe hce g1 g2 (by rw [g4]; exact hnd) (hhere f g1)
  refine ⟨w, hs, w1, h, fs', e1, o1, o2, him.same o2.reached (fun q => o3 q), ?_, ?_⟩
  · intro cs k hk
    obtain ⟨f, d, q1, q2⟩ := e2 cs k hk.1 hk.2
    exact ⟨f, d, by rw [o3]; exact q1, q2⟩
  · intro q hg hne hst
    rw [o3] at hst
    by_cases hqe : q = es
    · exact Or.inr ⟨[], n, by simp [hqe], hroot, by rw [List.append_nil]; exact hv⟩
    · rcases e3 q hg hne hst with h | ⟨cs, h1, h2, h3⟩
      · exact Or.inl ⟨h, hqe⟩
      · right
        subst h1
        cases hk : n.find cs with
        | none => exact absurd hk h2
        | some k => exact ⟨cs, k, rfl, hk, h3⟩

/-- **C117** in part: a directory that `LoadFiles` copied into a Pkger just made can be opened and served.  Files come with
their bytes, directories are redirected to the path with a slash at the end or answered with their index page, and what is
hidden or not there is not found.  Missing are the pages that list a directory, the path of the directory itself below it
(`C72_own_path_refuted`) and what is missing in `C116_new_partial`. -/
theorem C117_served_partial (E : Env) {c : Info} (hl : ParseLaws E c) (hi : InfoOk c) (hpk : c.importPath = c.module.path) (t : Int)
    {cut : Str → List Str} (hcut : ∀ b, (cut b).flatten = b) {n : Node} (hn : WF n) (hnd : n.isDir = true) {es : List Str}
    (hes : es ≠ []) (hv : ¬ Hidden es) (hcl : Clean es n)
    (hp : ∀ cs, n.find cs ≠ none → Plain (es ++ cs) ∧ Clear c (GoPath.mk (es ++ cs))) :
    ∃ w hs w1 h, mem E (LoadFiles.loadFiles cut es n).prog (Mem.new c t) [] = (w, hs, true) ∧
      Mem.openFile E w (GoPath.mk es) = (w1, .ok h) ∧
      ∀ (S : Server) (r : Request), S.Ok → Whole r → Wanted c c es (GoPath.rootedElems (rootedPath r.path)) →
        Wanted c c es (GoPath.rootedElems (rootedPath r.path) ++ [b! "index.html"]) →
        Str.hasSuffix (rootedPath r.path) indexPage = false →
        (∀ d b, visible es n (GoPath.rootedElems (rootedPath r.path)) (.file d b) →
          (rootedPath r.path).getLast? ≠ some Str.slash →
          ((serve S .handle r).exec E w1 [h]).2.2 = .content 200 b.length none (if r.head then [] else b)) ∧
        (∀ d ks, visible es n (GoPath.rootedElems (rootedPath r.path)) (.dir d ks) →
          (rootedPath r.path).getLast? ≠ some Str.slash →
          ((serve S .handle r).exec E w1 [h]).2.2 = .redirect (GoPath.base (rootedPath r.path) ++ [Str.slash])) ∧
        (∀ d ks d' b, visible es n (GoPath.rootedElems (rootedPath r.path)) (.dir d ks) →
          visible es n (GoPath.rootedElems (rootedPath r.path) ++ [b! "index.html"]) (.file d' b) →
          (rootedPath r.path).getLast? = some Str.slash →
          ((serve S .handle r).exec E w1 [h]).2.2 = .content 200 b.length none (if r.head then [] else b)) ∧
        ((∀ k, ¬ visible es n (GoPath.rootedElems (rootedPath r.path)) k) →
          ((serve S .handle r).exec E w1 [h]).2.2 = .status 404) := by
  obtain ⟨w, hs, w1, h, fs', e1, o1, o2, _, e2, e3⟩ := loaded_serving E hl hi hpk t hcut hn hnd hes hv hcl hp
  refine ⟨w, hs, w1, h, e1, o1, ?_⟩
  intro S r hS hr hw hw' hidx
  refine ⟨?_, ?_, ?_, ?_⟩
  · intro d b hk hsl
    obtain ⟨f, d', q1, q2, _, q3, q4⟩ := e2 _ _ hk
    have q4 : f.bytes = b := q4
    rw [← q4]
    exact (C72_file_partial E hS o2 hw hidx).1 f d' q1 q2 q3 hsl (hr.cond _) (hr.ranges _ _)
  · intro d ks hk hsl
    obtain ⟨f, d', q1, q2, _, q3, _⟩ := e2 _ _ hk
    exact C74_redirect_partial E o2 hw hidx ⟨f, q1, q2⟩ q3 hsl
  · intro d ks d2 b hk hk2 hsl
    obtain ⟨f, d', q1, q2, _, q3, _⟩ := e2 _ _ hk
    obtain ⟨f2, d2', p1, p2, _, p3, p4⟩ := e2 _ _ hk2
    have p4 : f2.bytes = b := p4
    rw [← p4]
    exact C74_index_partial E hS o2 hw hidx ⟨f, q1, q2⟩ q3 hsl hw' p1 p2 p3 (hr.cond _) (hr.ranges _ _)
  · intro hno
    refine serve_missing E o2 hw hidx ?_
    intro hst
    obtain ⟨f, hf⟩ := Mem.stored_iff_lookup.mp hst
    rcases e3 _ (GoPath.good_append.mpr ⟨by have := (hp [] (by cases n <;> simp [Node.find])).1.good; rwa [List.append_nil] at this, GoPath.good_rootedElems _⟩) (by simp [hes]) (by rw [show Mem.lookup w1 (own c _) = some f from hf]; simp) with
      hpre | ⟨cs, k, h1, h2⟩
    · have hle := hpre.1.length_le
      rw [List.length_append] at hle
      exact hpre.2 (by rw [List.eq_nil_of_length_eq_zero (l := GoPath.rootedElems (rootedPath r.path)) (by omega), List.append_nil])
    · rw [← List.append_cancel_left h1] at h2
      exact hno k h2

/-- The link to an entry. -/
def linkTo (n : Node) (cs : List Str) (x : Str) : Str := x ++ if (n.find (cs ++ [x])).any Node.isDir then [Str.slash] else []

/-- **C117** for the pages that list a directory, in part: a directory without index page is answered with links to exactly
its entries that are not hidden, in lexical order.  Missing are directories whose name other names begin with, and those in
which a name begins with that of a directory (C26, C74), and what is missing in `C117_served_partial`. -/
theorem C117_page_partial (E : Env) {c : Info} (hl : ParseLaws E c) (hi : InfoOk c) (hpk : c.importPath = c.module.path) (t : Int)
    {cut : Str → List Str} (hcut : ∀ b, (cut b).flatten = b) {n : Node} (hn : WF n) (hnd : n.isDir = true) {es : List Str}
    (hes : es ≠ []) (hv : ¬ Hidden es) (hcl : Clean es n)
    (hp : ∀ cs, n.find cs ≠ none → Plain (es ++ cs) ∧ Clear c (GoPath.mk (es ++ cs))) :
    ∃ w hs w1 h, mem E (LoadFiles.loadFiles cut es n).prog (Mem.new c t) [] = (w, hs, true) ∧
      Mem.openFile E w (GoPath.mk es) = (w1, .ok h) ∧
      ∀ (S : Server) (r : Request) (cs : List Str), GoPath.rootedElems (rootedPath r.path) = cs → (∀ t, r.cond t = none) →
        Wanted c c es cs → Wanted c c es (cs ++ [b! "index.html"]) → Str.hasSuffix (rootedPath r.path) indexPage = false →
        (rootedPath r.path).getLast? = some Str.slash → ∀ d ks, visible es n cs (.dir d ks) →
        (∀ k, ¬ visible es n (cs ++ [b! "index.html"]) k) →
        (∀ q k, visible es n q k → GoPath.mk (es ++ cs) <+: GoPath.mk (es ++ q) → cs <+: q) →
        (∀ x y k k', visible es n (cs ++ [x]) k → k.isDir = true → visible es n (cs ++ [y]) k' → x <+: y → x = y) →
        ∃ xs : List Str, xs.Pairwise (fun a b => Str.lt a b = true) ∧ (∀ x, x ∈ xs ↔ ∃ k, visible es n (cs ++ [x]) k) ∧
          ((serve S .handle r).exec E w1 [h]).2.2 = .page (xs.map (linkTo n cs)) := by
  obtain ⟨w, hs, w1, h, fs', e1, o1, o2, him, e2, e3⟩ := loaded_serving E hl hi hpk t hcut hn hnd hes hv hcl hp
  refine ⟨w, hs, w1, h, e1, o1, ?_⟩
  intro S r cs hcs hcond hw hw' hidx hsl d ks hk hni hap hdis
  subst hcs
  generalize hcs : GoPath.rootedElems (rootedPath r.path) = cs at *
  obtain ⟨hpq, hcq⟩ := hp cs (by rw [hk.1]; simp)
  have hgd := hpq.good
  -- what the tree of the Pkger has is what is visible
  have hsee : ∀ q e, fs' (es ++ q) = some e → GoPath.Good (es ++ q) ∧ ∃ k, visible es n q k ∧ k.isDir = e.isDir := by
    intro q e hq
    have hg : GoPath.Good (es ++ q) := him.tree.good _ (by rw [hq]; simp)
    obtain ⟨f, d1, g1, g2, _, g4, _⟩ := him.lookup_some hg (by simp [hes]) List.nil_prefix hq
    refine ⟨hg, ?_⟩
    rcases e3 _ hg (by simp [hes]) (by rw [g1]; simp) with hpre | ⟨cs', k, h1, h2⟩
    · have hle := hpre.1.length_le
      rw [List.length_append] at hle
      exact absurd (by rw [List.eq_nil_of_length_eq_zero (l := q) (by omega), List.append_nil]) hpre.2
    · have := List.append_cancel_left h1
      subst this
      obtain ⟨f', d', q1, q2, _, q4, _⟩ := e2 _ _ h2
      rw [g1] at q1
      cases q1
      rw [g2] at q2
      cases q2
      exact ⟨k, h2, by rw [← q4, g4]⟩
  have hApart : Apart [] fs' (es ++ cs) := by
    intro q _ hq hpre
    have hg : GoPath.Good q := him.tree.good _ hq
    have hqne : q ≠ [] := by
      rintro rfl
      have := root_not_beside hgd hpre
      simp [hes] at this
    cases hfs : fs' q with
    | none => exact absurd hfs hq
    | some e =>
      obtain ⟨f, d1, g1, _⟩ := him.lookup_some hg hqne List.nil_prefix hfs
      rcases e3 q hg hqne (by rw [g1]; simp) with hlow | ⟨cs', k, h1, h2⟩
      · have h3 : GoPath.mk q <+: GoPath.mk (es ++ cs) := mk_prefix_of (hlow.1.trans (List.prefix_append _ _))
        have h4 := hpre.eq_of_length_le h3.length_le
        exact GoPath.mk_injective hgd hg h4 ▸ List.prefix_refl _
      · subst h1
        obtain ⟨t, ht⟩ := hap cs' k h2 hpre
        exact ⟨t, by rw [← ht, List.append_assoc]⟩
  have hDist : Script.Distinct fs' (es ++ cs) := by
    intro x y hx hy hxy
    rw [List.append_assoc] at hx hy
    obtain ⟨_, k, h1, h2⟩ := hsee _ _ hx
    cases hfy : fs' (es ++ (cs ++ [y])) with
    | none => exact absurd hfy hy
    | some e =>
      obtain ⟨_, k', h3, _⟩ := hsee _ _ hfy
      exact hdis x y k k' h1 h2 h3 hxy
  have hlist := listable_mem hl hi him hpq hcq (by simp [hes]) List.nil_prefix hApart hDist
  have hclean : Mem.CleanNames w1 c.module.path := by
    intro q hq hqp
    obtain ⟨f, hf⟩ := Mem.stored_iff_lookup.mp hq
    obtain ⟨qs, h1, _, h3⟩ := him.plain q (by rw [hf]; simp) hqp
    exact ⟨qs, h1.good, h3⟩
  -- the children
  have hkid : ∀ q, Mem.Stored w1 q → IsParent (own c (es ++ cs)) q → ∃ x k d, q = own c (es ++ (cs ++ [x])) ∧ GoPath.Good [x] ∧
      visible es n (cs ++ [x]) k ∧ Mem.HasDetails w1 q d ∧ d.name = x ∧ d.isDir = k.isDir := by
    rintro q hst ⟨hpk', xs, x, hx1, hx2, hx3⟩
    have e := GoPath.mk_injective hgd (b := xs) (GoPath.good_append.mp hx1).1 hx2
    subst e
    have eq : q = own c (es ++ (cs ++ [x])) := by cases q; simp only [own] at hpk' hx3 ⊢; rw [hpk', hx3, List.append_assoc]
    subst eq
    rw [List.append_assoc] at hx1
    obtain ⟨f, hf⟩ := Mem.stored_iff_lookup.mp hst
    rcases e3 _ hx1 (by simp) (by rw [show Mem.lookup w1 (own c _) = some f from hf]; simp) with hpre | ⟨cs', k, h1, h2⟩
    · have hle := hpre.1.length_le
      simp only [List.length_append, List.length_cons] at hle
      omega
    · have := List.append_cancel_left h1
      subst this
      obtain ⟨f', d', q1, q2, q3, q4, _⟩ := e2 _ _ h2
      refine ⟨x, k, d', rfl, (GoPath.good_append.mp (GoPath.good_append.mp hx1).2).2, h2, ⟨f', q1, q2⟩, ?_, q4⟩
      rw [q3, ← List.append_assoc, List.getLast?_concat]
      rfl
  obtain ⟨f, d', q1, q2, _, q3, _⟩ := e2 _ _ hk
  obtain ⟨qs, p1, p2⟩ := C74_page_partial E (S := S) (r := r) o2 (by rw [hcs]; exact hw) hidx (d := d') (by rw [hcs]; exact ⟨f, q1, q2⟩) q3 hsl
    (hcond _) (by rw [hcs]; exact hw') (by
      rw [hcs]
      intro hst
      obtain ⟨f, hf⟩ := Mem.stored_iff_lookup.mp hst
      rcases e3 _ (GoPath.good_append.mpr ⟨by have := (hp [] (by cases n <;> simp [Node.find])).1.good; rwa [List.append_nil] at this, hw'.plain.good⟩) (by simp) (by rw [show Mem.lookup w1 (own c _) = some f from hf]; simp) with hpre | ⟨cs', k, h1, h2⟩
      · have hle := hpre.1.length_le
        simp only [List.length_append, List.length_cons] at hle
        omega
      · rw [← List.append_cancel_left h1] at h2
        exact hni k h2) hclean (by rw [hcs]; exact hlist) (by
      rw [hcs]
      intro q d1 hpar hd1
      obtain ⟨x, k, d2, h1, h2, _, h4, h5, _⟩ := hkid q (Props.HasDetails.stored hd1) hpar
      rw [Props.HasDetails.unique hd1 h4, h5, h1]
      show x = GoPath.base (GoPath.mk (es ++ (cs ++ [x])))
      rw [← List.append_assoc, GoPath.base_mk_snoc (h2 x (by simp))])
  rw [hcs] at p1
  have hbase : ∀ x, GoPath.Good [x] → GoPath.base (own c (es ++ (cs ++ [x]))).name = x := by
    intro x hx
    show GoPath.base (GoPath.mk (es ++ (cs ++ [x]))) = x
    rw [← List.append_assoc, GoPath.base_mk_snoc (hx x (by simp))]
  refine ⟨qs.map fun q => GoPath.base q.name, ?_, ?_, ?_⟩
  · rw [List.pairwise_map]
    refine List.Pairwise.imp_of_mem ?_ p1.order
    intro a b ha hb hlt
    obtain ⟨a1, a2⟩ := (p1.mem a).mp ha
    obtain ⟨b1, b2⟩ := (p1.mem b).mp hb
    refine (Str.lt_iff _ _).mpr ⟨base_order a2 b2 hlt, ?_⟩
    obtain ⟨x, _, _, rfl, hx, _⟩ := hkid a a1 a2
    obtain ⟨y, _, _, rfl, hy, _⟩ := hkid b b1 b2
    rw [hbase x hx, hbase y hy]
    rintro rfl
    exact ((Str.lt_iff _ _).mp hlt).2 rfl
  · intro x
    rw [List.mem_map]
    constructor
    · rintro ⟨q, hq, rfl⟩
      obtain ⟨a1, a2⟩ := (p1.mem q).mp hq
      obtain ⟨y, k, _, rfl, hy, h3, _⟩ := hkid q a1 a2
      rw [hbase y hy]
      exact ⟨k, h3⟩
    · rintro ⟨k, hk'⟩
      obtain ⟨f', d2, r1, r2, _⟩ := e2 _ _ hk'
      have hg : GoPath.Good (es ++ (cs ++ [x])) := (hp _ (by rw [hk'.1]; simp)).1.good
      refine ⟨own c (es ++ (cs ++ [x])), (p1.mem _).mpr ⟨Mem.stored_iff_lookup.mpr ⟨f', r1⟩, rfl, es ++ cs, x, ?_, rfl, ?_⟩,
        hbase x (GoPath.good_append.mp (GoPath.good_append.mp hg).2).2⟩
      · rw [List.append_assoc]; exact hg
      · rw [List.append_assoc]; rfl
  · rw [p2, List.map_map]
    congr 1
    refine List.map_congr_left fun q hq => ?_
    obtain ⟨a1, a2⟩ := (p1.mem q).mp hq
    obtain ⟨x, k, d2, rfl, hx, h3, ⟨f2, h4, h5⟩, _, h6⟩ := hkid q a1 a2
    simp only [Function.comp, childLink, linkTo, hbase x hx, entry, h4, h5, h3.1, Option.bind_some, Option.any_some, h6]

/-- The hypotheses of `C117_served_partial` are met: `/tmp/www` is served. -/
example : ∃ w hs w1 h, mem Demo.env (LoadFiles.loadFiles (fun b => [b]) [b! "tmp", b! "www"] wwwDir).prog
      (Mem.new Demo.info 7) [] = (w, hs, true) ∧
    Mem.openFile Demo.env w (b! "/tmp/www") = (w1, .ok h) ∧
    ((serve demoServer .handle (getReq (b! "/a.txt"))).exec Demo.env w1 [h]).2.2 = .content 200 5 none (b! "hello") ∧
    ((serve demoServer .handle (getReq (b! "/doc"))).exec Demo.env w1 [h]).2.2 = .redirect (b! "doc/") ∧
    ((serve demoServer .handle (getReq (b! "/doc/"))).exec Demo.env w1 [h]).2.2 = .content 200 3 none (b! "<p>") ∧
    ((serve demoServer .handle (getReq (b! "/.env"))).exec Demo.env w1 [h]).2.2 = .status 404 := by
  obtain ⟨w, hs, w1, h, h1, h2, h3⟩ := C117_served_partial Demo.env Demo.laws Demo.info_ok rfl 7 (cut := fun b => [b]) (by simp)
    (n := wwwDir) (by decide +kernel) rfl (es := [b! "tmp", b! "www"]) (by simp) (by rw [← hidden_iff]; decide) wwwDir_clean
    (fun cs hf => find_mem_tree (n := wwwDir) (by decide +kernel) (P := fun cs => Plain ([b! "tmp", b! "www"] ++ cs) ∧
      Clear Demo.info (GoPath.mk ([b! "tmp", b! "www"] ++ cs))) (by decide +kernel) hf)
  have hwh : ∀ p, Whole (getReq p) := fun p => ⟨fun _ => rfl, fun _ _ => rfl⟩
  refine ⟨w, hs, w1, h, h1, h2, ?_, ?_, ?_, ?_⟩
  · exact (h3 demoServer (getReq (b! "/a.txt")) demoServer_ok (hwh _) ⟨by decide, by decide, by decide, Or.inr (by decide)⟩
      ⟨by decide, by decide, by decide, Or.inr (by decide)⟩ (by decide)).1 _ _ ⟨rfl, by rw [← hidden_iff]; decide⟩ (by decide)
  · exact (h3 demoServer (getReq (b! "/doc")) demoServer_ok (hwh _) ⟨by decide, by decide, by decide, Or.inr (by decide)⟩
      ⟨by decide, by decide, by decide, Or.inr (by decide)⟩ (by decide)).2.1 _ _ ⟨rfl, by rw [← hidden_iff]; decide⟩ (by decide)
  · exact (h3 demoServer (getReq (b! "/doc/")) demoServer_ok (hwh _) ⟨by decide, by decide, by decide, Or.inr (by decide)⟩
      ⟨by decide, by decide, by decide, Or.inr (by decide)⟩ (by decide)).2.2.1 _ _ _ _ ⟨rfl, by rw [← hidden_iff]; decide⟩
      ⟨rfl, by rw [← hidden_iff]; decide⟩ (by decide)
  · exact (h3 demoServer (getReq (b! "/.env")) demoServer_ok (hwh _) ⟨by decide, by decide, by decide, Or.inr (by decide)⟩
      ⟨by decide, by decide, by decide, Or.inr (by decide)⟩ (by decide)).2.2.2 (by
        rintro k ⟨_, hk⟩
        exact hk (by rw [← hidden_iff]; decide))

/-- The hypotheses of `C117_page_partial` are met: the page for `/tmp/www` has no hidden entries. -/
example : ∃ w hs w1 h, mem Demo.env (LoadFiles.loadFiles (fun b => [b]) [b! "tmp", b! "www"] wwwDir).prog
      (Mem.new Demo.info 7) [] = (w, hs, true) ∧
    Mem.openFile Demo.env w (b! "/tmp/www") = (w1, .ok h) ∧
    ∃ xs : List Str, xs.Pairwise (fun a b => Str.lt a b = true) ∧ (∀ x, x ∈ xs ↔ x = b! "a.txt" ∨ x = b! "doc") ∧
      ((serve demoServer .handle (getReq (b! "/"))).exec Demo.env w1 [h]).2.2 = .page (xs.map (linkTo wwwDir [])) := by
  obtain ⟨w, hs, w1, h, h1, h2, h3⟩ := C117_page_partial Demo.env Demo.laws Demo.info_ok rfl 7 (cut := fun b => [b]) (by simp)
    (n := wwwDir) (by decide +kernel) rfl (es := [b! "tmp", b! "www"]) (by simp) (by rw [← hidden_iff]; decide) wwwDir_clean
    (fun cs hf => find_mem_tree (n := wwwDir) (by decide +kernel) (P := fun cs => Plain ([b! "tmp", b! "www"] ++ cs) ∧
      Clear Demo.info (GoPath.mk ([b! "tmp", b! "www"] ++ cs))) (by decide +kernel) hf)
  have hkids : ∀ x k, visible [b! "tmp", b! "www"] wwwDir ([] ++ [x]) k → x = b! "a.txt" ∨ x = b! "doc" := by
    rintro x k ⟨hf, hk⟩
    have := find_mem_tree (n := wwwDir) (by decide +kernel) (P := fun cs => cs.length = 1 →
      hidden ([b! "tmp", b! "www"] ++ cs) = true ∨ cs = [b! "a.txt"] ∨ cs = [b! "doc"]) (by decide +kernel)
      (show wwwDir.find [x] ≠ none by rw [show wwwDir.find [x] = some k from hf]; simp) rfl
    rcases this with h | h | h
    · exact absurd (hidden_iff.mp h) hk
    · exact Or.inl (by simpa using h)
    · exact Or.inr (by simpa using h)
  obtain ⟨xs, q1, q2, q3⟩ := h3 demoServer (getReq (b! "/")) [] (by decide) (fun _ => rfl)
    ⟨by decide, by decide, by decide, Or.inl rfl⟩ ⟨by decide, by decide, by decide, Or.inr (by decide)⟩ (by decide) (by decide)
    _ _ ⟨rfl, by rw [← hidden_iff]; decide⟩
    (by
      intro k hk
      rcases hkids _ k hk with h | h <;> revert h <;> decide)
    (fun q _ _ _ => List.nil_prefix)
    (by
      intro x y k k' hx _ hy hxy
      rcases hkids x k hx with rfl | rfl <;> rcases hkids y k' hy with rfl | rfl <;> first | rfl | (exfalso; revert hxy; decide))
  refine ⟨w, hs, w1, h, h1, h2, xs, q1, fun x => ?_, q3⟩
  rw [q2 x]
  constructor
  · rintro ⟨k, hk⟩
    exact hkids x k hk
  · rintro (rfl | rfl)
    · exact ⟨_, rfl, by rw [← hidden_iff]; decide⟩
    · exact ⟨_, rfl, by rw [← hidden_iff]; decide⟩

/-! ### Where it is false -/

/-- **C117** in full about files: whatever the path, the file is answered with its bytes. -/
def C117_statement (E : Env) : Prop :=
  ∀ (c : Info) (t : Int) (cut : Str → List Str) (n : Node) (es : List Str), ParseLaws E c → InfoOk c →
    c.importPath = c.module.path → (∀ b, (cut b).flatten = b) → WF n → n.isDir = true → es ≠ [] → ¬ Hidden es → Clean es n →
    (∀ cs, n.find cs ≠ none → Plain (es ++ cs) ∧ Clear c (GoPath.mk (es ++ cs))) →
    ∀ (w w1 : Mem.World) (hs : List Nat) (h : Nat), mem E (LoadFiles.loadFiles cut es n).prog (Mem.new c t) [] = (w, hs, true) →
      Mem.openFile E w (GoPath.mk es) = (w1, .ok h) →
      ∀ (S : Server) (r : Request), S.Ok → Whole r → Str.hasSuffix (rootedPath r.path) indexPage = false →
        ∀ d b, visible es n (GoPath.rootedElems (rootedPath r.path)) (.file d b) → (rootedPath r.path).getLast? ≠ some Str.slash →
          ((serve S .handle r).exec E w1 [h]).2.2 = .content 200 b.length none (if r.head then [] else b)

/-- A directory `www` with a file `www` in it. -/
def wwwInWww : Node := (Demo.dirNode (b! "www") [Demo.fileNode (b! "www") (b! "inner")]).2

theorem wwwInWww_clean : Clean [b! "www"] wwwInWww := by
  intro cs ds hf
  have : ∀ e ∈ wwwInWww.tree, ∀ k ≤ e.1.length, hidden ([b! "www"] ++ e.1.take k) = true →
      hidden ([b! "www"] ++ e.1) = true := by decide +kernel
  have := find_mem_tree (n := wwwInWww) (by decide +kernel) (P := fun cs => ∀ k ≤ cs.length,
    hidden ([b! "www"] ++ cs.take k) = true → hidden ([b! "www"] ++ cs) = true) this hf cs.length (by simp)
  rw [List.take_left, hidden_iff, hidden_iff] at this
  simpa using this

/-- **C117 is false** in full: of a directory copied to `/www`, the file `www` in it is not served, the answer is a redirect
as for a directory (pkging/mem/file.go:176-178). -/
theorem C117_own_path_refuted : ¬ C117_statement Demo.env := by
  intro hall
  have hp : ∀ cs, wwwInWww.find cs ≠ none → Plain ([b! "www"] ++ cs) ∧ Clear Demo.info (GoPath.mk ([b! "www"] ++ cs)) :=
    fun cs hf => find_mem_tree (n := wwwInWww) (by decide +kernel) (P := fun cs => Plain ([b! "www"] ++ cs) ∧
      Clear Demo.info (GoPath.mk ([b! "www"] ++ cs))) (by decide +kernel) hf
  obtain ⟨w, hs, w1, h, h1, h2, _⟩ := C117_served_partial Demo.env Demo.laws Demo.info_ok rfl 7 (cut := fun b => [b]) (by simp)
    (n := wwwInWww) (by decide +kernel) rfl (es := [b! "www"]) (by simp) (by rw [← hidden_iff]; decide) wwwInWww_clean hp
  have h3 := hall Demo.info 7 (fun b => [b]) wwwInWww [b! "www"] Demo.laws Demo.info_ok rfl (by simp) (by decide +kernel) rfl
    (by simp) (by rw [← hidden_iff]; decide) wwwInWww_clean hp w w1 hs h h1 h2 demoServer (getReq (b! "/www")) demoServer_ok
    ⟨fun _ => rfl, fun _ _ => rfl⟩ (by decide) _ _ ⟨rfl, by rw [← hidden_iff]; decide⟩ (by decide)
  have hno : (match Mem.openFile Demo.env (mem Demo.env (LoadFiles.loadFiles (fun b => [b]) [b! "www"] wwwInWww).prog
      (Mem.new Demo.info 7) []).1 (GoPath.mk [b! "www"]) with
      | (w1, .ok h) => decide (((serve demoServer .handle (getReq (b! "/www"))).exec Demo.env w1 [h]).2.2 = .redirect (b! "www/"))
      | _ => false) = true := by decide +kernel
  rw [h1] at hno
  simp only [h2, decide_eq_true_eq] at hno
  rw [hno] at h3
  cases h3

end Props
end Verif
