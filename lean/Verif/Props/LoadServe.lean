import Verif.Props.LoadWalk

/-! C117 for a Pkger with other files in it. -/

namespace Verif
namespace Props

open FileSys Script
open LoadFiles hiding loadFiles
open Spec hiding Out
open Disk (Node)
open Disk.Node (WF WFKids)
open Site (rootedPath)
open Http (Request Server serve indexPage)

/-- The directory, new in the Pkger, is opened and what is stored at and below it is what was copied. -/
theorem loaded_serving_into (E : Env) {c : Info} (hl : ParseLaws E c) (hi : InfoOk c) (hpk : c.importPath = c.module.path)
    {rel : List Str} (hrel : GoPath.Good rel) {fs : Fs} {w : Mem.World} (hw : InMem E c rel fs w)
    {cut : Str → List Str} (hcut : ∀ b, (cut b).flatten = b) {n : Node} (hn : WF n) (hnd : n.isDir = true) {es : List Str}
    (hes : es ≠ []) (hre : rel <+: es) (hv : ¬ Hidden es) (hcl : Clean es n)
    (hp : ∀ cs, n.find cs ≠ none → Plain (es ++ cs) ∧ Clear c (GoPath.mk (es ++ cs)))
    (hover : ¬ OverFile fs es) (hfree : ∀ q, es <+: q → fs q = none) (hs : List Nat) :
    ∃ w' hs' w1 h fs', mem E (LoadFiles.loadFiles cut es n).prog w hs = (w', hs', true) ∧
      Mem.openFile E w' (GoPath.mk es) = (w1, .ok h) ∧ Serving E c w1 [h] c.module.path es c .handle ∧
      InMem E c rel fs' w1 ∧ (∀ q, ¬ es <+: q → fs' q = (fs.mkdirs es) q) ∧
      (∀ cs k, visible es n cs k → ∃ f d, Mem.lookup w1 (own c (es ++ cs)) = some f ∧ f.info = some d ∧
        d.name = (es ++ cs).getLast?.getD [] ∧ d.isDir = k.isDir ∧ f.bytes = k.data) ∧
      ∀ cs, GoPath.Good (es ++ cs) → Mem.lookup w1 (own c (es ++ cs)) ≠ none → ∃ k, visible es n cs k := by
  obtain ⟨fs', hld, hgo⟩ := goes_loadFiles (c := c) (rel := rel) hcut hn hnd hes hv hcl hp hre hover
    (fun x q hq => hfree q ((List.prefix_append es [x]).trans hq))
  have hroot : n.find [] = some n := by cases n <;> rfl
  obtain ⟨hpe, hce⟩ := hp [] (by rw [hroot]; simp)
  rw [List.append_nil] at hpe hce
  have hhere : HereAt c (mem E (LoadFiles.loadFiles cut es n).prog w hs).1 es := by
    have hgo := hgo
    unfold LoadFiles.loadFiles at hgo ⊢
    rw [if_pos hnd, load_chain] at hgo ⊢
    refine chain_here hl hi hpk hrel hpe.good hes _ hs hw hgo ?_ (by
      intro f hf
      rw [hw.lookup_none hpe.good hes hre (hfree es (List.prefix_refl _))] at hf
      cases hf)
    intro a ha
    obtain ⟨⟨ds, m⟩, he, hae⟩ := List.mem_filterMap.mp ha
    have hfm : n.find ds = some m := (Disk.mem_tree_iff _ _ _ hn).mp he
    unfold actOf at hae
    split at hae
    · cases hae
    · cases hae
      cases m with
      | dir d ks => exact Or.inl ⟨_, _, rfl⟩
      | file d b =>
        right
        intro htouch
        have : es = es ++ ds := htouch
        have : ds = [] := by simpa using this
        subst this
        rw [hroot, Option.some.injEq] at hfm
        rw [hfm] at hnd
        cases hnd
  obtain ⟨w', hs', e1, him⟩ := C97_mem_partial E hl hi hpk hrel hgo.2 hw hgo.1 hs
  rw [e1] at hhere
  have e2 : ∀ cs k, visible es n cs k → ∃ f d, Mem.lookup w' (own c (es ++ cs)) = some f ∧ f.info = some d ∧
      d.name = (es ++ cs).getLast?.getD [] ∧ d.isDir = k.isDir ∧ f.bytes = k.data := by
    intro cs k hk
    have hg : GoPath.Good (es ++ cs) := (hp cs (by rw [hk.1]; simp)).1.good
    cases k with
    | file d b =>
      obtain ⟨f, d', g1, g2, g3, g4, g5⟩ := him.lookup_some hg (by simp [hes]) (hre.trans (List.prefix_append _ _))
        (hld.1 cs (.file b) (by unfold shape; rw [hk.1]; rfl) hk.2)
      exact ⟨f, d', g1, g2, g3, g4, g5⟩
    | dir d kids =>
      obtain ⟨f, d', g1, g2, g3, g4, g5⟩ := him.lookup_some hg (by simp [hes]) (hre.trans (List.prefix_append _ _))
        (hld.1 cs .dir (by unfold shape; rw [hk.1]; rfl) hk.2)
      exact ⟨f, d', g1, g2, g3, g4, g5⟩
  obtain ⟨f, d, g1, g2, _, g4, _⟩ := e2 [] n ⟨hroot, by rw [List.append_nil]; exact hv⟩
  rw [List.append_nil] at g1
  obtain ⟨w1, h, o1, o2, o3⟩ := serving_open E hl hi him.reached hpe hce g1 g2 (by rw [g4]; exact hnd) (hhere f g1)
  refine ⟨w', hs', w1, h, fs', e1, o1, o2, him.same o2.reached (fun q => o3 q),
    fun q hq => hld.2 q fun cs hcs => absurd ⟨cs, hcs.symm⟩ hq, ?_, ?_⟩
  · intro cs k hk
    obtain ⟨f, d, q1, q2⟩ := e2 cs k hk
    exact ⟨f, d, by rw [o3]; exact q1, q2⟩
  · intro cs hg hst
    rw [o3] at hst
    have hfs := him.fs_of_lookup hg (by simp [hes]) (hre.trans (List.prefix_append _ _)) hst
    by_cases hc0 : cs = []
    · subst hc0
      exact ⟨n, hroot, by rw [List.append_nil]; exact hv⟩
    by_cases hold : ∀ cs', es ++ cs = es ++ cs' → shape n cs' = none ∨ Hidden (es ++ cs)
    · exfalso
      rw [hld.2 _ hold] at hfs
      have hlow : ¬ es ++ cs <+: es := by
        intro hlow
        have := hlow.length_le
        rw [List.length_append] at this
        exact hc0 (List.eq_nil_of_length_eq_zero (by omega))
      unfold Fs.mkdirs at hfs
      rw [if_neg hlow] at hfs
      exact hfs (hfree _ (List.prefix_append _ _))
    · obtain ⟨cs', hold⟩ := Classical.not_forall.mp hold
      obtain ⟨e, hold⟩ := Classical.not_imp.mp hold
      rw [not_or] at hold
      rw [← List.append_cancel_left e] at hold
      cases hk : n.find cs with
      | none => exact absurd (shape_none.mpr hk) hold.1
      | some k => exact ⟨k, hk, hold.2⟩

/-- **C117** for a Pkger with other files in it, in part: what `C117_served_partial` says of a Pkger just made holds wherever
there was nothing at the place the directory is copied to. -/
theorem C117_into_partial (E : Env) {c : Info} (hl : ParseLaws E c) (hi : InfoOk c) (hpk : c.importPath = c.module.path)
    {rel : List Str} (hrel : GoPath.Good rel) {fs : Fs} {w : Mem.World} (hw : InMem E c rel fs w)
    {cut : Str → List Str} (hcut : ∀ b, (cut b).flatten = b) {n : Node} (hn : WF n) (hnd : n.isDir = true) {es : List Str}
    (hes : es ≠ []) (hre : rel <+: es) (hv : ¬ Hidden es) (hcl : Clean es n)
    (hp : ∀ cs, n.find cs ≠ none → Plain (es ++ cs) ∧ Clear c (GoPath.mk (es ++ cs)))
    (hover : ¬ OverFile fs es) (hfree : ∀ q, es <+: q → fs q = none) (hs : List Nat) :
    ∃ w' hs' w1 h, mem E (LoadFiles.loadFiles cut es n).prog w hs = (w', hs', true) ∧
      Mem.openFile E w' (GoPath.mk es) = (w1, .ok h) ∧
      ∀ (S : Server) (r : Request), S.Ok → Whole r → Wanted c c es (GoPath.rootedElems (rootedPath r.path)) →
        Wanted c c es (GoPath.rootedElems (rootedPath r.path) ++ [b! "index.html"]) →
        Str.hasSuffix (rootedPath r.path) indexPage = false →
        (∀ d b, visible es n (GoPath.rootedElems (rootedPath r.path)) (.file d b) →
          (rootedPath r.path).getLast? ≠ some Str.slash →
          ((serve S .handle r).exec E w1 [h]).2.2 = .content 200 b.length none (if r.head then [] else b)) ∧
        (∀ d ks, visible es n (GoPath.rootedElems (rootedPath r.path)) (.dir d ks) →
          (rootedPath r.path).getLast? ≠ some Str.slash →
          ((serve S .handle r).exec E w1 [h]).2.2 = .redirect (GoPath.base (rootedPath r.path) ++ [Str.slash])) ∧
        (∀ d ks d' b, visible es n (GoPath.rootedElems (rootedPath r.path)) (.dir d ks) →
          visible es n (GoPath.rootedElems (rootedPath r.path) ++ [b! "index.html"]) (.file d' b) →
          (rootedPath r.path).getLast? = some Str.slash →
          ((serve S .handle r).exec E w1 [h]).2.2 = .content 200 b.length none (if r.head then [] else b)) ∧
        ((∀ k, ¬ visible es n (GoPath.rootedElems (rootedPath r.path)) k) →
          ((serve S .handle r).exec E w1 [h]).2.2 = .status 404) := by
  obtain ⟨w', hs', w1, h, fs', e1, o1, o2, _, _, e2, e3⟩ := loaded_serving_into E hl hi hpk hrel hw hcut hn hnd hes hre hv hcl hp hover hfree hs
  refine ⟨w', hs', w1, h, e1, o1, ?_⟩
  intro S r hS hr hw hw' hidx
  refine ⟨?_, ?_, ?_, ?_⟩
  · intro d b hk hsl
    obtain ⟨f, d', q1, q2, _, q3, q4⟩ := e2 _ _ hk
    have q4 : f.bytes = b := q4
    rw [← q4]
    exact (C72_file_partial E hS o2 hw hidx).1 f d' q1 q2 q3 hsl (hr.cond _) (hr.ranges _ _)
  · intro d ks hk hsl
    obtain ⟨f, d', q1, q2, _, q3, _⟩ := e2 _ _ hk
    exact C74_redirect_partial E o2 hw hidx ⟨f, q1, q2⟩ q3 hsl
  · intro d ks d2 b hk hk2 hsl
    obtain ⟨f, d', q1, q2, _, q3, _⟩ := e2 _ _ hk
    obtain ⟨f2, d2', p1, p2, _, p3, p4⟩ := e2 _ _ hk2
    have p4 : f2.bytes = b := p4
    rw [← p4]
    exact C74_index_partial E hS o2 hw hidx ⟨f, q1, q2⟩ q3 hsl hw' p1 p2 p3 (hr.cond _) (hr.ranges _ _)
  · intro hno
    refine serve_missing E o2 hw hidx ?_
    intro hst
    obtain ⟨f, hf⟩ := Mem.stored_iff_lookup.mp hst
    obtain ⟨k, hk⟩ := e3 _ (GoPath.good_append.mpr ⟨by have := (hp [] (by cases n <;> simp [Node.find])).1.good; rwa [List.append_nil] at this, GoPath.good_rootedElems _⟩)
      (by rw [show Mem.lookup w1 (own c _) = some f from hf]; simp)
    exact hno k hk

/-- **C117** for the pages that list a directory, in a Pkger with other files in it, in part: as in `C117_page_partial`, if none
of the other names begins with that of the directory. -/
theorem C117_into_page_partial (E : Env) {c : Info} (hl : ParseLaws E c) (hi : InfoOk c) (hpk : c.importPath = c.module.path)
    {rel : List Str} (hrel : GoPath.Good rel) {fs : Fs} {w : Mem.World} (hw : InMem E c rel fs w)
    {cut : Str → List Str} (hcut : ∀ b, (cut b).flatten = b) {n : Node} (hn : WF n) (hnd : n.isDir = true) {es : List Str}
    (hes : es ≠ []) (hre : rel <+: es) (hv : ¬ Hidden es) (hcl : Clean es n)
    (hp : ∀ cs, n.find cs ≠ none → Plain (es ++ cs) ∧ Clear c (GoPath.mk (es ++ cs)))
    (hover : ¬ OverFile fs es) (hfree : ∀ q, es <+: q → fs q = none) (hs : List Nat) :
    ∃ w' hs' w1 h, mem E (LoadFiles.loadFiles cut es n).prog w hs = (w', hs', true) ∧
      Mem.openFile E w' (GoPath.mk es) = (w1, .ok h) ∧
      ∀ (S : Server) (r : Request) (cs : List Str), GoPath.rootedElems (rootedPath r.path) = cs → (∀ t, r.cond t = none) →
        Wanted c c es cs → Wanted c c es (cs ++ [b! "index.html"]) → Str.hasSuffix (rootedPath r.path) indexPage = false →
        (rootedPath r.path).getLast? = some Str.slash → ∀ d ks, visible es n cs (.dir d ks) →
        (∀ k, ¬ visible es n (cs ++ [b! "index.html"]) k) →
        (∀ q, rel <+: q → fs q ≠ none → ¬ GoPath.mk (es ++ cs) <+: GoPath.mk q) →
        (∀ q k, visible es n q k → GoPath.mk (es ++ cs) <+: GoPath.mk (es ++ q) → cs <+: q) →
        (∀ x y k k', visible es n (cs ++ [x]) k → k.isDir = true → visible es n (cs ++ [y]) k' → x <+: y → x = y) →
        ∃ xs : List Str, xs.Pairwise (fun a b => Str.lt a b = true) ∧ (∀ x, x ∈ xs ↔ ∃ k, visible es n (cs ++ [x]) k) ∧
          ((serve S .handle r).exec E w1 [h]).2.2 = .page (xs.map (linkTo n cs)) := by
  obtain ⟨w', hs', w1, h, fs', e1, o1, o2, him, hold, e2, e3⟩ := loaded_serving_into E hl hi hpk hrel hw hcut hn hnd hes hre hv hcl
    hp hover hfree hs
  refine ⟨w', hs', w1, h, e1, o1, ?_⟩
  clear hw
  intro S r cs hcs hcond hw hw' hidx hsl d ks hk hni hbes hap hdis
  subst hcs
  generalize hcs : GoPath.rootedElems (rootedPath r.path) = cs at *
  obtain ⟨hpq, hcq⟩ := hp cs (by rw [hk.1]; simp)
  have hgd := hpq.good
  -- what the tree of the Pkger has is what is visible
  have hsee : ∀ q e, fs' (es ++ q) = some e → GoPath.Good (es ++ q) ∧ ∃ k, visible es n q k ∧ k.isDir = e.isDir := by
    intro q e hq
    have hg : GoPath.Good (es ++ q) := him.tree.good _ (by rw [hq]; simp)
    obtain ⟨f, d1, g1, g2, _, g4, _⟩ := him.lookup_some hg (by simp [hes]) (hre.trans (List.prefix_append _ _)) hq
    refine ⟨hg, ?_⟩
    obtain ⟨k, h2⟩ := e3 _ hg (by rw [g1]; simp)
    obtain ⟨f', d', q1, q2, _, q4, _⟩ := e2 _ _ h2
    rw [g1] at q1
    cases q1
    rw [g2] at q2
    cases q2
    exact ⟨k, h2, by rw [← q4, g4]⟩
  have hApart : Apart rel fs' (es ++ cs) := by
    intro q hrq hq hpre
    have hg : GoPath.Good q := him.tree.good _ hq
    by_cases hin : es <+: q
    · obtain ⟨cs', rfl⟩ := hin
      cases hfs : fs' (es ++ cs') with
      | none => exact absurd hfs hq
      | some e =>
        obtain ⟨_, k, h1, _⟩ := hsee _ _ hfs
        obtain ⟨t, ht⟩ := hap cs' k h1 hpre
        exact ⟨t, by rw [← ht, List.append_assoc]⟩
    · rw [hold q hin] at hq
      unfold Fs.mkdirs at hq
      by_cases hlow : q <+: es
      · have h3 : GoPath.mk q <+: GoPath.mk (es ++ cs) := mk_prefix_of (hlow.trans (List.prefix_append _ _))
        have h4 := hpre.eq_of_length_le h3.length_le
        exact GoPath.mk_injective hgd hg h4 ▸ List.prefix_refl _
      · rw [if_neg hlow] at hq
        exact absurd hpre (hbes q hrq hq)
  have hDist : Script.Distinct fs' (es ++ cs) := by
    intro x y hx hy hxy
    rw [List.append_assoc] at hx hy
    obtain ⟨_, k, h1, h2⟩ := hsee _ _ hx
    cases hfy : fs' (es ++ (cs ++ [y])) with
    | none => exact absurd hfy hy
    | some e =>
      obtain ⟨_, k', h3, _⟩ := hsee _ _ hfy
      exact hdis x y k k' h1 h2 h3 hxy
  have hlist := listable_mem hl hi him hpq hcq (by simp [hes]) (hre.trans (List.prefix_append _ _)) hApart hDist
  have hclean : Mem.CleanNames w1 c.module.path := by
    intro q hq hqp
    obtain ⟨f, hf⟩ := Mem.stored_iff_lookup.mp hq
    obtain ⟨qs, h1, _, h3⟩ := him.plain q (by rw [hf]; simp) hqp
    exact ⟨qs, h1.good, h3⟩
  -- the children
  have hkid : ∀ q, Mem.Stored w1 q → IsParent (own c (es ++ cs)) q → ∃ x k d, q = own c (es ++ (cs ++ [x])) ∧ GoPath.Good [x] ∧
      visible es n (cs ++ [x]) k ∧ Mem.HasDetails w1 q d ∧ d.name = x ∧ d.isDir = k.isDir := by
    rintro q hst ⟨hpk', xs, x, hx1, hx2, hx3⟩
    have e := GoPath.mk_injective hgd (b := xs) (GoPath.good_append.mp hx1).1 hx2
    subst e
    have eq : q = own c (es ++ (cs ++ [x])) := by cases q; simp only [own] at hpk' hx3 ⊢; rw [hpk', hx3, List.append_assoc]
    subst eq
    rw [List.append_assoc] at hx1
    obtain ⟨f, hf⟩ := Mem.stored_iff_lookup.mp hst
    obtain ⟨k, h2⟩ := e3 _ hx1 (by rw [show Mem.lookup w1 (own c _) = some f from hf]; simp)
    obtain ⟨f', d', q1, q2, q3, q4, _⟩ := e2 _ _ h2
    refine ⟨x, k, d', rfl, (GoPath.good_append.mp (GoPath.good_append.mp hx1).2).2, h2, ⟨f', q1, q2⟩, ?_, q4⟩
    rw [q3, ← List.append_assoc, List.getLast?_concat]
    rfl
  obtain ⟨f, d', q1, q2, _, q3, _⟩ := e2 _ _ hk
  obtain ⟨qs, p1, p2⟩ := C74_page_partial E (S := S) (r := r) o2 (by rw [hcs]; exact hw) hidx (d := d') (by rw [hcs]; exact ⟨f, q1, q2⟩) q3 hsl
    (hcond _) (by rw [hcs]; exact hw') (by
      rw [hcs]
      intro hst
      obtain ⟨f, hf⟩ := Mem.stored_iff_lookup.mp hst
      obtain ⟨k, hk'⟩ := e3 _ (GoPath.good_append.mpr ⟨by have := (hp [] (by cases n <;> simp [Node.find])).1.good; rwa [List.append_nil] at this, hw'.plain.good⟩)
        (by rw [show Mem.lookup w1 (own c _) = some f from hf]; simp)
      exact hni k hk') hclean (by rw [hcs]; exact hlist) (by
      rw [hcs]
      intro q d1 hpar hd1
      obtain ⟨x, k, d2, h1, h2, _, h4, h5, _⟩ := hkid q (Props.HasDetails.stored hd1) hpar
      rw [Props.HasDetails.unique hd1 h4, h5, h1]
      show x = GoPath.base (GoPath.mk (es ++ (cs ++ [x])))
      rw [← List.append_assoc, GoPath.base_mk_snoc (h2 x (by simp))])
  rw [hcs] at p1
  have hbase : ∀ x, GoPath.Good [x] → GoPath.base (own c (es ++ (cs ++ [x]))).name = x := by
    intro x hx
    show GoPath.base (GoPath.mk (es ++ (cs ++ [x]))) = x
    rw [← List.append_assoc, GoPath.base_mk_snoc (hx x (by simp))]
  refine ⟨qs.map fun q => GoPath.base q.name, ?_, ?_, ?_⟩
  · rw [List.pairwise_map]
    refine List.Pairwise.imp_of_mem ?_ p1.order
    intro a b ha hb hlt
    obtain ⟨a1, a2⟩ := (p1.mem a).mp ha
    obtain ⟨b1, b2⟩ := (p1.mem b).mp hb
    refine (Str.lt_iff _ _).mpr ⟨base_order a2 b2 hlt, ?_⟩
    obtain ⟨x, _, _, rfl, hx, _⟩ := hkid a a1 a2
    obtain ⟨y, _, _, rfl, hy, _⟩ := hkid b b1 b2
    rw [hbase x hx, hbase y hy]
    rintro rfl
    exact ((Str.lt_iff _ _).mp hlt).2 rfl
  · intro x
    rw [List.mem_map]
    constructor
    · rintro ⟨q, hq, rfl⟩
      obtain ⟨a1, a2⟩ := (p1.mem q).mp hq
      obtain ⟨y, k, _, rfl, hy, h3, _⟩ := hkid q a1 a2
      rw [hbase y hy]
      exact ⟨k, h3⟩
    · rintro ⟨k, hk'⟩
      obtain ⟨f', d2, r1, r2, _⟩ := e2 _ _ hk'
      have hg : GoPath.Good (es ++ (cs ++ [x])) := (hp _ (by rw [hk'.1]; simp)).1.good
      refine ⟨own c (es ++ (cs ++ [x])), (p1.mem _).mpr ⟨Mem.stored_iff_lookup.mpr ⟨f', r1⟩, rfl, es ++ cs, x, ?_, rfl, ?_⟩,
        hbase x (GoPath.good_append.mp (GoPath.good_append.mp hg).2).2⟩
      · rw [List.append_assoc]; exact hg
      · rw [List.append_assoc]; rfl
  · rw [p2, List.map_map]
    congr 1
    refine List.map_congr_left fun q hq => ?_
    obtain ⟨a1, a2⟩ := (p1.mem q).mp hq
    obtain ⟨x, k, d2, rfl, hx, h3, ⟨f2, h4, h5⟩, _, h6⟩ := hkid q a1 a2
    simp only [Function.comp, childLink, linkTo, hbase x hx, entry, h4, h5, h3.1, Option.bind_some, Option.any_some, h6]

/-- The hypotheses of `C117_into_partial` are met: `/tmp/www` beside the files of the module. -/
example : ∃ w hs w1 h, mem Demo.env (LoadFiles.loadFiles (fun b => [b]) [b! "tmp", b! "www"] wwwDir).prog
      (siteMem siteApp) [] = (w, hs, true) ∧
    Mem.openFile Demo.env w (b! "/tmp/www") = (w1, .ok h) ∧
    ((serve demoServer .handle (getReq (b! "/a.txt"))).exec Demo.env w1 [h]).2.2 = .content 200 5 none (b! "hello") ∧
    ((serve demoServer .handle (getReq (b! "/doc/"))).exec Demo.env w1 [h]).2.2 = .content 200 3 none (b! "<p>") ∧
    ((serve demoServer .handle (getReq (b! "/img/empty"))).exec Demo.env w1 [h]).2.2 = .status 404 := by
  obtain ⟨w, hs, w1, h, h1, h2, h3⟩ := C117_into_partial Demo.env Demo.laws Demo.info_ok rfl (by decide) (site_inMem siteApp_ok rfl)
    (cut := fun b => [b]) (by simp) (n := wwwDir) (by decide +kernel) rfl (es := [b! "tmp", b! "www"]) (by simp) List.nil_prefix
    (by rw [← hidden_iff]; decide) wwwDir_clean
    (fun cs hf => find_mem_tree (n := wwwDir) (by decide +kernel) (P := fun cs => Plain ([b! "tmp", b! "www"] ++ cs) ∧
      Clear Demo.info (GoPath.mk ([b! "tmp", b! "www"] ++ cs))) (by decide +kernel) hf)
    (by rw [← overFile_iff]; decide +kernel)
    (by
      rintro q ⟨t, rfl⟩
      rw [shape_none, Disk.find_append]
      rfl) []
  have hwh : ∀ p, Whole (getReq p) := fun p => ⟨fun _ => rfl, fun _ _ => rfl⟩
  refine ⟨w, hs, w1, h, h1, h2, ?_, ?_, ?_⟩
  · exact (h3 demoServer (getReq (b! "/a.txt")) demoServer_ok (hwh _) ⟨by decide, by decide, by decide, Or.inr (by decide)⟩
      ⟨by decide, by decide, by decide, Or.inr (by decide)⟩ (by decide)).1 _ _ ⟨rfl, by rw [← hidden_iff]; decide⟩ (by decide)
  · exact (h3 demoServer (getReq (b! "/doc/")) demoServer_ok (hwh _) ⟨by decide, by decide, by decide, Or.inr (by decide)⟩
      ⟨by decide, by decide, by decide, Or.inr (by decide)⟩ (by decide)).2.2.1 _ _ _ _ ⟨rfl, by rw [← hidden_iff]; decide⟩
      ⟨rfl, by rw [← hidden_iff]; decide⟩ (by decide)
  · exact (h3 demoServer (getReq (b! "/img/empty")) demoServer_ok (hwh _) ⟨by decide, by decide, by decide, Or.inr (by decide)⟩
      ⟨by decide, by decide, by decide, Or.inr (by decide)⟩ (by decide)).2.2.2 (by
        rintro k ⟨hk, _⟩
        have : wwwDir.find [b! "img", b! "empty"] = none := rfl
        have hk : wwwDir.find [b! "img", b! "empty"] = some k := hk
        rw [this] at hk
        cases hk)

/-- The hypotheses of `C117_into_page_partial` are met: the page for `/tmp/www` has none of the other files. -/
example : ∃ w hs w1 h, mem Demo.env (LoadFiles.loadFiles (fun b => [b]) [b! "tmp", b! "www"] wwwDir).prog
      (siteMem siteApp) [] = (w, hs, true) ∧
    Mem.openFile Demo.env w (b! "/tmp/www") = (w1, .ok h) ∧
    ∃ xs : List Str, xs.Pairwise (fun a b => Str.lt a b = true) ∧ (∀ x, x ∈ xs ↔ x = b! "a.txt" ∨ x = b! "doc") ∧
      ((serve demoServer .handle (getReq (b! "/"))).exec Demo.env w1 [h]).2.2 = .page (xs.map (linkTo wwwDir [])) := by
  obtain ⟨w, hs, w1, h, h1, h2, h3⟩ := C117_into_page_partial Demo.env Demo.laws Demo.info_ok rfl (by decide) (site_inMem siteApp_ok rfl)
    (cut := fun b => [b]) (by simp) (n := wwwDir) (by decide +kernel) rfl (es := [b! "tmp", b! "www"]) (by simp) List.nil_prefix
    (by rw [← hidden_iff]; decide) wwwDir_clean
    (fun cs hf => find_mem_tree (n := wwwDir) (by decide +kernel) (P := fun cs => Plain ([b! "tmp", b! "www"] ++ cs) ∧
      Clear Demo.info (GoPath.mk ([b! "tmp", b! "www"] ++ cs))) (by decide +kernel) hf)
    (by rw [← overFile_iff]; decide +kernel)
    (by
      rintro q ⟨t, rfl⟩
      rw [shape_none, Disk.find_append]
      rfl) []
  have hkids : ∀ x k, visible [b! "tmp", b! "www"] wwwDir ([] ++ [x]) k → x = b! "a.txt" ∨ x = b! "doc" := by
    rintro x k ⟨hf, hk⟩
    have := find_mem_tree (n := wwwDir) (by decide +kernel) (P := fun cs => cs.length = 1 →
      hidden ([b! "tmp", b! "www"] ++ cs) = true ∨ cs = [b! "a.txt"] ∨ cs = [b! "doc"]) (by decide +kernel)
      (show wwwDir.find [x] ≠ none by rw [show wwwDir.find [x] = some k from hf]; simp) rfl
    rcases this with h | h | h
    · exact absurd (hidden_iff.mp h) hk
    · exact Or.inl (by simpa using h)
    · exact Or.inr (by simpa using h)
  obtain ⟨xs, q1, q2, q3⟩ := h3 demoServer (getReq (b! "/")) [] (by decide) (fun _ => rfl)
    ⟨by decide, by decide, by decide, Or.inl rfl⟩ ⟨by decide, by decide, by decide, Or.inr (by decide)⟩ (by decide) (by decide)
    _ _ ⟨rfl, by rw [← hidden_iff]; decide⟩
    (by
      intro k hk
      rcases hkids _ k hk with h | h <;> revert h <;> decide)
    (by
      intro q _ hq
      exact find_mem_tree (n := siteApp.2) (by decide +kernel) (P := fun q => ¬ GoPath.mk [b! "tmp", b! "www"] <+: GoPath.mk q)
        (by decide +kernel) (fun h => hq (shape_none.mpr h)))
    (fun q _ _ _ => List.nil_prefix)
    (by
      intro x y k k' hx _ hy hxy
      rcases hkids x k hx with rfl | rfl <;> rcases hkids y k' hy with rfl | rfl <;> first | rfl | (exfalso; revert hxy; decide))
  refine ⟨w, hs, w1, h, h1, h2, xs, q1, fun x => ?_, q3⟩
  rw [q2 x]
  constructor
  · rintro ⟨k, hk⟩
    exact hkids x k hk
  · rintro (rfl | rfl)
    · exact ⟨_, rfl, by rw [← hidden_iff]; decide⟩
    · exact ⟨_, rfl, by rw [← hidden_iff]; decide⟩

end Props
end Verif
