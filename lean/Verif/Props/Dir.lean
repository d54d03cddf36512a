import Verif.Props.Walk
import Verif.Lemmas.Mkdir

/-! C26 - C30: directory handles and missing files. -/

namespace Verif
namespace Props

open Mem Spec

/-! ### Readdir -/

/-- The recorded visits that `Readdir` turns into entries. -/
def counted (E : Env) (here : Info) (root : Str) (parent : Path) (v : Visit) : Bool :=
  decide (root ≠ v.path) &&
    (match E.parse here v.path with
     | .ok pt => decide (pt.name ≠ parent.name)
     | .error _ => false)

theorem readdir_infos (E : Env) {here : Info} {root : Str} {parent : Path} {count : Int} (hc : count ≤ 0)
    (w : World) :
    (walk E (fun _ => w) (readdirCb E here root parent count) [] root).1 =
      ((visits E (fun _ => w) (readdirCb E here root parent count) [] root).filter
        (counted E here root parent)).map (·.details) := by
  rw [← (walk_logged E (fun _ => w) (readdirCb E here root parent count) [] root).1]
  unfold visits
  refine walk_inv (I := fun x : List Details × List Visit =>
    x.1 = (x.2.filter (counted E here root parent)).map (·.details)) E _ _ ?_ rfl root
  intro p d s h
  simp only [logged] at h ⊢
  rw [List.filter_append, List.map_append, ← h]
  unfold readdirCb
  rw [if_neg (by omega)]
  by_cases hr : root = p
  · simp [hr, counted]
  · rw [if_neg hr]
    cases hp : E.parse here p with
    | error e => simp [counted, hp]
    | ok pt =>
      simp only
      by_cases hn : pt.name = parent.name
      · simp [hn, counted, hp]
      · simp [hn, counted, hp, hr]

/-- The handle is one through which `root` can be listed: it has been given out, its own path is `root`, and the
parent recorded in it is not an entry of the directory. -/
structure DirHandle (E : Env) (i : Info) (w : World) (id : Nat) (root : Path) : Prop where
  held : Held E i w id
  path : (w.heap id).path = root
  parent : (w.heap id).parent.name = root.name ∨ ¬ root.name <+: (w.heap id).parent.name

/-- The children of `root`: `qs` lists them, each once, in lexical order. -/
structure ChildList (w : World) (root : Path) (qs : List Path) : Prop where
  order : qs.Pairwise fun a b => Str.lt a.str b.str = true
  mem : ∀ q, q ∈ qs ↔ Stored w q ∧ IsParent root q

/-- The full statement of **C26**. -/
def C26_statement (E : Env) : Prop :=
  ∀ (i : Info) (w : World) (id : Nat) (root : Path), CleanNames w root.pkg →
    DirHandle E i w id root →
    ∃ qs infos, ChildList w root qs ∧ readdir E w id 0 = .ok infos ∧ infos.map some = qs.map (entry w)

/-- What `Readdir` needs from the rest of the Pkger to be right. -/
structure Listable (E : Env) (w : World) (root : Path) : Prop where
  /-- Stored paths of the package are parsed back from their strings (C55). -/
  parses : ∀ q, Stored w q → q.pkg = root.pkg → E.parse w.here q.str = .ok q
  /-- The directory is stored or at least its string is well formed. -/
  parsesRoot : E.parse w.here root.str = .ok root
  /-- No path outside the directory has its name as a string prefix. -/
  noSibling : NoSibling w root
  /-- What lies deeper is in a stored directory that is a child. -/
  dirs : ∀ cs c ds, root.name = GoPath.mk cs → GoPath.Good (cs ++ c :: ds) → ds ≠ [] →
    Stored w ⟨root.pkg, GoPath.mk (cs ++ c :: ds)⟩ →
    ∃ d, HasDetails w ⟨root.pkg, GoPath.mk (cs ++ [c])⟩ d ∧ d.isDir = true
  /-- No child directory's name is a string prefix of another child's name. -/
  noPrefix : ∀ a b d, IsParent root a → IsParent root b → HasDetails w a d → d.isDir = true → Stored w b →
    a.name <+: b.name → a = b

theorem HasDetails.unique {w : World} {q : Path} {d d' : Details} (h : HasDetails w q d)
    (h' : HasDetails w q d') : d = d' := by
  obtain ⟨f, h1, h2⟩ := h
  obtain ⟨f', h1', h2'⟩ := h'
  rw [h1] at h1'
  injection h1' with h1'
  subst h1'
  rw [h2] at h2'
  injection h2'

theorem HasDetails.stored {w : World} {q : Path} {d : Details} (h : HasDetails w q d) : Stored w q := by
  obtain ⟨f, h1, _⟩ := h
  exact stored_iff_lookup.mpr ⟨f, h1⟩

theorem HasDetails.entry {w : World} {q : Path} {d : Details} (h : HasDetails w q d) :
    entry w q = some d := by
  obtain ⟨f, h1, h2⟩ := h
  simp [Props.entry, h1, h2]

/-- A deeper path's name is not a prefix of a shallower one's. -/
theorem deeper_not_prefix {cs ds : List Str} {c e : Str} (hg : GoPath.Good (cs ++ c :: ds))
    (hg' : GoPath.Good (cs ++ [e])) (hds : ds ≠ []) : ¬ GoPath.mk (cs ++ c :: ds) <+: GoPath.mk (cs ++ [e]) := by
  intro h
  have hsplit : cs ++ c :: ds = (cs ++ [c]) ++ ds := by simp
  have hgc : GoPath.Good (cs ++ [c]) := by
    rw [hsplit] at hg
    exact (GoPath.good_append.mp hg).1
  have h1 : GoPath.mk (cs ++ [c]) ++ [Str.slash] <+: GoPath.mk (cs ++ c :: ds) :=
    (GoPath.mk_slash_prefix_iff hgc hg (by simp)).mpr ⟨ds, hds, hsplit⟩
  obtain ⟨x, hx, he⟩ := (GoPath.mk_slash_prefix_iff hgc hg' (by simp)).mp (h1.trans h)
  have hlen := congrArg List.length he
  simp only [List.length_append, List.length_cons, List.length_nil] at hlen
  exact hx (List.length_eq_zero_iff.mp (by omega))

/-- **C26** (what holds). If the Pkger is `Listable` at the directory, `Readdir(n)` with `n ≤ 0` returns
exactly one entry for each child, in lexical order, with the child's details. -/
theorem C26_readdir_children_partial (E : Env) {i : Info} {w : World} {id : Nat} {root : Path} {count : Int}
    (hd : DirHandle E i w id root) (hc : CleanNames w root.pkg)
    (hroot : ∃ cs, GoPath.Good cs ∧ root.name = GoPath.mk cs) (hl : Listable E w root) (hcount : count ≤ 0) :
    ∃ qs infos, ChildList w root qs ∧ readdir E w id count = .ok infos ∧
      infos.map some = qs.map (entry w) := by
  obtain ⟨rs, hrs, hrn⟩ := hroot
  have hr := hd.held.reached
  have hwf := hr.inv.wf
  have hnm := CleanNames.named hc
  have hby := cands_sorted hwf.nodup hnm
  let cb := readdirCb E w.here root.str (w.heap id).parent count
  have hu : Unchanging (fun _ => w) cb := fun _ _ _ => rfl
  obtain ⟨vs, h1, h2⟩ := visits_facts E (fun _ => w) cb [] hl.parsesRoot
  have hmem : ∀ v ∈ vs, v.path ∈ cands w root := fun v hv => h2.sub.subset (List.mem_map_of_mem hv)
  have hrne : root.name ≠ [] := by rw [hrn]; simp [GoPath.mk]
  have hne : ∀ q ∈ cands w root, q ≠ root → root.str ≠ q.str := by
    intro q hq hne he
    have hq' := mem_cands.mp hq
    exact hne (str_inj hq'.2.1 (hnm q hq'.1 hq'.2.1) hrne he.symm)
  have hparse : ∀ q ∈ cands w root, E.parse w.here q.str = .ok q := by
    intro q hq
    have hq' := mem_cands.mp hq
    exact hl.parses q hq'.1 hq'.2.1
  have hpar : ∀ q ∈ cands w root, q ≠ root → q.name ≠ (w.heap id).parent.name := by
    intro q hq hqr he
    have hq' := mem_cands.mp hq
    rcases hd.parent with h | h
    · apply hqr
      cases q; cases root
      simp only at he h hq'
      rw [he, h, hq'.2.1]
    · exact h (he ▸ hq'.2.2)
  -- the answers
  have hans : ∀ v ∈ vs, v.answer =
      if v.path = root then none else if v.details.isDir = true then some .skipDir else none := by
    intro v hv
    obtain ⟨s', ha⟩ := visits_answer E (fun _ => w) cb [] root.str v.visit
      (by rw [h1]; exact List.mem_map_of_mem hv)
    have ha : v.answer = (readdirCb E w.here root.str (w.heap id).parent count v.path.str v.details s').2 := ha
    rw [ha]
    unfold readdirCb
    rw [if_neg (by omega)]
    by_cases hvr : v.path = root
    · rw [if_pos (by rw [hvr]), if_pos hvr]
    · have hne' := hne _ (hmem v hv) hvr
      rw [if_neg hne', if_neg hvr, hparse _ (hmem v hv)]
      simp only
      rw [if_neg (hpar _ (hmem v hv) hvr)]
      simp [Ne.symm hne']
  obtain ⟨c1, c2⟩ := h2.complete hu (fun k hk => hasDetails_of_wf hwf (mem_cands.mp hk).1) (by
    intro v hv
    rw [hans v hv]
    split
    · exact Or.inl rfl
    · split
      · exact Or.inr rfl
      · exact Or.inl rfl)
  -- shape of the candidates
  have hshape : ∀ q ∈ cands w root, ∃ ds, GoPath.Good (rs ++ ds) ∧ q.name = GoPath.mk (rs ++ ds) := by
    intro q hq
    have hq' := mem_cands.mp hq
    obtain ⟨cs, ds, hg, e1, e2⟩ := hl.noSibling q hq'.1 hq'.2.1 hq'.2.2
    have : rs = cs := GoPath.mk_injective hrs (GoPath.good_append.mp hg).1 (hrn.symm.trans e1)
    subst this
    exact ⟨ds, hg, e2⟩
  have hchild : ∀ q, Stored w q → IsParent root q → q ∈ vs.map PVisit.path := by
    intro q hq hp
    obtain ⟨hpkg, cs, c, hg, e1, e2⟩ := hp
    have hcs : rs = cs := GoPath.mk_injective hrs (GoPath.good_append.mp hg).1 (hrn.symm.trans e1)
    subst hcs
    have hqc : q ∈ cands w root := mem_cands.mpr ⟨hq, hpkg.symm, by
      exact IsUnder.prefix ⟨rs, [c], hg, e1, e2⟩⟩
    rcases c2 q hqc with h | h | ⟨v, hv, ha, hpre⟩
    · exact h
    · exact absurd h (CleanNames.not_bang hc hq hpkg.symm)
    · rw [hans v hv] at ha
      by_cases hvr : v.path = root
      · rw [if_pos hvr] at ha; cases ha
      rw [if_neg hvr] at ha
      by_cases hdir : v.details.isDir = true
      · obtain ⟨ds, hgd, hvn⟩ := hshape _ (hmem v hv)
        have hvp := (mem_cands.mp (hmem v hv)).2.1
        cases ds with
        | nil =>
          exfalso
          apply hvr
          have : v.path.name = root.name := by rw [hvn, hrn]; simp
          cases hvv : v.path with
          | mk a b => rw [hvv] at hvp this; cases root; simp only at hvp this; rw [hvp, this]
        | cons d ds =>
          by_cases hds : ds = []
          · subst hds
            have hvq := hl.noPrefix v.path q v.details ⟨hvp.symm, rs, d, hgd, hrn, hvn⟩
              ⟨hpkg, rs, c, hg, hrn, e2⟩ (h2.details hu v hv) hdir hq hpre
            rw [← hvq]
            exact List.mem_map_of_mem hv
          · rw [hvn, e2] at hpre
            exact absurd hpre (deeper_not_prefix hgd hg hds)
      · rw [if_neg hdir] at ha; cases ha
  have hvis : ∀ v ∈ vs, v.path ≠ root → IsParent root v.path := by
    intro v hv hvr
    obtain ⟨ds, hgd, hvn⟩ := hshape _ (hmem v hv)
    have hvp := (mem_cands.mp (hmem v hv)).2
    cases ds with
    | nil =>
      exfalso
      apply hvr
      have : v.path.name = root.name := by rw [hvn, hrn]; simp
      cases hvv : v.path with
      | mk a b => rw [hvv] at hvp this; cases root; simp only at hvp this; rw [hvp.1, this]
    | cons d ds =>
      by_cases hds : ds = []
      · subst hds
        exact ⟨hvp.1.symm, rs, d, hgd, hrn, hvn⟩
      · exfalso
        have hst : Stored w ⟨root.pkg, GoPath.mk (rs ++ d :: ds)⟩ := by
          have := (mem_cands.mp (hmem v hv)).1
          rw [← hvn, ← hvp.1]
          exact this
        obtain ⟨dd, hdd, hisd⟩ := hl.dirs rs d ds hrn hgd hds hst
        have hgc : GoPath.Good (rs ++ [d]) := by
          have : rs ++ d :: ds = (rs ++ [d]) ++ ds := by simp
          rw [this] at hgd
          exact (GoPath.good_append.mp hgd).1
        have hpc : IsParent root ⟨root.pkg, GoPath.mk (rs ++ [d])⟩ := ⟨rfl, rs, d, hgc, hrn, rfl⟩
        have hcv := hchild _ (HasDetails.stored hdd) hpc
        obtain ⟨u, hu1, hu2⟩ := List.mem_map.mp hcv
        have hud := h2.details hu u hu1
        rw [hu2] at hud
        have hude : u.details = dd := HasDetails.unique hud hdd
        have hur : u.path ≠ root := by
          rw [hu2]; intro h
          have := congrArg Path.name h
          rw [hrn] at this
          have := GoPath.mk_injective hgc hrs this
          simp at this
        have hua : u.answer = some .skipDir := by
          rw [hans u hu1, if_neg hur, if_pos (by rw [hude]; exact hisd)]
        have hpre : u.path.name <+: v.path.name := by
          rw [hu2, hvn]
          refine IsUnder.prefix ⟨rs ++ [d], ds, ?_, rfl, ?_⟩
          · simpa using hgd
          · simp
        -- `u` comes before `v`
        have hpw := (h2.after hby)
        have hord : vs.Pairwise fun a b => Str.lt a.path.name b.path.name = true := by
          have := hby.sublist h2.sub
          rwa [List.pairwise_map] at this
        have huv : u.path ≠ v.path := by
          intro h
          rw [hu2] at h
          have := congrArg Path.name h
          rw [hvn] at this
          have := GoPath.mk_injective hgc hgd this
          have := congrArg List.length this
          simp at this
          exact hds this
        obtain ⟨k, hk, rfl⟩ := List.mem_iff_getElem.mp hu1
        obtain ⟨j, hj, rfl⟩ := List.mem_iff_getElem.mp hv
        rcases Nat.lt_trichotomy k j with h | h | h
        · exact (List.pairwise_iff_getElem.mp hpw k j hk hj h) hua hpre
        · subst h; exact huv rfl
        · have := List.pairwise_iff_getElem.mp hord j k hj hk h
          rw [Str.lt_iff] at this
          exact this.2 (Str.le_antisymm this.1 (Str.prefix_le hpre))
  -- assemble
  have hinfos := readdir_infos E (here := w.here) (root := root.str) (parent := (w.heap id).parent) hcount w
  have hvisits : visits E (fun _ => w) cb [] root.str = vs.map PVisit.visit := h1
  refine ⟨(vs.filter fun v => decide (v.path ≠ root)).map PVisit.path, 
    (vs.filter fun v => decide (v.path ≠ root)).map PVisit.details, ⟨?_, ?_⟩, ?_, ?_⟩
  · have hsub : ((vs.filter fun v => decide (v.path ≠ root)).map PVisit.path).Sublist (cands w root) :=
      ((List.filter_sublist).map _).trans h2.sub
    refine List.Pairwise.imp_of_mem ?_ (hby.sublist hsub)
    intro a b ha hb hlt
    have ha' := mem_cands.mp (hsub.subset ha)
    have hb' := mem_cands.mp (hsub.subset hb)
    have hpk : a.pkg = b.pkg := ha'.2.1.trans hb'.2.1.symm
    have hna := hnm a ha'.1 ha'.2.1
    have hnb := hnm b hb'.1 hb'.2.1
    rw [Str.lt_iff] at hlt ⊢
    rw [str_le_iff hpk hna hnb]
    refine ⟨hlt.1, fun he => hlt.2 ?_⟩
    rw [str_inj hpk hna hnb he]
  · intro q
    constructor
    · intro hq
      obtain ⟨v, hv, rfl⟩ := List.mem_map.mp hq
      obtain ⟨hv1, hv2⟩ := List.mem_filter.mp hv
      exact ⟨(mem_cands.mp (hmem v hv1)).1, hvis v hv1 (by simpa using hv2)⟩
    · rintro ⟨hq, hp⟩
      obtain ⟨v, hv, rfl⟩ := List.mem_map.mp (hchild q hq hp)
      refine List.mem_map.mpr ⟨v, List.mem_filter.mpr ⟨hv, ?_⟩, rfl⟩
      simp only [decide_eq_true_eq]
      intro h
      obtain ⟨_, cs, c, hg, e1, e2⟩ := hp
      rw [h, e1] at e2
      have := congrArg List.length (GoPath.mk_injective (GoPath.good_append.mp hg).1 hg e2)
      simp at this
  · unfold readdir
    simp only [hd.held.pkging, hd.path, Bool.true_eq_false, if_false]
    have hres : (walk E (fun _ => w) cb [] root.str).2 = .ok () := c1
    have hst : (walk E (fun _ => w) cb [] root.str).1 =
        (vs.filter fun v => decide (v.path ≠ root)).map PVisit.details := by
      rw [hinfos, hvisits, List.filter_map, List.map_map]
      have : (fun v => decide (v.path ≠ root)) = fun v : PVisit => decide (v.path ≠ root) := rfl
      rw [show (vs.filter (counted E w.here root.str (w.heap id).parent ∘ PVisit.visit)) =
        vs.filter (fun v => decide (v.path ≠ root)) from ?_]
      · rfl
      · apply List.filter_congr
        intro v hv
        simp only [Function.comp, counted, PVisit.visit, hparse _ (hmem v hv)]
        by_cases hvr : v.path = root
        · simp [hvr]
        · simp [hvr, hne _ (hmem v hv) hvr, hpar _ (hmem v hv) hvr]
    revert hres hst
    show (walk E (fun _ => w) cb [] root.str).2 = _ → (walk E (fun _ => w) cb [] root.str).1 = _ → _
    change _ → _ → (match walk E (fun _ => w) cb [] root.str with
      | (infos, r) => _) = _
    generalize walk E (fun _ => w) cb [] root.str = m
    obtain ⟨a, b⟩ := m
    intro hres hst
    simp only at hres hst
    subst hres hst
    rfl
  · rw [List.map_map, List.map_map]
    apply List.map_congr_left
    intro v hv
    exact (HasDetails.entry (h2.details hu v (List.mem_filter.mp hv).1)).symm

/-- A handle returned by `Open` for a clean path is a directory handle in the sense above. -/
theorem opened_dirHandle (E : Env) {i : Info} {w w' : World} {name : Str} {root : Path} {id : Nat}
    (hr : Reached E i w) (hp : E.parse i name = .ok root) (hn : root.name ≠ [])
    (ho : openFile E w name = (w', .ok id)) : DirHandle E i w' id root := by
  have hh := hr.here
  subst hh
  obtain ⟨pt, j, d, h1, h2, h3, h4⟩ := openFile_obj ho
  rw [hp] at h1
  injection h1 with h1
  subst h1
  have hpath := (hr.inv.wf.bound root j h2).2.1
  obtain ⟨_, _, _, _, _, _, h5, h6⟩ := openFile_ok ho
  have hstep : step E w (.openFile name) = w' := by simp [step, ho]
  refine ⟨hstep ▸ hr.held (o := .openFile name) trivial (by rw [h5]; exact Nat.le_refl _)
    (by rw [hstep, h5, h6]; simp [alloc]), by rw [h4]; exact hpath, Or.inr ?_⟩
  rw [h4]
  intro hpre
  exact hn (List.prefix_nil.mp hpre)

/-- A Pkger with a directory `/x`, an unrelated file `/xy`, a directory `/a` with two entries, and `/ab`. -/
def tree : List Op :=
  [.mkdirAll (b! "/x") 0o755, .create (b! "/xy"), .mkdirAll (b! "/a/d/e") 0o755, .create (b! "/a/f"),
   .create (b! "/ab"), .openFile (b! "/a"), .openFile (b! "/"), .mkdirAll (b! "/m/k") 0o755,
   .create (b! "/m/z"), .openFile (b! "/m")]

theorem tree_ok : ∀ o ∈ tree, o.HostOk := by
  intro o ho
  simp [tree] at ho
  rcases ho with rfl | rfl | rfl | rfl | rfl | rfl | rfl | rfl | rfl | rfl <;> trivial

theorem tree_reached : Reached Demo.env Demo.info (Demo.after tree) :=
  Reached.ofNew 1000 tree tree_ok

theorem tree_held {id : Nat} (h : id < (Demo.after tree).next) : Held Demo.env Demo.info (Demo.after tree) id :=
  Held.ofNew 1000 tree tree_ok h

theorem tree_clean (pkg : Str) : CleanNames (Demo.after tree) pkg :=
  CleanNames.of_keys (by decide +kernel)

/-- Number of the handle of `/a`, of `/`, of `/m`. -/
def hA : Nat := 10
def hRoot : Nat := 11
def hM : Nat := 16

theorem tree_handles :
    ((Demo.after tree).heap hA).path = ⟨b! "app", b! "/a"⟩ ∧
    ((Demo.after tree).heap hRoot).path = ⟨b! "app", b! "/"⟩ ∧
    ((Demo.after tree).heap hM).path = ⟨b! "app", b! "/m"⟩ := by decide +kernel

/-- What `Readdir` returns there: `/ab` is listed in `/a`; in `/`, the files `ab` and `xy` are missing. -/
theorem tree_listings :
    (match readdir Demo.env (Demo.after tree) hA 0 with
      | .ok l => l.map (·.name) | _ => []) = [b! "d", b! "f", b! "ab"] ∧
    (match readdir Demo.env (Demo.after tree) hRoot 0 with
      | .ok l => l.map (·.name) | _ => []) = [b! "a", b! "m", b! "x"] ∧
    (match readdir Demo.env (Demo.after tree) hM 0 with
      | .ok l => l.map (·.name) | _ => []) = [b! "k", b! "z"] := by decide +kernel

/-- **C26 is false**: listing `/a` also lists the file `/ab`, and listing `/` omits the files `/ab` and
`/xy`, because directories `/a` and `/x` exist. -/
theorem C26_readdir_refuted : ¬ C26_statement Demo.env := by
  intro h
  obtain ⟨qs, infos, hq, hrd, hm⟩ := h Demo.info _ hRoot ⟨b! "app", b! "/"⟩ (tree_clean _)
    ⟨tree_held (by decide +kernel), by decide +kernel, by decide +kernel⟩
  have hl := tree_listings.2.1
  rw [hrd] at hl
  simp only at hl
  have hab : (⟨b! "app", b! "/ab"⟩ : Path) ∈ qs := by
    refine (hq.mem _).mpr ⟨Option.isSome_iff_exists.mp (by decide +kernel), rfl, [], b! "ab", by decide, rfl, rfl⟩
  have he : (entry (Demo.after tree) ⟨b! "app", b! "/ab"⟩).map (·.name) = some (b! "ab") := by decide +kernel
  have hmem : entry (Demo.after tree) ⟨b! "app", b! "/ab"⟩ ∈ infos.map some := by
    rw [hm]; exact List.mem_map_of_mem hab
  obtain ⟨d, hd, hde⟩ := List.mem_map.mp hmem
  rw [← hde] at he
  simp only [Option.map_some, Option.some.injEq] at he
  have : b! "ab" ∈ infos.map (·.name) := List.mem_map.mpr ⟨d, hd, he⟩
  rw [hl] at this
  revert this
  decide

/-- `Listable` can be read off the stored keys. -/
theorem listable_of_keys {E : Env} {w : World} {pkg : Str} {rs : List Str} (hrs : GoPath.Good rs)
    (hc : CleanNames w pkg)
    (h0 : E.parse w.here (Path.str ⟨pkg, GoPath.mk rs⟩) = .ok ⟨pkg, GoPath.mk rs⟩)
    (h1 : ∀ q ∈ AMap.keys w.files, q.pkg = pkg → E.parse w.here q.str = .ok q)
    (h2 : ∀ q ∈ AMap.keys w.files, q.pkg = pkg → GoPath.mk rs <+: q.name → rs <+: GoPath.rootedElems q.name)
    (h3 : ∀ q ∈ AMap.keys w.files, q.pkg = pkg → rs <+: GoPath.rootedElems q.name →
      rs.length + 1 < (GoPath.rootedElems q.name).length →
      ((entry w ⟨pkg, GoPath.mk ((GoPath.rootedElems q.name).take (rs.length + 1))⟩).any (·.isDir)) = true)
    (h4 : ∀ a ∈ AMap.keys w.files, ∀ b ∈ AMap.keys w.files, a.pkg = pkg → b.pkg = pkg →
      rs <+: GoPath.rootedElems a.name → (GoPath.rootedElems a.name).length = rs.length + 1 →
      (GoPath.rootedElems b.name).length = rs.length + 1 →
      (entry w a).any (·.isDir) = true → a.name <+: b.name → a = b) :
    Listable E w ⟨pkg, GoPath.mk rs⟩ := by
  have hk : ∀ q, Stored w q → q ∈ AMap.keys w.files := fun q hq => (AMap.mem_keys_iff _ _).mpr hq
  refine ⟨fun q hq hp => h1 q (hk q hq) hp, h0, ?_, ?_, ?_⟩
  · intro q hq hp hpre
    obtain ⟨es, hes, hn⟩ := hc q hq hp
    have := h2 q (hk q hq) hp hpre
    rw [hn, GoPath.rootedElems_mk hes] at this
    obtain ⟨ds, rfl⟩ := this
    exact ⟨rs, ds, hes, rfl, hn⟩
  · intro cs c ds hcs hg hds hst
    have hcs : rs = cs := GoPath.mk_injective hrs (GoPath.good_append.mp hg).1 hcs
    subst hcs
    have := h3 _ (hk _ hst) rfl (by simp only [GoPath.rootedElems_mk hg]; exact List.prefix_append _ _) (by
      simp only [GoPath.rootedElems_mk hg, List.length_append, List.length_cons]
      have := List.length_pos_iff.mpr hds
      omega)
    simp only [GoPath.rootedElems_mk hg] at this
    have ht : (rs ++ c :: ds).take (rs.length + 1) = rs ++ [c] := by
      rw [List.take_append]; simp [List.take_of_length_le]
    rw [ht] at this
    cases he : entry w ⟨pkg, GoPath.mk (rs ++ [c])⟩ with
    | none => rw [he] at this; simp at this
    | some d =>
      rw [he] at this
      refine ⟨d, ?_, by simpa using this⟩
      unfold entry at he
      obtain ⟨f, hf, hfd⟩ := Option.bind_eq_some_iff.mp he
      exact ⟨f, hf, hfd⟩
  · intro a b d ha hb hd hdir hst hpre
    obtain ⟨hap, cs, c, hg, e1, e2⟩ := ha
    obtain ⟨hbp, cs', c', hg', e1', e2'⟩ := hb
    have h5 : rs = cs := GoPath.mk_injective hrs (GoPath.good_append.mp hg).1 e1
    have h6 : rs = cs' := GoPath.mk_injective hrs (GoPath.good_append.mp hg').1 e1'
    subst h5; subst h6
    refine h4 a (hk a (HasDetails.stored hd)) b (hk b hst) hap.symm hbp.symm ?_ ?_ ?_ ?_ hpre
    · rw [e2, GoPath.rootedElems_mk hg]; exact List.prefix_append _ _
    · rw [e2, GoPath.rootedElems_mk hg]; simp
    · rw [e2', GoPath.rootedElems_mk hg']; simp
    · rw [HasDetails.entry hd]; simpa using hdir

/-- A setting in the scope of the theorem: the directory `/m` of the same Pkger. -/
example : Listable Demo.env (Demo.after tree) ⟨b! "app", b! "/m"⟩ :=
  listable_of_keys (rs := [b! "m"]) (by decide) (tree_clean _) (by decide +kernel) (by decide +kernel)
    (by decide +kernel) (by decide +kernel) (by decide +kernel)

/-! ### C27 -/

/-- The statement of **C27**, second part: repeating `Readdir(n)`, `n > 0`, on a directory handle
eventually returns `io.EOF`. -/
def C27_statement (E : Env) : Prop :=
  ∀ (i : Info) (w : World) (id : Nat) (root : Path) (n : Int), DirHandle E i w id root → n > 0 →
    ∃ m, readdir E (run E w (List.replicate m (.readdir id n))) id n = .err .eof

theorem run_readdirs (E : Env) (w : World) (id : Nat) (n : Int) (m : Nat) :
    run E w (List.replicate m (.readdir id n)) = w := by
  induction m with
  | zero => rfl
  | succ m ih => simpa [List.replicate_succ, step] using ih

/-- **C27 is false, always**: no call of `Readdir` on any handle in any state ever returns `io.EOF`. -/
theorem C27_never_eof (E : Env) (w : World) (id : Nat) (n : Int) : readdir E w id n ≠ .err .eof := by
  unfold readdir
  simp only
  split
  · simp
  · split
    · simp
    · simp
    · split
      · simp
      · split
        · intro h; simp_all
        · simp

theorem C27_paging_refuted : ¬ C27_statement Demo.env := by
  intro h
  obtain ⟨m, hm⟩ := h Demo.info _ hM ⟨b! "app", b! "/m"⟩ 1
    ⟨tree_held (by decide +kernel), by decide +kernel, by decide +kernel⟩ (by decide)
  exact C27_never_eof _ _ _ _ hm

/-- **C27** (no progress): any number of calls gives the same answer as the first. -/
theorem C27_no_progress (E : Env) (w : World) (id : Nat) (n : Int) (m : Nat) :
    readdir E (run E w (List.replicate m (.readdir id n))) id n = readdir E w id n := by
  rw [run_readdirs]

/-- **C27** (what holds): `Readdir(n)` with `n > 0` returns at most `n` entries, for every handle in every
state. -/
theorem C27_at_most_n_partial (E : Env) (w : World) (id : Nat) (n : Int) (hn : n > 0)
    {infos : List Details} (h : readdir E w id n = .ok infos) : (infos.length : Int) ≤ n := by
  have key : ∀ root, ((walk E (fun _ => w) (readdirCb E w.here root (w.heap id).parent n) [] root).1.length : Int) ≤ n := by
    intro root
    refine walk_inv (I := fun l : List Details => (l.length : Int) ≤ n) E _ _ ?_ (by simpa using Int.le_of_lt hn) root
    intro p d s hs
    unfold readdirCb
    split
    · exact hs
    · rename_i hc
      split
      · exact hs
      · split
        · exact hs
        · split
          · exact hs
          · simp only [List.length_append, List.length_cons, List.length_nil]
            have : (s.length : Int) ≠ n := fun h => hc ⟨hn, h⟩
            omega
  have hk := key (w.heap id).path.str
  unfold readdir at h
  simp only at h
  split at h
  · cases h
  · revert h hk
    generalize walk E (fun _ => w) (readdirCb E w.here (w.heap id).path.str (w.heap id).parent n) []
      (w.heap id).path.str = m
    obtain ⟨l, r⟩ := m
    intro hk h
    simp only at h hk
    split at h
    · injection h with h; subst h; exact hk
    · cases h
    · split at h
      · injection h with h; subst h; exact hk
      · split at h
        · cases h
        · injection h with h; subst h; exact hk

example : (match readdir Demo.env (Demo.after tree) hM 1 with
      | .ok l => l.map (·.name) | _ => []) = [b! "k"] ∧
    (match readdir Demo.env (run Demo.env (Demo.after tree) [.readdir hM 1]) hM 1 with
      | .ok l => l.map (·.name) | _ => []) = [b! "k"] := by decide +kernel

end Props
end Verif
