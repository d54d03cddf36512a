import Verif.Lemmas.Walk
import Verif.Spec.Reach
import Verif.Spec.Demo

/-! C20 - C25: `Walk`. -/

namespace Verif
namespace Props

open Mem Spec

/-- The callback that always returns nil. -/
def nod : Str → Details → World → World × Option Err := fun _ _ w => (w, none)

theorem nod_unchanging : Unchanging id nod := fun _ _ _ => rfl

theorem CleanNames.named {w : World} {pkg : Str} (h : CleanNames w pkg) : Named w pkg := by
  intro q hq hp hne
  obtain ⟨cs, _, hn⟩ := h q hq hp
  rw [hne] at hn
  simp [GoPath.mk] at hn

theorem CleanNames.not_bang {w : World} {pkg : Str} (h : CleanNames w pkg) {q : Path} (hq : Stored w q)
    (hp : q.pkg = pkg) : ¬ skipInit <+: q.name := by
  obtain ⟨cs, _, hn⟩ := h q hq hp
  rw [hn]
  rintro ⟨t, ht⟩
  simp only [skipInit, GoPath.mk] at ht
  have := congrArg List.head? ht
  revert this
  simp
  decide

theorem atPaths_of (vs : List PVisit) : AtPaths (vs.map PVisit.visit) (vs.map PVisit.path) := by
  simp [AtPaths, PVisit.visit, Function.comp_def]

/-- The full statement of **C20**: the walked paths are those of the tree. -/
def C20_statement (E : Env) : Prop :=
  ∀ (i : Info) (w : World) (p : Str) (root : Path), Reached E i w → CleanNames w root.pkg →
    E.parse i p = .ok root →
    ∃ qs, AtPaths (visits E id nod w p) qs ∧
      qs.Pairwise (fun a b => Str.lt a.str b.str = true) ∧
      ∀ q, q ∈ qs ↔ Stored w q ∧ InTree root q

/-- A Pkger with a directory `/a`, a file in it, and the unrelated file `/ab`. -/
def sib : List Op :=
  [.mkdirAll (b! "/a") 0o755, .create (b! "/a/f"), .create (b! "/ab"), .mkdirAll (b! "lib:/a") 0o700]

theorem sib_reached : Reached Demo.env Demo.info (Demo.after sib) :=
  Reached.ofNew 1000 sib (by intro o ho; simp [sib] at ho; rcases ho with rfl | rfl | rfl | rfl <;> trivial)

theorem sib_clean (pkg : Str) : CleanNames (Demo.after sib) pkg :=
  CleanNames.of_keys (by decide +kernel)

/-- What a walk of `/a` visits there. -/
theorem sib_visits : (visits Demo.env id nod (Demo.after sib) (b! "/a")).map (·.path) =
    [b! "app:/a", b! "app:/a/f", b! "app:/ab"] := by decide +kernel

theorem not_under_sib : ¬ IsUnder (b! "/a") (b! "/ab") := by
  rintro ⟨cs, ds, hg, h1, h2⟩
  have h1 : GoPath.mk [b! "a"] = GoPath.mk cs := h1
  have h2 : GoPath.mk [b! "ab"] = GoPath.mk (cs ++ ds) := h2
  have e1 := GoPath.mk_injective (by decide) (GoPath.good_append.mp hg).1 h1
  have e2 := GoPath.mk_injective (by decide) hg h2
  subst e1
  revert e2
  simp

/-- **C24 is false**, and with it C20: `Walk("/a")` also visits `/ab`. -/
theorem C24_sibling_visited_refuted :
    ¬ (∀ (i : Info) (w : World) (p : Str) (root : Path), Reached Demo.env i w → CleanNames w root.pkg →
      Demo.env.parse i p = .ok root →
      ∀ v ∈ visits Demo.env id nod w p, ∃ q, v.path = q.str ∧ Stored w q ∧ InTree root q) := by
  intro h
  have hm : b! "app:/ab" ∈ (visits Demo.env id nod (Demo.after sib) (b! "/a")).map (·.path) := by
    rw [sib_visits]; decide
  obtain ⟨v, hv, hvp⟩ := List.mem_map.mp hm
  obtain ⟨q, hq, hst, hin⟩ := h Demo.info _ (b! "/a") ⟨b! "app", b! "/a"⟩ sib_reached (sib_clean _)
    (by decide +kernel) v hv
  rw [hvp] at hq
  have hqe : q = ⟨b! "app", b! "/ab"⟩ := by
    refine (str_inj (a := ⟨b! "app", b! "/ab"⟩) (b := q) hin.1.symm (by decide) ?_ hq).symm
    intro hne
    exact (CleanNames.named (sib_clean (b! "app"))) q hst hin.1 hne
  subst hqe
  exact not_under_sib hin.2

theorem C20_siblings_refuted : ¬ C20_statement Demo.env := by
  intro h
  obtain ⟨qs, h1, h2, h3⟩ := h Demo.info _ (b! "/a") ⟨b! "app", b! "/a"⟩ sib_reached (sib_clean _)
    (by decide +kernel)
  unfold AtPaths at h1
  rw [sib_visits] at h1
  have hm : b! "app:/ab" ∈ qs.map Path.str := by rw [← h1]; decide
  obtain ⟨q, hq, hqs⟩ := List.mem_map.mp hm
  obtain ⟨hst, hin⟩ := (h3 q).mp hq
  have hqe : q = ⟨b! "app", b! "/ab"⟩ := by
    refine (str_inj (a := ⟨b! "app", b! "/ab"⟩) (b := q) hin.1.symm (by decide) ?_ hqs.symm).symm
    intro hne
    exact (CleanNames.named (sib_clean (b! "app"))) q hst hin.1 hne
  subst hqe
  exact not_under_sib hin.2

/-- **C20** (what holds). In every reachable state with clean names: the walk makes exactly one call for
each stored path of the package whose name starts, as a string, with the root's name; in strictly
increasing order of the full path; with the details `Stat` reports; and returns nil. -/
theorem C20_walk_visits_partial (E : Env) {i : Info} {w : World} {p : Str} {root : Path}
    (hr : Reached E i w) (hc : CleanNames w root.pkg) (hp : E.parse i p = .ok root) :
    walkResult E id nod w p = .ok () ∧
    ∃ qs, AtPaths (visits E id nod w p) qs ∧
      qs.Pairwise (fun a b => Str.lt a.str b.str = true) ∧
      (∀ q, q ∈ qs ↔ Stored w q ∧ q.pkg = root.pkg ∧ root.name <+: q.name) ∧
      (∀ v ∈ visits E id nod w p, ∃ q ∈ qs, v.path = q.str ∧
        ∀ name, E.parse i name = .ok q → statView E w name = .ok v.details) := by
  have hh := hr.here
  subst hh
  have hwf := hr.inv.wf
  obtain ⟨vs, h1, h2⟩ := visits_facts E id nod w hp
  have hnm := CleanNames.named hc
  have hby := cands_sorted hwf.nodup hnm
  have hans : ∀ v ∈ vs, v.answer = none ∨ v.answer = some .skipDir := by
    intro v hv
    left
    obtain ⟨_, h⟩ := visits_answer E id nod w p v.visit (by rw [h1]; exact List.mem_map_of_mem hv)
    exact h
  obtain ⟨c1, c2⟩ := h2.complete nod_unchanging
    (fun k hk => hasDetails_of_wf hwf (mem_cands.mp hk).1) hans
  refine ⟨c1, vs.map PVisit.path, ?_, ?_, ?_, ?_⟩
  · rw [h1]; exact atPaths_of vs
  · refine List.Pairwise.imp_of_mem ?_ (hby.sublist h2.sub)
    intro a b ha hb hlt
    have ha' := mem_cands.mp (h2.sub.subset ha)
    have hb' := mem_cands.mp (h2.sub.subset hb)
    have hpk : a.pkg = b.pkg := ha'.2.1.trans hb'.2.1.symm
    have hna := hnm a ha'.1 ha'.2.1
    have hnb := hnm b hb'.1 hb'.2.1
    rw [Str.lt_iff] at hlt ⊢
    rw [str_le_iff hpk hna hnb]
    refine ⟨hlt.1, fun he => hlt.2 ?_⟩
    rw [str_inj hpk hna hnb he]
  · intro q
    constructor
    · intro hq; exact mem_cands.mp (h2.sub.subset hq)
    · intro hq
      rcases c2 q (mem_cands.mpr hq) with h | h | ⟨v, hv, h, _⟩
      · exact h
      · exact absurd h (CleanNames.not_bang hc hq.1 hq.2.1)
      · obtain ⟨_, ha⟩ := visits_answer E id nod w p v.visit (by rw [h1]; exact List.mem_map_of_mem hv)
        have ha : v.answer = none := ha
        rw [h] at ha; cases ha
  · intro v hv
    rw [h1] at hv
    obtain ⟨v', hv', rfl⟩ := List.mem_map.mp hv
    exact ⟨v'.path, List.mem_map_of_mem hv', rfl,
      fun name hname => (h2.details nod_unchanging v' hv').stat hname⟩

/-- No stored path of the package shares the root's name as a mere string prefix. -/
def NoSibling (w : World) (root : Path) : Prop :=
  ∀ q, Stored w q → q.pkg = root.pkg → root.name <+: q.name → IsUnder root.name q.name

/-- This always holds for the root directory. -/
theorem noSibling_root {w : World} {pkg : Str} (hc : CleanNames w pkg) :
    NoSibling w ⟨pkg, GoPath.rootS⟩ := by
  intro q hq hp _
  obtain ⟨cs, hg, hn⟩ := hc q hq hp
  exact ⟨[], cs, by simpa using hg, rfl, by simpa using hn⟩

/-- **C20** (exact case). Without such siblings, in particular for the walk of a package's root, the
visited paths are exactly the stored paths of the tree. -/
theorem C20_walk_exact_tree_partial (E : Env) {i : Info} {w : World} {p : Str} {root : Path}
    (hr : Reached E i w) (hc : CleanNames w root.pkg) (hs : NoSibling w root ∨ root.name = GoPath.rootS)
    (hp : E.parse i p = .ok root) :
    ∃ qs, AtPaths (visits E id nod w p) qs ∧
      qs.Pairwise (fun a b => Str.lt a.str b.str = true) ∧
      ∀ q, q ∈ qs ↔ Stored w q ∧ InTree root q := by
  have hs : NoSibling w root := by
    rcases hs with h | h
    · exact h
    · have := noSibling_root hc
      cases root; simp only at h; subst h; exact this
  obtain ⟨_, qs, h1, h2, h3, _⟩ := C20_walk_visits_partial E hr hc hp
  refine ⟨qs, h1, h2, ?_⟩
  intro q
  rw [h3]
  constructor
  · rintro ⟨a, b, c⟩; exact ⟨a, b, hs q a b c⟩
  · rintro ⟨a, b, c⟩; exact ⟨a, b, c.prefix⟩

example : (visits Demo.env id nod (Demo.after sib) (b! "/")).map (·.path) =
      [b! "app:/", b! "app:/a", b! "app:/a/f", b! "app:/ab"] ∧
    (visits Demo.env id nod (Demo.after sib) (b! "lib:/")).map (·.path) = [b! "lib:/a"] ∧
    Demo.env.parse Demo.info (b! "lib:/") = .ok ⟨b! "lib", b! "/"⟩ := by decide +kernel

/-- **C21.** For every callback, even one that changes the Pkger while it is walked: the visited paths
are pairwise different, and no path is visited after a path below it. -/
theorem C21_parents_first {W : Type} (E : Env) {i : Info} (get : W → World)
    (cb : Str → Details → W → W × Option Err) {s : W} {p : Str} {root : Path}
    (hr : Reached E i (get s)) (hc : CleanNames (get s) root.pkg) (hp : E.parse i p = .ok root) :
    ∃ qs, AtPaths (visits E get cb s p) qs ∧ (∀ q ∈ qs, q.pkg = root.pkg) ∧
      qs.Pairwise (fun a b => ¬ IsUnder b.name a.name) := by
  have hh := hr.here
  subst hh
  obtain ⟨vs, h1, h2⟩ := visits_facts E get cb s hp
  have hby := cands_sorted hr.inv.wf.nodup (CleanNames.named hc)
  refine ⟨vs.map PVisit.path, ?_, ?_, ?_⟩
  · rw [h1]; exact atPaths_of vs
  · intro q hq; exact (mem_cands.mp (h2.sub.subset hq)).2.1
  · refine List.Pairwise.imp ?_ (hby.sublist h2.sub)
    intro a b hlt hu
    rw [Str.lt_iff] at hlt
    exact hlt.2 (Str.le_antisymm hlt.1 (Str.prefix_le hu.prefix))

/-- A callback that removes the visited file from the Pkger; it is in the scope of C21 - C24. -/
def remover : Str → Details → World → World × Option Err := fun p _ w => ((remove Demo.env w p).1, none)

example : (visits Demo.env id remover (Demo.after sib) (b! "/")).map (·.path) =
    [b! "app:/", b! "app:/a", b! "app:/a/f", b! "app:/ab"] := by decide +kernel

/-- **C22** (first half). For every callback: after it answered SkipDir for a path, no path below that
path is visited any more. -/
theorem C22_skipDir_prunes {W : Type} (E : Env) {i : Info} (get : W → World)
    (cb : Str → Details → W → W × Option Err) {s : W} {p : Str} {root : Path}
    (hr : Reached E i (get s)) (hc : CleanNames (get s) root.pkg) (hp : E.parse i p = .ok root) :
    ∃ qs, AtPaths (visits E get cb s p) qs ∧
      (qs.zip (visits E get cb s p)).Pairwise fun a b =>
        a.2.answer = some .skipDir → ¬ IsUnder a.1.name b.1.name := by
  have hh := hr.here
  subst hh
  obtain ⟨vs, h1, h2⟩ := visits_facts E get cb s hp
  have hby := cands_sorted hr.inv.wf.nodup (CleanNames.named hc)
  refine ⟨vs.map PVisit.path, ?_, ?_⟩
  · rw [h1]; exact atPaths_of vs
  · rw [h1, List.zip_map']
    rw [List.pairwise_map]
    refine (h2.after hby).imp ?_
    intro a b hab ha hu
    exact hab ha hu.prefix

/-- The callback that skips `/a`. -/
def skipA : Str → Details → World → World × Option Err :=
  fun p _ w => (w, if p = b! "app:/a" then some .skipDir else none)

/-- **C22, second half, is false**: skipping `/a` also skips `/ab`. -/
theorem C22_sibling_skipped_refuted :
    (visits Demo.env id skipA (Demo.after sib) (b! "/")).map (·.path) = [b! "app:/", b! "app:/a"] ∧
    statView Demo.env (Demo.after sib) (b! "/ab") = .ok ⟨b! "ab", 0, 0o644, 1000, false⟩ ∧
    ¬ IsUnder (b! "/a") (b! "/ab") :=
  ⟨by decide +kernel, by decide +kernel, not_under_sib⟩

/-- **C22** (what holds of the second half). With a callback that leaves the Pkger alone and reports no
error, every path in range that is not visited has, as a string prefix, a path for which the callback
answered SkipDir. -/
theorem C22_only_skipped_missing_partial {W : Type} (E : Env) {i : Info} (get : W → World)
    (cb : Str → Details → W → W × Option Err) {s : W} {p : Str} {root : Path}
    (hr : Reached E i (get s)) (hc : CleanNames (get s) root.pkg) (hp : E.parse i p = .ok root)
    (hu : Unchanging get cb)
    (ha : ∀ v ∈ visits E get cb s p, v.answer = none ∨ v.answer = some .skipDir) :
    ∀ q, Stored (get s) q → InTree root q →
      q.str ∈ (visits E get cb s p).map (·.path) ∨
      ∃ v ∈ visits E get cb s p, ∃ a : Path, v.path = a.str ∧ a.pkg = root.pkg ∧ v.answer = some .skipDir ∧
        a.name <+: q.name := by
  have hh := hr.here
  subst hh
  obtain ⟨vs, h1, h2⟩ := visits_facts E get cb s hp
  obtain ⟨_, c2⟩ := h2.complete hu (fun k hk => hasDetails_of_wf hr.inv.wf (mem_cands.mp hk).1)
    (fun v hv => ha v.visit (by rw [h1]; exact List.mem_map_of_mem hv))
  intro q hq hin
  rcases c2 q (mem_cands.mpr ⟨hq, hin.1, hin.2.prefix⟩) with h | h | ⟨v, hv, h3, h4⟩
  · left
    obtain ⟨v, hv, rfl⟩ := List.mem_map.mp h
    rw [h1]
    exact List.mem_map.mpr ⟨v.visit, List.mem_map_of_mem hv, rfl⟩
  · exact absurd h (CleanNames.not_bang hc hq hin.1)
  · right
    refine ⟨v.visit, by rw [h1]; exact List.mem_map_of_mem hv, v.path, rfl, ?_, h3, h4⟩
    exact (mem_cands.mp (h2.sub.subset (List.mem_map_of_mem hv))).2.1

example : Unchanging id skipA ∧
    (visits Demo.env id skipA (Demo.after sib) (b! "/")).map (·.answer) = [none, some .skipDir] ∧
    (AMap.get (Demo.after sib).files ⟨b! "app", b! "/a/f"⟩).isSome = true :=
  ⟨fun _ _ _ => rfl, by decide +kernel, by decide +kernel⟩

/-- **C23.** For every state and every callback, even one that changes the Pkger: if the callback returns
an error other than SkipDir, that call is the last one, and `Walk` returns this very error. -/
theorem C23_stops_at_error {W : Type} (E : Env) (get : W → World)
    (cb : Str → Details → W → W × Option Err) {s : W} {p : Str}
    {before after : List Visit} {v : Visit} {e : Err}
    (hv : visits E get cb s p = before ++ v :: after) (ha : v.answer = some e) (he : e ≠ .skipDir) :
    after = [] ∧ walkResult E get cb s p = .err e := by
  cases hp : E.parse (get s).here p with
  | error e' => simp [visits, walk, parse, hp] at hv
  | ok root =>
    obtain ⟨vs, h1, h2⟩ := visits_facts E get cb s hp
    rw [h1] at hv
    obtain ⟨vb, vr, rfl, hb1, hb2⟩ := List.map_eq_append_iff.mp hv
    obtain ⟨v', va, rfl, hv', hb3⟩ := List.map_eq_cons_iff.mp hb2
    subst hv'
    have ha : v'.answer = some e := ha
    refine ⟨?_, h2.stop v' (by simp) e ha he⟩
    cases va with
    | nil => simpa using hb3.symm
    | cons x va =>
      have := (List.pairwise_append.mp h2.early).2.1
      rw [List.pairwise_cons] at this
      rcases this.1 x (by simp) with h | h
      · rw [ha] at h; cases h
      · rw [ha] at h; injection h with h; exact absurd h he

/-- **C23** (nil result). If the callback leaves the Pkger alone and never returns an error other than
SkipDir, `Walk` of any well-formed name returns nil, in every reachable state. -/
theorem C23_nil_without_error {W : Type} (E : Env) {i : Info} (get : W → World)
    (cb : Str → Details → W → W × Option Err) {s : W} {p : Str} {root : Path}
    (hr : Reached E i (get s)) (hp : E.parse i p = .ok root) (hu : Unchanging get cb)
    (ha : ∀ v ∈ visits E get cb s p, v.answer = none ∨ v.answer = some .skipDir) :
    walkResult E get cb s p = .ok () := by
  have hh := hr.here
  subst hh
  obtain ⟨vs, h1, h2⟩ := visits_facts E get cb s hp
  exact (h2.complete hu (fun k hk => hasDetails_of_wf hr.inv.wf (mem_cands.mp hk).1)
    (fun v hv => ha v.visit (by rw [h1]; exact List.mem_map_of_mem hv))).1

/-- A callback that counts its calls and fails at the second one. -/
def failSecond : Str → Details → World × Nat → (World × Nat) × Option Err :=
  fun _ _ s => ((s.1, s.2 + 1), if s.2 = 1 then some (.other 7) else none)

example :
    (visits Demo.env Prod.fst failSecond (Demo.after sib, 0) (b! "/")).map (fun v => (v.path, v.answer)) =
      [(b! "app:/", none), (b! "app:/a", some (.other 7))] ∧
    walkResult Demo.env Prod.fst failSecond (Demo.after sib, 0) (b! "/") = .err (.other 7) := by
  decide +kernel

/-- **C24** (what holds). For every callback: every visited path is of the root's package, was stored when
the walk began, and starts with the root's name; if no stored path shares that name as a mere string prefix,
or if the root is `/`, every visited path lies in the tree. -/
theorem C24_walk_in_package_partial {W : Type} (E : Env) {i : Info} (get : W → World)
    (cb : Str → Details → W → W × Option Err) {s : W} {p : Str} {root : Path}
    (hr : Reached E i (get s)) (hp : E.parse i p = .ok root) :
    ∀ v ∈ visits E get cb s p, ∃ q, v.path = q.str ∧ Stored (get s) q ∧ q.pkg = root.pkg ∧
      root.name <+: q.name ∧
      (NoSibling (get s) root ∨ (CleanNames (get s) root.pkg ∧ root.name = GoPath.rootS) → InTree root q) := by
  have hh := hr.here
  subst hh
  obtain ⟨vs, h1, h2⟩ := visits_facts E get cb s hp
  intro v hv
  rw [h1] at hv
  obtain ⟨v', hv', rfl⟩ := List.mem_map.mp hv
  obtain ⟨m1, m2, m3⟩ := mem_cands.mp (h2.sub.subset (List.mem_map_of_mem hv'))
  refine ⟨v'.path, rfl, m1, m2, m3, ?_⟩
  intro h
  have hs : NoSibling (get s) root := by
    rcases h with h | ⟨h, h'⟩
    · exact h
    · have := noSibling_root h
      cases root; simp only at h'; subst h'; exact this
  exact ⟨m2, hs _ m1 m2 m3⟩

/-- What the stored entries are: path, details. -/
def entry (w : World) (q : Path) : Option Details := (lookup w q).bind FileObj.info

theorem cands_congr {w w' : World} (hn : AMap.Nodup w.files) (hn' : AMap.Nodup w'.files) {root : Path}
    (hnm : Named w root.pkg) (h : ∀ q, q.pkg = root.pkg → (Stored w q ↔ Stored w' q)) :
    cands w root = cands w' root := by
  have hnm' : Named w' root.pkg := fun q hq hp => hnm q ((h q hp).mpr hq) hp
  have hs := cands_sorted hn hnm
  have hs' := cands_sorted hn' hnm'
  have nd : ∀ {l : List Path}, (l.Pairwise fun a b => Str.lt a.name b.name = true) → l.Nodup := by
    intro l hl
    refine hl.imp ?_
    intro a b hab he
    subst he
    rw [Str.lt_iff] at hab
    exact hab.2 rfl
  refine sorted_perm_unique Path.name ?_ (hs.imp fun h => ((Str.lt_iff _ _).mp h).1)
    (hs'.imp fun h => ((Str.lt_iff _ _).mp h).1) ?_
  · intro x hx y hy he
    have hx := (mem_cands.mp hx).2.1
    have hy := (mem_cands.mp hy).2.1
    cases x; cases y; simp only at hx hy he; rw [hx, hy, he]
  · rw [List.perm_ext_iff_of_nodup (nd hs) (nd hs')]
    intro q
    rw [mem_cands, mem_cands]
    constructor
    · rintro ⟨a, b, c⟩; exact ⟨(h q b).mp a, b, c⟩
    · rintro ⟨a, b, c⟩; exact ⟨(h q b).mpr a, b, c⟩

theorem walkLoop_congr {W : Type} (cb : Str → Details → W → W × Option Err) {w w' : World} {root : Path}
    (h : ∀ q, entry w q = entry w' q) (ks : List Path) : ∀ (skip : Str) (s : W),
    walkLoop (fun _ => w) cb root ks skip s = walkLoop (fun _ => w') cb root ks skip s := by
  induction ks with
  | nil => intro skip s; rfl
  | cons k ks ih =>
    intro skip s
    have hk := h k
    simp only [entry, lookup] at hk
    simp only [walkLoop, ih]
    cases hg : AMap.get w.files k with
    | none =>
      cases hg' : AMap.get w'.files k with
      | none => rfl
      | some j =>
        rw [hg, hg'] at hk
        simp only [Option.map_none, Option.bind_none, Option.map_some, Option.bind_some] at hk
        simp only [← hk]
    | some id =>
      cases hg' : AMap.get w'.files k with
      | none =>
        rw [hg, hg'] at hk
        simp only [Option.map_none, Option.bind_none, Option.map_some, Option.bind_some] at hk
        simp only [hk]
      | some j =>
        rw [hg, hg'] at hk
        simp only [Option.map_some, Option.bind_some] at hk
        simp only [hk]

/-- **C25.** Two Pkgers in which the same paths are stored with the same details are walked in the same
way by every stateful callback: the same calls in the same order, the same final state, the same result.
How and in which order the entries got there does not matter. -/
theorem C25_walk_depends_on_entries {W : Type} (E : Env) {i : Info} {w w' : World}
    (hr : Reached E i w) (hr' : Reached E i w') (hc : ∀ pkg, CleanNames w pkg)
    (h : ∀ q, entry w q = entry w' q) (cb : Str → Details → W → W × Option Err) (s : W) (p : Str) :
    walk E (fun _ => w) cb s p = walk E (fun _ => w') cb s p := by
  have hst : ∀ q, Stored w q ↔ Stored w' q := by
    intro q
    have key : ∀ {u u' : World}, WF u → (∀ q, entry u q = entry u' q) → Stored u q → Stored u' q := by
      intro u u' hwf h hs
      obtain ⟨d, f, h1, h2⟩ := hasDetails_of_wf hwf hs
      have := h q
      unfold entry at this
      rw [h1] at this
      simp only [Option.bind_some, h2] at this
      rw [stored_iff_lookup]
      cases hl : lookup u' q with
      | none => rw [hl] at this; cases this
      | some f' => exact ⟨f', rfl⟩
    exact ⟨key hr.inv.wf h, key hr'.inv.wf (fun q => (h q).symm)⟩
  cases hp : E.parse i p with
  | error e => simp only [walk, parse, hr.here, hr'.here, hp]
  | ok root =>
    rw [walk_cands E (fun _ => w) cb s (pt := root) (by rw [hr.here]; exact hp),
      walk_cands E (fun _ => w') cb s (pt := root) (by rw [hr'.here]; exact hp),
      cands_congr hr.inv.wf.nodup hr'.inv.wf.nodup (CleanNames.named (hc root.pkg)) (fun q _ => hst q)]
    exact walkLoop_congr cb h _ _ _

/-- **C25** (map order). Permuting the entries of the map, as Go's randomised iteration does, changes
nothing: `Keys` returns the same list of same-package paths, so `Walk` does the same. -/
theorem C25_walk_map_order {W : Type} (E : Env) {i : Info} {w : World} (hr : Reached E i w)
    (hc : ∀ pkg, CleanNames w pkg) {files' : AMap Path Nat} (hperm : w.files.Perm files')
    (cb : Str → Details → W → W × Option Err) (s : W) (p : Str) :
    walk E (fun _ => { w with files := files' }) cb s p = walk E (fun _ => w) cb s p := by
  have hget := AMap.get_perm hperm hr.inv.wf.nodup
  have hent : ∀ q, entry { w with files := files' } q = entry w q := by
    intro q; simp only [entry, lookup, hget]
  cases hp : E.parse i p with
  | error e => simp only [walk, parse, hr.here, hp]
  | ok root =>
    rw [walk_cands E (fun _ => w) cb s (pt := root) (by rw [hr.here]; exact hp),
      walk_cands E (fun _ => { w with files := files' }) cb s (pt := root) (by rw [hr.here]; exact hp),
      cands_congr hr.inv.wf.nodup (w' := { w with files := files' }) (AMap.nodup_perm hperm hr.inv.wf.nodup)
        (CleanNames.named (hc root.pkg)) (fun q _ => by simp only [Stored, hget])]
    exact walkLoop_congr cb hent _ _ _

/-- Two histories that store the same entries in a different order. -/
example :
    let a := Demo.after [.mkdirAll (b! "/x") 0o755, .mkdirAll (b! "/y") 0o755]
    let b := Demo.after [.mkdirAll (b! "/y") 0o755, .mkdirAll (b! "/x") 0o755]
    AMap.keys a.files ≠ AMap.keys b.files ∧
    (visits Demo.env id nod a (b! "/")).map (·.path) = [b! "app:/x", b! "app:/y"] ∧
    visits Demo.env id nod a (b! "/") = visits Demo.env id nod b (b! "/") := by decide +kernel

end Props
end Verif
