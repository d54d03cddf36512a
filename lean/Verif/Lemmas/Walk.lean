import Verif.Lemmas.Observe
import Verif.Lemmas.Touch
import Verif.Spec.Trace

/-! Lemmas on `Walk`. -/

namespace Verif
namespace Mem

/-- The keys the loop of `Walk` does not discard because of package or name. -/
def cands (w : World) (root : Path) : List Path :=
  (keys w.files).filter fun k => decide (k.pkg = root.pkg) && Str.hasPrefix k.name root.name

theorem walkLoop_filter {W : Type} (get : W → World) (cb : Str → Details → W → W × Option Err)
    (root : Path) (ks : List Path) : ∀ (skip : Str) (s : W),
    walkLoop get cb root ks skip s =
      walkLoop get cb root (ks.filter fun k => decide (k.pkg = root.pkg) && Str.hasPrefix k.name root.name)
        skip s := by
  induction ks with
  | nil => intro skip s; rfl
  | cons k ks ih =>
    intro skip s
    rw [List.filter_cons]
    by_cases h1 : k.pkg = root.pkg
    · cases h2 : Str.hasPrefix k.name root.name with
      | false =>
        simp only [h1, decide_true, Bool.and_false, Bool.false_eq_true, if_false]
        rw [← ih]
        simp only [walkLoop, h1, h2, ne_eq, not_true_eq_false, if_false, if_true]
      | true =>
        simp only [h1, decide_true, Bool.and_true, if_true]
        simp only [walkLoop, h1, h2, ne_eq, not_true_eq_false, if_false, Bool.true_eq_false, ih]
    · simp only [h1, decide_false, Bool.false_and, Bool.false_eq_true, if_false]
      rw [← ih]
      simp only [walkLoop, ne_eq, h1, not_false_eq_true, if_true]

theorem walk_cands {W : Type} (E : Env) (get : W → World) (cb : Str → Details → W → W × Option Err)
    (s : W) {p : Str} {pt : Path} (hp : E.parse (get s).here p = .ok pt) :
    walk E get cb s p = walkLoop get cb pt (cands (get s) pt) skipInit s := by
  simp only [walk, parse, hp]
  rw [walkLoop_filter]
  rfl

theorem mem_cands {w : World} {root q : Path} :
    q ∈ cands w root ↔ Stored w q ∧ q.pkg = root.pkg ∧ root.name <+: q.name := by
  unfold cands
  rw [List.mem_filter, keys, mem_sortBy, AMap.mem_keys_iff]
  simp [Stored, Str.hasPrefix_iff]

/-- The names of all stored paths of a package are non-empty. -/
def Named (w : World) (pkg : Str) : Prop := ∀ q, Stored w q → q.pkg = pkg → q.name ≠ []

theorem str_le_iff {a b : Path} (h : a.pkg = b.pkg) (ha : a.name ≠ []) (hb : b.name ≠ []) :
    Str.le a.str b.str = Str.le a.name b.name := by
  unfold Path.str
  simp only [ha, hb, if_false, h]
  split
  · rfl
  · have := Str.le_append_left (b.pkg ++ [Str.colon]) a.name b.name
    simpa using this

theorem str_inj {a b : Path} (h : a.pkg = b.pkg) (ha : a.name ≠ []) (hb : b.name ≠ [])
    (hs : a.str = b.str) : a = b := by
  have h1 := str_le_iff h ha hb
  have h2 := str_le_iff h.symm hb ha
  rw [hs] at h1 h2
  simp only [Str.le_refl] at h1 h2
  cases a; cases b
  simp only at h
  subst h
  have := Str.le_antisymm h1.symm h2.symm
  simp only at this
  rw [this]

theorem cands_sorted {w : World} (hn : AMap.Nodup w.files) {root : Path} (hnm : Named w root.pkg) :
    (cands w root).Pairwise fun a b => Str.lt a.name b.name = true := by
  have hs : (cands w root).Pairwise fun a b => Str.le a.str b.str = true :=
    List.Pairwise.filter _ (sortBy_sorted Path.str _)
  have hnd : (cands w root).Nodup :=
    List.Pairwise.filter _ ((sortBy_perm Path.str (AMap.keys w.files)).nodup_iff.mpr hn)
  refine List.Pairwise.imp_of_mem ?_ (hs.and hnd)
  intro a b ha hb h
  have ha' := mem_cands.mp ha
  have hb' := mem_cands.mp hb
  have hp : a.pkg = b.pkg := ha'.2.1.trans hb'.2.1.symm
  rw [str_le_iff hp (hnm a ha'.1 ha'.2.1) (hnm b hb'.1 hb'.2.1)] at h
  rw [Str.lt_iff]
  refine ⟨h.1, fun he => h.2 ?_⟩
  cases a; cases b
  simp only at hp he
  subst hp; subst he; rfl

/-- One visit, with the path instead of its string. -/
structure PVisit where
  path : Path
  details : Details
  answer : Option Err

def PVisit.visit (v : PVisit) : Visit := ⟨v.path.str, v.details, v.answer⟩

/-- The details stored for `k`. -/
def HasDetails (w : World) (k : Path) (d : Details) : Prop :=
  ∃ f, lookup w k = some f ∧ f.info = some d

/-- Strictly increasing names. -/
def ByName (ks : List Path) : Prop := ks.Pairwise fun a b => Str.lt a.name b.name = true

/-- Everything about one run of the loop over keys in range: the visits `vs` made, the result `r`.
`quiet` says that the callback does not change the Pkger `w`. -/
structure LoopFacts (quiet : Prop) (w : World) (ks : List Path) (skip : Str) (vs : List PVisit)
    (r : Res Unit) : Prop where
  sub : (vs.map PVisit.path).Sublist ks
  noSkip : ByName ks → (∀ k ∈ ks, Str.le skip k.name = true) → ∀ v ∈ vs, ¬ skip <+: v.path.name
  after : ByName ks → vs.Pairwise fun a b => a.answer = some .skipDir → ¬ a.path.name <+: b.path.name
  early : vs.Pairwise fun a _ => a.answer = none ∨ a.answer = some .skipDir
  stop : ∀ v ∈ vs, ∀ e, v.answer = some e → e ≠ .skipDir → r = .err e
  noPanic : r ≠ .panic
  details : quiet → ∀ v ∈ vs, HasDetails w v.path v.details
  complete : quiet → (∀ k ∈ ks, ∃ d, HasDetails w k d) →
    (∀ v ∈ vs, v.answer = none ∨ v.answer = some .skipDir) →
    r = .ok () ∧ ∀ k ∈ ks, k ∈ vs.map PVisit.path ∨ skip <+: k.name ∨
      ∃ v ∈ vs, v.answer = some .skipDir ∧ v.path.name <+: k.name

theorem newFileInfo_eq (d : Details) : newFileInfo d = d := rfl

theorem walkLoop_facts {W : Type} (get : W → World) (cb : Str → Details → W → W × Option Err)
    (root : Path) (ks : List Path) : ∀ (skip : Str) (s : W) (l : List Visit),
    (∀ k ∈ ks, k.pkg = root.pkg ∧ root.name <+: k.name) →
    ∃ vs : List PVisit,
      (walkLoop (fun x => get x.1) (logged cb) root ks skip (s, l)).1.2 = l ++ vs.map PVisit.visit ∧
      LoopFacts (Unchanging get cb) (get s) ks skip vs
        (walkLoop (fun x => get x.1) (logged cb) root ks skip (s, l)).2 := by
  induction ks with
  | nil =>
    intro skip s l _
    exact ⟨[], by simp [walkLoop], ⟨by simp, by simp, by simp, by simp, by simp, by simp [walkLoop], by simp,
      by simp [walkLoop]⟩⟩
  | cons k ks ih =>
    intro skip s l hr
    have hrk := hr k (by simp)
    have hr' := fun x hx => hr x (List.mem_cons_of_mem k hx)
    simp only [walkLoop, hrk.1, ne_eq, not_true_eq_false, if_false, (Str.hasPrefix_iff _ _).mpr hrk.2,
      Bool.true_eq_false]
    by_cases hsk : Str.hasPrefix k.name skip = true
    · simp only [hsk, if_true]
      obtain ⟨vs, h1, h2⟩ := ih skip s l hr'
      refine ⟨vs, h1, ⟨h2.sub.cons _, fun hs h => h2.noSkip hs.of_cons (fun x hx => h x (List.mem_cons_of_mem _ hx)),
        fun hs => h2.after hs.of_cons, h2.early, h2.stop, h2.noPanic, h2.details, ?_⟩⟩
      intro hq hd ha
      obtain ⟨c1, c2⟩ := h2.complete hq (fun x hx => hd x (List.mem_cons_of_mem _ hx)) ha
      refine ⟨c1, ?_⟩
      intro x hx
      rcases List.mem_cons.mp hx with rfl | hx
      · exact Or.inr (Or.inl ((Str.hasPrefix_iff _ _).mp hsk))
      · exact c2 x hx
    · simp only [hsk, if_false, Bool.false_eq_true]
      cases hg : AMap.get (get s).files k with
      | none =>
        refine ⟨[], by simp, ⟨by simp, by simp, by simp, by simp, by simp, by simp, by simp, ?_⟩⟩
        intro _ hd
        obtain ⟨d, f, hf, _⟩ := hd k (by simp)
        simp [lookup, hg] at hf
      | some id =>
        simp only
        cases hd : ((get s).heap id).info with
        | none =>
          refine ⟨[], by simp, ⟨by simp, by simp, by simp, by simp, by simp, by simp, by simp, ?_⟩⟩
          intro _ hd'
          obtain ⟨d, f, hf, hfi⟩ := hd' k (by simp)
          simp [lookup, hg] at hf
          subst hf
          rw [hd] at hfi; cases hfi
        | some d =>
          have hkd : HasDetails (get s) k (newFileInfo d) := ⟨_, by simp [lookup, hg], hd⟩
          have hquiet := fun (hq : Unchanging get cb) => hq k.str (newFileInfo d) s
          simp only [logged]
          revert hquiet
          generalize cb k.str (newFileInfo d) s = r
          obtain ⟨s', e⟩ := r
          intro hquiet
          have hquiet : Unchanging get cb → get s' = get s := hquiet
          have hnp : ¬ skip <+: k.name := fun h => hsk ((Str.hasPrefix_iff _ _).mpr h)
          have hstop : ∀ e, e ≠ .skipDir → ∃ vs : List PVisit,
              l ++ [⟨k.str, newFileInfo d, some e⟩] = l ++ vs.map PVisit.visit ∧
              LoopFacts (Unchanging get cb) (get s) (k :: ks) skip vs (.err e) := by
            intro e he
            refine ⟨[⟨k, newFileInfo d, some e⟩], by simp [PVisit.visit],
              ⟨?_, ?_, by simp, by simp, ?_, by simp, ?_, ?_⟩⟩
            · simp
            · intro _ _ v hv; simp at hv; subst hv; exact hnp
            · intro v hv e' h _; simp at hv; subst hv; simp only at h; injection h with h; rw [h]
            · intro _ v hv; simp at hv; subst hv; exact hkd
            · intro _ _ ha
              rcases ha _ (List.mem_singleton.mpr rfl) with h | h
              · cases h
              · injection h with h; exact absurd h he
          cases e with
          | none =>
            simp only
            obtain ⟨vs, h1, h2⟩ := ih skip s' (l ++ [⟨k.str, newFileInfo d, none⟩]) hr'
            refine ⟨⟨k, newFileInfo d, none⟩ :: vs, ?_, ⟨?_, ?_, ?_, ?_, ?_, h2.noPanic, ?_, ?_⟩⟩
            · rw [h1]; simp [PVisit.visit]
            · simpa using h2.sub
            · intro hs hle v hv
              rcases List.mem_cons.mp hv with rfl | hv
              · exact hnp
              · exact h2.noSkip hs.of_cons (fun x hx => hle x (List.mem_cons_of_mem _ hx)) v hv
            · intro hs; rw [List.pairwise_cons]; exact ⟨by simp, h2.after hs.of_cons⟩
            · rw [List.pairwise_cons]; exact ⟨fun _ _ => Or.inl rfl, h2.early⟩
            · intro v hv e h he
              rcases List.mem_cons.mp hv with rfl | hv
              · cases h
              · exact h2.stop v hv e h he
            · intro hq v hv
              rcases List.mem_cons.mp hv with rfl | hv
              · exact hkd
              · rw [← hquiet hq]; exact h2.details hq v hv
            · intro hq hd' ha
              obtain ⟨c1, c2⟩ := h2.complete hq
                (fun x hx => by rw [hquiet hq]; exact hd' x (List.mem_cons_of_mem _ hx))
                (fun v hv => ha v (List.mem_cons_of_mem _ hv))
              refine ⟨c1, ?_⟩
              intro x hx
              rcases List.mem_cons.mp hx with rfl | hx
              · exact Or.inl (by simp)
              · rcases c2 x hx with h | h | ⟨v, hv, h⟩
                · exact Or.inl (by simp only [List.map_cons]; exact List.mem_cons_of_mem _ h)
                · exact Or.inr (Or.inl h)
                · exact Or.inr (Or.inr ⟨v, List.mem_cons_of_mem _ hv, h⟩)
          | some e =>
            by_cases he : e = .skipDir
            · subst he
              simp only
              obtain ⟨vs, h1, h2⟩ := ih k.name s' (l ++ [⟨k.str, newFileInfo d, some .skipDir⟩]) hr'
              refine ⟨⟨k, newFileInfo d, some .skipDir⟩ :: vs, ?_, ⟨?_, ?_, ?_, ?_, ?_, h2.noPanic, ?_, ?_⟩⟩
              · rw [h1]; simp [PVisit.visit]
              · simpa using h2.sub
              · intro hs hle v hv hpre
                rcases List.mem_cons.mp hv with rfl | hv
                · exact hnp hpre
                · -- `skip ≤ k ≤ v` would put `k` below `skip`
                  have hvk : v.path ∈ ks := h2.sub.subset (List.mem_map_of_mem hv)
                  have hlt := (List.pairwise_cons.mp hs).1 v.path hvk
                  rw [Str.lt_iff] at hlt
                  exact hnp (Str.prefix_of_between (hle k (by simp)) hlt.1 hpre)
              · intro hs
                rw [List.pairwise_cons]
                exact ⟨fun b hb _ => h2.noSkip hs.of_cons
                  (fun x hx => ((Str.lt_iff _ _).mp ((List.pairwise_cons.mp hs).1 x hx)).1) b hb,
                  h2.after hs.of_cons⟩
              · rw [List.pairwise_cons]; exact ⟨fun _ _ => Or.inr rfl, h2.early⟩
              · intro v hv e h he
                rcases List.mem_cons.mp hv with rfl | hv
                · exact absurd (by injection h with h; exact h.symm) he
                · exact h2.stop v hv e h he
              · intro hq v hv
                rcases List.mem_cons.mp hv with rfl | hv
                · exact hkd
                · rw [← hquiet hq]; exact h2.details hq v hv
              · intro hq hd' ha
                obtain ⟨c1, c2⟩ := h2.complete hq
                  (fun x hx => by rw [hquiet hq]; exact hd' x (List.mem_cons_of_mem _ hx))
                  (fun v hv => ha v (List.mem_cons_of_mem _ hv))
                refine ⟨c1, ?_⟩
                intro x hx
                rcases List.mem_cons.mp hx with rfl | hx
                · exact Or.inl (by simp)
                · rcases c2 x hx with h | h | ⟨v, hv, h⟩
                  · exact Or.inl (by simp only [List.map_cons]; exact List.mem_cons_of_mem _ h)
                  · exact Or.inr (Or.inr ⟨_, List.mem_cons_self, rfl, h⟩)
                  · exact Or.inr (Or.inr ⟨v, List.mem_cons_of_mem _ hv, h⟩)
            · have := hstop e he
              cases e <;> first | exact absurd rfl he | exact this

/-- The facts for a whole walk. -/
theorem visits_facts {W : Type} (E : Env) (get : W → World) (cb : Str → Details → W → W × Option Err)
    (s : W) {p : Str} {root : Path} (hp : E.parse (get s).here p = .ok root) :
    ∃ vs : List PVisit, visits E get cb s p = vs.map PVisit.visit ∧
      LoopFacts (Unchanging get cb) (get s) (cands (get s) root) skipInit vs (walkResult E get cb s p) := by
  obtain ⟨vs, h1, h2⟩ := walkLoop_facts get cb root (cands (get s) root) skipInit s []
    (fun k hk => (mem_cands.mp hk).2)
  refine ⟨vs, ?_, ?_⟩
  · unfold visits
    rw [walk_cands E (fun x : W × List Visit => get x.1) (logged cb) (s, []) hp]
    simpa using h1
  · unfold walkResult
    rw [← (walk_logged E get cb s p).2, walk_cands E (fun x : W × List Visit => get x.1) (logged cb) (s, []) hp]
    exact h2

/-- What the callback preserves, the walk preserves. -/
theorem walkLoop_inv {W : Type} {I : W → Prop} (get : W → World)
    (cb : Str → Details → W → W × Option Err) (hI : ∀ p d s, I s → I (cb p d s).1) (root : Path)
    (ks : List Path) : ∀ (skip : Str) (s : W), I s → I (walkLoop get cb root ks skip s).1 := by
  induction ks with
  | nil => intro skip s h; exact h
  | cons k ks ih =>
    intro skip s h
    simp only [walkLoop]
    split
    · exact ih _ _ h
    split
    · exact ih _ _ h
    split
    · exact ih _ _ h
    split
    · exact h
    split
    · exact h
    · rename_i d _
      have h' := hI k.str (newFileInfo d) s h
      revert h'
      generalize cb k.str (newFileInfo d) s = r
      obtain ⟨s', e⟩ := r
      intro h'
      cases e with
      | none => exact ih _ _ h'
      | some e => cases e <;> first | exact ih _ _ h' | exact h'

theorem walk_inv {W : Type} {I : W → Prop} (E : Env) (get : W → World)
    (cb : Str → Details → W → W × Option Err) (hI : ∀ p d s, I s → I (cb p d s).1) {s : W} (h : I s)
    (p : Str) : I (walk E get cb s p).1 := by
  unfold walk
  simp only
  split
  · exact h
  · exact walkLoop_inv get cb hI _ _ _ _ h

/-- Each recorded answer is one the callback gave. -/
theorem visits_answer {W : Type} (E : Env) (get : W → World) (cb : Str → Details → W → W × Option Err)
    (s : W) (p : Str) : ∀ v ∈ visits E get cb s p, ∃ s', v.answer = (cb v.path v.details s').2 := by
  unfold visits
  refine walk_inv (I := fun x : W × List Visit => ∀ v ∈ x.2, ∃ s', v.answer = (cb v.path v.details s').2) E
    (fun x => get x.1) (logged cb) ?_ (by simp) p
  intro p d s h v hv
  simp only [logged, List.mem_append, List.mem_singleton] at hv
  rcases hv with hv | rfl
  · exact h v hv
  · exact ⟨s.1, rfl⟩

/-- In a reachable state every stored path has details. -/
theorem hasDetails_of_wf {w : World} (h : WF w) {q : Path} (hq : Stored w q) : ∃ d, HasDetails w q d := by
  obtain ⟨id, hid⟩ := hq
  obtain ⟨d, hd⟩ := (h.bound q id hid).2.2
  exact ⟨d, _, by simp [lookup, hid], hd⟩

theorem HasDetails.stat {E : Env} {w : World} {q : Path} {d : Details} (h : HasDetails w q d) {name : Str}
    (hp : E.parse w.here name = .ok q) : statView E w name = .ok d := by
  obtain ⟨f, h1, h2⟩ := h
  rw [statView_eq, hp]
  simp only [h1, h2]

/-- A path is stored only if some call of the history touched it. -/
theorem stored_touched (E : Env) {i : Info} {t : Int} {ops : List Op} (hok : ∀ o ∈ ops, o.HostOk) {q : Path}
    (h : Stored (run E (new i t) ops) q) : ∃ o ∈ ops, o.touches E i q := by
  apply Classical.byContradiction
  intro hne
  have hk := (keepsBinding_of_touches E ops (heapOk_new i t) rfl
    (fun o ho => ⟨hok o ho, fun ht => hne ⟨o, ho, ht⟩⟩)).get
  obtain ⟨id, hid⟩ := h
  rw [hk] at hid
  simp [new] at hid

end Mem
end Verif
