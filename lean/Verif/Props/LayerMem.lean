import Verif.Props.Layers
import Verif.Props.Dir

/-! C32, C33: removal and walks on stacks of in-memory Pkgers. -/

namespace Verif
namespace Props

open Layer Mem Spec

/-- The layers with the given numbers, newest first. -/
def memLayers {C : Type} (E : Env) (is : List Nat) : List (Pkger (Store C) (Nat × Nat)) := is.map (memLayer E)

/-- The stack of the given layers. -/
def memStack {C : Type} (E : Env) (b : Nat) (bs : List Nat) : Pkger (Store C) (Nat × Nat) :=
  wrap (stackOf (memLayers E bs)) (some (memLayer E b))

theorem memStack_eq {C : Type} (E : Env) (b : Nat) (bs : List Nat) :
    stackOf (memLayers (C := C) E (b :: bs)) = some (memStack E b bs) := rfl

theorem tell_memStack {C : Type} (E : Env) (b : Nat) (bs : List Nat) (c : Command (Store C)) :
    tell (memStack E b bs) c = allOf ((memLayers E (b :: bs)).map fun y => tell y c) := by
  obtain ⟨x, hx, h⟩ := tell_stack c (memLayer (C := C) E b) (memLayers E bs)
  have : x = memStack E b bs := by
    have := memStack_eq (C := C) E b bs
    unfold memLayers at this
    rw [List.map_cons, ← memLayers, hx] at this
    injection this
  rw [← this, h]
  rfl

theorem ask_memStack {C : Type} (E : Env) (b : Nat) (bs : List Nat) (q : Question) :
    ask (memStack (C := C) E b bs) q = firstAnswer (ask (memLayer E b) q) ((memLayers E bs).map fun y => ask y q) := by
  obtain ⟨x, hx, h⟩ := ask_stack q (memLayer (C := C) E b) (memLayers E bs)
  have : x = memStack E b bs := by
    have := memStack_eq (C := C) E b bs
    unfold memLayers at this
    rw [List.map_cons, ← memLayers, hx] at this
    injection this
  rw [← this, h]

/-- All the layers are Pkgers of the module `i` in reachable states. -/
def LayersOk {C : Type} (E : Env) (i : Info) (s : Store C) (is : List Nat) : Prop :=
  ∀ n ∈ is, Reached E i (s.1 n)

/-! ### C32 -/

/-- The statement of **C32** for `Remove`. -/
def C32_statement (E : Env) : Prop :=
  ∀ (i : Info) (s : Store Unit) (b : Nat) (bs : List Nat) (p : Str) (pt : Path),
    (b :: bs).Nodup → LayersOk E i s (b :: bs) → E.parse i p = .ok pt →
    (((memStack E b bs).remove p s).2 = .ok () →
      ∀ n ∈ b :: bs, ¬ Stored (((memStack E b bs).remove p s).1.1 n) pt) ∧
    ((∃ n ∈ b :: bs, Stored (s.1 n) pt) → ((memStack E b bs).remove p s).2 = .ok ())

theorem twoLayers_reached (n : Nat) : Reached Demo.env Demo.info (twoLayers n) := by
  unfold twoLayers
  split
  · exact Reached.ofNew 1000 _ (by
      intro o ho; simp [fileOps] at ho
      rcases ho with rfl | rfl | rfl | rfl <;> trivial)
  · exact Reached.ofNew 1000 _ (by
      intro o ho; simp [fileOps] at ho
      rcases ho with rfl | rfl | rfl | rfl <;> trivial)
  · exact Reached.ofNew 1000 [] (by simp)

/-- **C32 is false**: a file that only an older layer has cannot be removed. -/
theorem C32_remove_refuted : ¬ C32_statement Demo.env := by
  intro h
  have := (h Demo.info (twoLayers, ()) 1 [0] (b! "/c") ⟨b! "app", b! "/c"⟩ (by decide)
    (fun n _ => twoLayers_reached n) (by decide +kernel)).2 ⟨0, by simp, Option.isSome_iff_exists.mp (by decide +kernel)⟩
  revert this
  decide +kernel

/-- **C32** (a failing `Remove` is not without effect either): `/b` is gone from the newer layer although
`Remove` reported an error. -/
theorem C32_failed_remove_removes_refuted :
    ((memStack Demo.env 1 [0]).remove (b! "/b") (twoLayers, ())).2 = .err (.pathError .noSuchFile) ∧
    (AMap.get (twoLayers 1).files ⟨b! "app", b! "/b"⟩).isSome = true ∧
    AMap.get (((memStack Demo.env 1 [0]).remove (b! "/b") (twoLayers, ())).1.1 1).files ⟨b! "app", b! "/b"⟩ = none := by
  decide +kernel

theorem stored_erase {w : World} {pt q : Path} (hn : AMap.Nodup w.files) :
    Stored { w with files := AMap.erase w.files pt } q ↔ Stored w q ∧ q ≠ pt := by
  unfold Stored
  by_cases h : q = pt
  · subst h; simp [AMap.get_erase_self]
  · simp [AMap.get_erase_ne _ h, h]

/-- What `Remove` does on a list of in-memory layers. -/
theorem allOf_remove {C : Type} (E : Env) {i : Info} {p : Str} {pt : Path} (hp : E.parse i p = .ok pt) :
    ∀ (is : List Nat) (s : Store C), is.Nodup → LayersOk E i s is →
    ∃ s' r, allOf ((memLayers E is).map fun y => tell y (.remove p)) s = (s', r) ∧
      (r = .ok () ↔ ∀ n ∈ is, Stored (s.1 n) pt) ∧
      (r = .ok () ∨ r = .err (.pathError .noSuchFile)) ∧
      (∀ n q, q ≠ pt → (Stored (s'.1 n) q ↔ Stored (s.1 n) q)) ∧
      (∀ n, n ∉ is → s'.1 n = s.1 n) ∧
      (∃ pre post, is = pre ++ post ∧ (∀ n ∈ pre, Stored (s.1 n) pt ∧ ¬ Stored (s'.1 n) pt) ∧
        (∀ n ∈ post, s'.1 n = s.1 n) ∧ (∀ n ∈ post.head?, ¬ Stored (s.1 n) pt) ∧ (r = .ok () → post = []))
  | [], s, _, _ => ⟨s, .ok (), rfl, by simp, Or.inl rfl, by simp, by simp, [], [], rfl, by simp, by simp, by simp, by simp⟩
  | n :: is, s, hnd, hok => by
    have hr := hok n (by simp)
    have hp' : E.parse (s.1 n).here p = .ok pt := by rw [hr.here]; exact hp
    rw [show memLayers (C := C) E (n :: is) = memLayer E n :: memLayers E is from rfl, List.map_cons]
    simp only [allOf, tell, memLayer, memPkger, remove, Mem.parse, hp']
    cases hg : AMap.get (s.1 n).files pt with
    | none =>
      simp only
      have hns : ¬ Stored (s.1 n) pt := by rintro ⟨j, hj⟩; rw [hg] at hj; cases hj
      refine ⟨_, _, rfl, ?_, Or.inr rfl, ?_, ?_, [], n :: is, rfl, by simp, ?_, ?_, by simp⟩
      · simp [hns]
      · intro m q _; by_cases hm : m = n <;> simp [upd, hm]
      · intro m hm; simp at hm; simp [upd, hm.1]
      · intro m _; by_cases hm : m = n <;> simp [upd, hm]
      · simpa using hns
    | some j =>
      simp only
      have hst : Stored (s.1 n) pt := ⟨j, hg⟩
      have hnm : n ∉ is := (List.nodup_cons.mp hnd).1
      obtain ⟨s', r, e, h1, h2, h3, h4, pre, post, h5, h6, h7, h8, h9⟩ := allOf_remove E hp is
        (upd s.1 n { s.1 n with files := AMap.erase (s.1 n).files pt }, s.2) (List.nodup_cons.mp hnd).2
        (fun m hm => by
          have : m ≠ n := fun h => hnm (h ▸ hm)
          simp only [upd, this, if_false]
          exact hok m (List.mem_cons_of_mem _ hm))
      have hself : s'.1 n = { s.1 n with files := AMap.erase (s.1 n).files pt } := by
        rw [h4 n hnm]; simp [upd]
      have hother : ∀ m ∈ is, upd s.1 n { s.1 n with files := AMap.erase (s.1 n).files pt } m = s.1 m := by
        intro m hm
        have : m ≠ n := fun h => hnm (h ▸ hm)
        simp [upd, this]
      refine ⟨s', r, e, ?_, h2, ?_, ?_, n :: pre, post, by rw [h5]; rfl, ?_, ?_, ?_, h9⟩
      · rw [h1]
        constructor
        · intro h m hm
          rcases List.mem_cons.mp hm with rfl | hm
          · exact hst
          · have := h m hm; simp only [hother m hm] at this; exact this
        · intro h m hm
          simp only [hother m hm]
          exact h m (List.mem_cons_of_mem _ hm)
      · intro m q hq
        rw [h3 m q hq]
        by_cases hm : m = n
        · subst hm
          simp only [upd, if_true]
          rw [stored_erase hr.inv.wf.nodup]
          simp [hq]
        · simp [upd, hm]
      · intro m hm
        simp at hm
        rw [h4 m hm.2]
        simp [upd, hm.1]
      · intro m hm
        rcases List.mem_cons.mp hm with rfl | hm
        · refine ⟨hst, ?_⟩
          rw [hself, stored_erase hr.inv.wf.nodup]
          simp
        · have := h6 m hm
          simp only [hother m (by rw [h5]; exact List.mem_append_left _ hm)] at this
          exact this
      · intro m hm
        rw [h7 m hm]
        exact hother m (by rw [h5]; exact List.mem_append_right _ hm)
      · intro m hm
        have := h8 m hm
        have hm' : m ∈ post := List.mem_of_mem_head? hm
        simp only [hother m (by rw [h5]; exact List.mem_append_right _ hm')] at this
        exact this

/-- **C32** (what holds of `Remove`). On every stack of in-memory layers, in every state: `Remove(p)` returns
nil exactly when every layer has `p`, and then `p` is gone from all of them; otherwise it is gone from the
layers above the newest one that lacks it, and the others are as before.  No other path is affected in any
layer. -/
theorem C32_remove_partial {C : Type} (E : Env) {i : Info} {s : Store C} {b : Nat} {bs : List Nat} {p : Str} {pt : Path}
    (hnd : (b :: bs).Nodup) (hok : LayersOk E i s (b :: bs)) (hp : E.parse i p = .ok pt) :
    ∃ s' r, (memStack E b bs).remove p s = (s', r) ∧
      (r = .ok () ↔ ∀ n ∈ b :: bs, Stored (s.1 n) pt) ∧
      (r = .ok () → ∀ n ∈ b :: bs, ¬ Stored (s'.1 n) pt) ∧
      (∃ pre post, b :: bs = pre ++ post ∧ (∀ n ∈ pre, ¬ Stored (s'.1 n) pt) ∧
        (∀ n ∈ post, s'.1 n = s.1 n) ∧ (∀ n ∈ post.head?, ¬ Stored (s.1 n) pt)) ∧
      (∀ n q, q ≠ pt → (Stored (s'.1 n) q ↔ Stored (s.1 n) q)) := by
  obtain ⟨s', r, e, h1, h2, h3, h4, pre, post, h5, h6, h7, h8, h9⟩ := allOf_remove E hp (b :: bs) s hnd hok
  refine ⟨s', r, ?_, h1, ?_, ⟨pre, post, h5, fun n hn => (h6 n hn).2, h7, h8⟩, h3⟩
  · rw [← e, ← tell_memStack]; rfl
  · intro hr n hn
    rw [h5, h9 hr, List.append_nil] at hn
    exact (h6 n hn).2

/-- **C32** (`RemoveAll`). On every stack of in-memory layers `RemoveAll(p)` returns nil and `p` is gone from
every layer. -/
theorem C32_removeAll_partial {C : Type} (E : Env) {i : Info} {p : Str} {pt : Path} (hp : E.parse i p = .ok pt)
    {b : Nat} {bs : List Nat} {s : Store C} (hnd : (b :: bs).Nodup) (hok : LayersOk E i s (b :: bs)) :
    ∃ s', (memStack E b bs).removeAll p s = (s', .ok ()) ∧ ∀ n ∈ b :: bs, ¬ Stored (s'.1 n) pt := by
  have key : ∀ (is : List Nat) (s : Store C), is.Nodup → LayersOk E i s is →
      ∃ s', allOf ((memLayers E is).map fun y => tell y (.removeAll p)) s = (s', .ok ()) ∧
        (∀ n ∈ is, ¬ Stored (s'.1 n) pt) ∧ ∀ n, n ∉ is → s'.1 n = s.1 n := by
    intro is
    induction is with
    | nil => intro s _ _; exact ⟨s, rfl, by simp, by simp⟩
    | cons n is ih =>
      intro s hnd hok
      have hnm : n ∉ is := (List.nodup_cons.mp hnd).1
      have hp' : E.parse (s.1 n).here p = .ok pt := by rw [(hok n (by simp)).here]; exact hp
      rw [show memLayers (C := C) E (n :: is) = memLayer E n :: memLayers E is from rfl, List.map_cons]
      simp only [allOf, tell, memLayer, memPkger, removeAll, Mem.parse, hp']
      obtain ⟨s', e, h1, h2⟩ := ih
        (upd s.1 n { s.1 n with files := (s.1 n).files.filter fun e => !Str.hasPrefix e.1.name pt.name }, s.2)
        (List.nodup_cons.mp hnd).2
        (fun m hm => by
          have : m ≠ n := fun h => hnm (h ▸ hm)
          simp only [upd, this, if_false]
          exact hok m (List.mem_cons_of_mem _ hm))
      refine ⟨s', e, ?_, ?_⟩
      · intro m hm
        rcases List.mem_cons.mp hm with rfl | hm
        · rw [h2 m hnm]
          simp only [upd, if_true]
          rintro ⟨j, hj⟩
          have := (List.mem_filter.mp (AMap.get_mem hj)).2
          rw [(Str.hasPrefix_iff _ _).mpr (List.prefix_refl pt.name)] at this
          cases this
        · exact h1 m hm
      · intro m hm
        simp at hm
        rw [h2 m hm.2]
        simp [upd, hm.1]
  obtain ⟨s', e, h1, _⟩ := key (b :: bs) s hnd hok
  exact ⟨s', by rw [← e, ← tell_memStack]; rfl, h1⟩

/-- The file both layers have can be removed. -/
example : ((memStack Demo.env 1 [0]).remove (b! "/a") (twoLayers, ())).2 = .ok () ∧
    [1, 0].Nodup ∧ (AMap.get (twoLayers 1).files ⟨b! "app", b! "/a"⟩).isSome = true ∧
    (AMap.get (twoLayers 0).files ⟨b! "app", b! "/a"⟩).isSome = true := by decide +kernel

/-! ### C33 -/

/-- Two walks whose callbacks do the same, on related states. -/
theorem walkLoop_sim {W W' : Type} {R : W → W' → Prop} (get : W → World) (get' : W' → World)
    (cb : Str → Details → W → W × Option Err) (cb' : Str → Details → W' → W' × Option Err)
    (hget : ∀ s s', R s s' → get s = get' s')
    (hcb : ∀ p d s s', R s s' → R (cb p d s).1 (cb' p d s').1 ∧ (cb p d s).2 = (cb' p d s').2) (root : Path)
    (ks : List Path) : ∀ (skip : Str) (s : W) (s' : W'), R s s' →
    R (walkLoop get cb root ks skip s).1 (walkLoop get' cb' root ks skip s').1 ∧
    (walkLoop get cb root ks skip s).2 = (walkLoop get' cb' root ks skip s').2 := by
  induction ks with
  | nil => intro skip s s' h; exact ⟨h, rfl⟩
  | cons k ks ih =>
    intro skip s s' h
    simp only [walkLoop]
    split
    · exact ih _ _ _ h
    split
    · exact ih _ _ _ h
    split
    · exact ih _ _ _ h
    rw [← hget s s' h]
    cases AMap.get (get s).files k with
    | none => exact ⟨h, rfl⟩
    | some id =>
      simp only
      cases ((get s).heap id).info with
      | none => exact ⟨h, rfl⟩
      | some d =>
        simp only
        have hc := hcb k.str (newFileInfo d) s s' h
        revert hc
        generalize cb k.str (newFileInfo d) s = r
        generalize cb' k.str (newFileInfo d) s' = r'
        obtain ⟨t, e⟩ := r
        obtain ⟨t', e'⟩ := r'
        rintro ⟨h1, h2⟩
        simp only at h1 h2
        subst h2
        cases e with
        | none => exact ih _ _ _ h1
        | some e => cases e <;> first | exact ih _ _ _ h1 | exact ⟨h1, rfl⟩

theorem walk_sim {W W' : Type} {R : W → W' → Prop} (E : Env) (get : W → World) (get' : W' → World)
    (cb : Str → Details → W → W × Option Err) (cb' : Str → Details → W' → W' × Option Err)
    (hget : ∀ s s', R s s' → get s = get' s')
    (hcb : ∀ p d s s', R s s' → R (cb p d s).1 (cb' p d s').1 ∧ (cb p d s).2 = (cb' p d s').2)
    (s : W) (s' : W') (h : R s s') (p : Str) :
    R (walk E get cb s p).1 (walk E get' cb' s' p).1 ∧ (walk E get cb s p).2 = (walk E get' cb' s' p).2 := by
  unfold walk
  rw [← hget s s' h]
  simp only
  split
  · exact ⟨h, rfl⟩
  · exact walkLoop_sim get get' cb cb' hget hcb _ _ _ _ _ h

/-- The callback that writes down what it sees and returns nil. -/
def noteAll : WalkFunc (Store (List Visit)) := fun p d s => ((s.1, s.2 ++ [⟨p, d, none⟩]), none)

/-- A walk of one layer with this callback. -/
theorem walk_noteAll (E : Env) (n : Nat) (s : Store (List Visit)) (p : Str) :
    (memLayer E n).walk p noteAll s =
      ((s.1, s.2 ++ visits E id nod (s.1 n) p), walkResult E id nod (s.1 n) p) := by
  have h := walk_sim (R := fun (a : Store (List Visit)) (b : World × List Visit) =>
      a.1 = s.1 ∧ b.1 = s.1 n ∧ a.2 = s.2 ++ b.2) E (fun a => a.1 n) (fun b => b.1) noteAll (logged nod)
    (by rintro a b ⟨h1, h2, h3⟩; simp only [h1, h2])
    (by
      rintro q d a b ⟨h1, h2, h3⟩
      refine ⟨⟨h1, h2, ?_⟩, rfl⟩
      simp [noteAll, logged, h3, nod]) s (s.1 n, []) ⟨rfl, rfl, by simp⟩ p
  have h2 := (walk_logged E id nod (s.1 n) p).2
  show Mem.walk E (fun s => s.1 n) noteAll s p = _
  unfold visits walkResult
  rw [← h2]
  refine Prod.ext (Prod.ext h.1.1 h.1.2.2) h.2

/-- What a full walk of a list of layers reports. -/
theorem allOf_walk (E : Env) {i : Info} {p : Str} {root : Path} (hp : E.parse i p = .ok root) :
    ∀ (is : List Nat) (s : Store (List Visit)), LayersOk E i s is → (∀ n ∈ is, CleanNames (s.1 n) root.pkg) →
    allOf ((memLayers E is).map fun y => tell y (.walk p noteAll)) s =
      ((s.1, s.2 ++ (is.map fun n => visits E id nod (s.1 n) p).flatten), .ok ())
  | [], s, _, _ => by simp [memLayers, allOf]
  | n :: is, s, hok, hc => by
    rw [show memLayers (C := List Visit) E (n :: is) = memLayer E n :: memLayers E is from rfl, List.map_cons]
    have h := (C20_walk_visits_partial E (hok n (by simp)) (hc n (by simp)) hp).1
    simp only [allOf, tell]
    rw [walk_noteAll, h]
    simp only
    have := allOf_walk E hp is (s.1, s.2 ++ visits E id nod (s.1 n) p)
      (fun m hm => hok m (List.mem_cons_of_mem _ hm)) (fun m hm => hc m (List.mem_cons_of_mem _ hm))
    simp only [tell] at this
    rw [this]
    simp

theorem filter_unique {α β : Type} [DecidableEq β] {f : α → β} {l : List α} (h : l.Pairwise fun a b => f a ≠ f b)
    {a : α} (ha : a ∈ l) : l.filter (fun x => f x = f a) = [a] := by
  induction l with
  | nil => cases ha
  | cons b l ih =>
    obtain ⟨h1, h2⟩ := List.pairwise_cons.mp h
    rcases List.mem_cons.mp ha with rfl | ha
    · simp only [List.filter_cons, decide_true, if_true, List.cons.injEq, true_and]
      rw [List.filter_eq_nil_iff]
      intro x hx
      simp only [decide_eq_true_eq]
      exact fun he => h1 x hx he.symm
    · have : f b ≠ f a := h1 a ha
      simp only [List.filter_cons, this, decide_false, Bool.false_eq_true, if_false]
      exact ih h2 ha

/-- How often and with which details one Pkger's walk reports a path. -/
theorem visits_of_path (E : Env) {i : Info} {w : World} {p : Str} {root q : Path}
    (hr : Reached E i w) (hc : CleanNames w root.pkg) (hp : E.parse i p = .ok root)
    (hq : q.pkg = root.pkg) (hqn : q.name ≠ []) (hpre : root.name <+: q.name) :
    ((visits E id nod w p).filter fun v => v.path = q.str).map (·.details) = (entry w q).toList := by
  have hh := hr.here
  subst hh
  have hwf := hr.inv.wf
  have hnm := CleanNames.named hc
  obtain ⟨vs, h1, h2⟩ := visits_facts E id nod w hp
  have hby := cands_sorted hwf.nodup hnm
  have hans : ∀ v ∈ vs, v.answer = none := by
    intro v hv
    obtain ⟨_, h⟩ := visits_answer E id nod w p v.visit (by rw [h1]; exact List.mem_map_of_mem hv)
    exact h
  have hdist : (visits E id nod w p).Pairwise fun a b => a.path ≠ b.path := by
    rw [h1, List.pairwise_map]
    have := hby.sublist h2.sub
    rw [List.pairwise_map] at this
    refine List.Pairwise.imp_of_mem ?_ this
    intro a b ha hb hlt he
    have ha' := mem_cands.mp (h2.sub.subset (List.mem_map_of_mem ha))
    have hb' := mem_cands.mp (h2.sub.subset (List.mem_map_of_mem hb))
    have := str_inj (ha'.2.1.trans hb'.2.1.symm) (hnm _ ha'.1 ha'.2.1) (hnm _ hb'.1 hb'.2.1) he
    rw [this, Str.lt_iff] at hlt
    exact hlt.2 rfl
  by_cases hst : Stored w q
  · obtain ⟨_, c2⟩ := h2.complete nod_unchanging
      (fun k hk => hasDetails_of_wf hwf (mem_cands.mp hk).1) (fun v hv => Or.inl (hans v hv))
    have hmem : q ∈ vs.map PVisit.path := by
      rcases c2 q (mem_cands.mpr ⟨hst, hq, hpre⟩) with h | h | ⟨v, hv, h, _⟩
      · exact h
      · exact absurd h (CleanNames.not_bang hc hst hq)
      · rw [hans v hv] at h; cases h
    obtain ⟨v, hv, hvq⟩ := List.mem_map.mp hmem
    have hvv : v.visit ∈ visits E id nod w p := by rw [h1]; exact List.mem_map_of_mem hv
    have hvs : v.visit.path = q.str := by rw [← hvq]; rfl
    have := filter_unique (f := Visit.path) hdist hvv
    rw [hvs] at this
    rw [this]
    obtain ⟨f, hf, hfd⟩ := h2.details nod_unchanging v hv
    rw [hvq] at hf
    have : entry w q = some v.details := by
      unfold entry
      have hf' : lookup w q = some f := hf
      rw [hf']
      exact hfd
    rw [this]
    rfl
  · have he : entry w q = none := by
      unfold entry
      cases hl : lookup w q with
      | none => rfl
      | some f => exact absurd (stored_iff_lookup.mpr ⟨f, hl⟩) hst
    rw [he]
    have : (visits E id nod w p).filter (fun v => v.path = q.str) = [] := by
      rw [List.filter_eq_nil_iff]
      intro v hv
      rw [h1] at hv
      obtain ⟨v', hv', rfl⟩ := List.mem_map.mp hv
      simp only [decide_eq_true_eq]
      intro hs
      have hm := mem_cands.mp (h2.sub.subset (List.mem_map_of_mem hv'))
      have := str_inj (hm.2.1.trans hq.symm) (hnm _ hm.1 hm.2.1) hqn hs
      exact hst (this ▸ hm.1)
    rw [this]
    rfl

/-- The reports of one path in a walk. -/
def reportsOf (vs : List Visit) (q : Path) : List Details := (vs.filter fun v => v.path = q.str).map (·.details)

/-- The statement of **C33**: each visible path of the tree is reported exactly once, with the details of the
newest layer that has it. -/
def C33_statement (E : Env) : Prop :=
  ∀ (i : Info) (s : Store (List Visit)) (b : Nat) (bs : List Nat) (p : Str) (root q : Path),
    (b :: bs).Nodup → LayersOk E i s (b :: bs) → (∀ n ∈ b :: bs, CleanNames (s.1 n) root.pkg) → s.2 = [] →
    E.parse i p = .ok root → InTree root q → (∃ n ∈ b :: bs, Stored (s.1 n) q) →
    reportsOf ((memStack E b bs).walk p noteAll s).1.2 q =
      (((b :: bs).filterMap fun n => entry (s.1 n) q).take 1)

/-- **C33 is false**: a path two layers have is reported twice. -/
theorem C33_twice_refuted : ¬ C33_statement Demo.env := by
  intro h
  have := h Demo.info (twoLayers, []) 1 [0] (b! "/") ⟨b! "app", b! "/"⟩ ⟨b! "app", b! "/a"⟩ (by decide)
    (fun n _ => twoLayers_reached n)
    (by
      intro n hn
      simp at hn
      rcases hn with rfl | rfl <;> exact CleanNames.of_keys (by decide +kernel)) rfl (by decide +kernel)
    ⟨rfl, [], [b! "a"], by decide, by decide, by decide⟩
    ⟨1, by simp, Option.isSome_iff_exists.mp (by decide +kernel)⟩
  have := congrArg List.length this
  revert this
  decide +kernel

/-- **C33** (what holds). A full walk of any stack of in-memory layers returns nil; each path in range is
reported once for every layer that has it, newest layer first, with that layer's details - so the first
report has the details of the newest layer, and there is exactly one report if exactly one layer has it. -/
theorem C33_layers_in_turn_partial (E : Env) {i : Info} {s : Store (List Visit)} {b : Nat} {bs : List Nat} {p : Str}
    {root : Path} (hok : LayersOk E i s (b :: bs)) (hc : ∀ n ∈ b :: bs, CleanNames (s.1 n) root.pkg)
    (hs : s.2 = []) (hp : E.parse i p = .ok root) :
    ∃ vs, (memStack E b bs).walk p noteAll s = ((s.1, vs), .ok ()) ∧
      ∀ q, q.pkg = root.pkg → q.name ≠ [] → root.name <+: q.name →
        reportsOf vs q = (b :: bs).filterMap fun n => entry (s.1 n) q := by
  refine ⟨((b :: bs).map fun n => visits E id nod (s.1 n) p).flatten, ?_, ?_⟩
  · have h := allOf_walk E hp (b :: bs) s hok hc
    rw [hs, List.nil_append, ← tell_memStack] at h
    exact h
  · intro q hq hqn hpre
    have : ∀ is : List Nat, (∀ n ∈ is, n ∈ b :: bs) →
        reportsOf (is.map fun n => visits E id nod (s.1 n) p).flatten q = is.filterMap fun n => entry (s.1 n) q := by
      intro is
      induction is with
      | nil => intro _; rfl
      | cons n is ih =>
        intro hsub
        have hn := hsub n (by simp)
        rw [List.map_cons, List.flatten_cons]
        unfold reportsOf at ih ⊢
        rw [List.filter_append, List.map_append, ih (fun m hm => hsub m (List.mem_cons_of_mem _ hm)),
          visits_of_path E (hok n hn) (hc n hn) hp hq hqn hpre]
        rw [List.filterMap_cons]
        cases entry (s.1 n) q <;> rfl
    exact this _ (fun n hn => hn)

/-- The layer `Open` answers from is the newest one that has the path: the same that the first report of the
walk comes from. -/
theorem C33_open_agrees {C : Type} (E : Env) {i : Info} {p : Str} {q : Path} (hp : E.parse i p = .ok q)
    {b : Nat} {bs : List Nat} {s : Store C} (hok : LayersOk E i s (b :: bs)) {d : Details}
    (hd : ((b :: bs).filterMap fun n => entry (s.1 n) q).head? = some d) :
    ∃ s' n h, (memStack E b bs).openFile p s = (s', .ok (n, h)) ∧ n ∈ b :: bs ∧ ((s'.1 n).heap h).info = some d := by
  have key : ∀ (b : Nat) (bs : List Nat) (s : Store C), LayersOk E i s (b :: bs) →
      ((b :: bs).filterMap fun n => entry (s.1 n) q).head? = some d →
      ∃ s' n h, firstAnswer (ask (memLayer E b) (.openFile p)) ((memLayers E bs).map fun y => ask y (.openFile p)) s =
        (s', .ok (.file (n, h))) ∧ n ∈ b :: bs ∧ ((s'.1 n).heap h).info = some d := by
    intro b bs
    induction bs generalizing b with
    | nil =>
      intro s hok hd
      have hp' : E.parse (s.1 b).here p = .ok q := by rw [(hok b (by simp)).here]; exact hp
      simp only [List.filterMap_cons, List.filterMap_nil] at hd
      cases he : entry (s.1 b) q with
      | none => rw [he] at hd; cases hd
      | some d' =>
        rw [he] at hd
        injection hd with hd
        subst hd
        obtain ⟨f, hf, hfd⟩ := Option.bind_eq_some_iff.mp he
        obtain ⟨w', h, ho, hobj⟩ := openFile_of_lookup hp' hf hfd
        refine ⟨(upd s.1 b w', s.2), b, h, ?_, by simp, ?_⟩
        · simp [firstAnswer, memLayers, ask, memLayer, memPkger, ho, mapRes]
        · simp only [upd, if_true, hobj]; rfl
    | cons c cs ih =>
      intro s hok hd
      have hp' : E.parse (s.1 b).here p = .ok q := by rw [(hok b (by simp)).here]; exact hp
      rw [List.filterMap_cons] at hd
      cases he : entry (s.1 b) q with
      | none =>
        rw [he] at hd
        have hns : AMap.get (s.1 b).files q = none := by
          cases hg : AMap.get (s.1 b).files q with
          | none => rfl
          | some j =>
            obtain ⟨d', f, hf, hfd⟩ := hasDetails_of_wf (hok b (by simp)).inv.wf ⟨j, hg⟩
            simp [entry, hf, hfd] at he
        have ho : openFile E (s.1 b) p = (s.1 b, .err .notExist) := by
          simp only [openFile, Mem.parse, hp', hns]
        have hsame : ∀ n, upd s.1 b (s.1 b) n = s.1 n := by
          intro n; by_cases h : n = b <;> simp [upd, h]
        have hsame' : upd s.1 b (s.1 b) = s.1 := funext hsame
        obtain ⟨s', n, h, e, h1, h2⟩ := ih c s (fun m hm => hok m (List.mem_cons_of_mem _ hm)) hd
        refine ⟨s', n, h, ?_, List.mem_cons_of_mem _ h1, h2⟩
        rw [show memLayers (C := C) E (c :: cs) = memLayer E c :: memLayers E cs from rfl, List.map_cons]
        simp only [firstAnswer]
        have : ask (memLayer (C := C) E b) (.openFile p) s = (s, .err .notExist) := by
          simp [ask, memLayer, memPkger, ho, mapRes, hsame']
        rw [this]
        exact e
      | some d' =>
        rw [he] at hd
        injection hd with hd
        subst hd
        obtain ⟨f, hf, hfd⟩ := Option.bind_eq_some_iff.mp he
        obtain ⟨w', h, ho, hobj⟩ := openFile_of_lookup hp' hf hfd
        refine ⟨(upd s.1 b w', s.2), b, h, ?_, by simp, ?_⟩
        · rw [show memLayers (C := C) E (c :: cs) = memLayer E c :: memLayers E cs from rfl, List.map_cons]
          simp [firstAnswer, ask, memLayer, memPkger, ho, mapRes]
        · simp only [upd, if_true, hobj]; rfl
  obtain ⟨s', n, h, e, h1, h2⟩ := key b bs s hok hd
  refine ⟨s', n, h, ?_, h1, h2⟩
  rw [← ask_memStack] at e
  simp only [ask, Prod.mk.injEq] at e
  refine Prod.ext e.1 ?_
  cases hr : ((memStack E b bs).openFile p s).2 with
  | ok v => rw [hr] at e; simp only [mapRes, Res.ok.injEq, Answer.file.injEq] at e; rw [e.2]
  | err x => rw [hr] at e; simp [mapRes] at e
  | panic => rw [hr] at e; simp [mapRes] at e

/-- **C33** (errors), for all implementations and callbacks: an error from one layer's walk is the result of
the whole walk, and the older layers are not walked. -/
theorem C33_error_ends_walk {S F : Type} (p : Str) (wf : WalkFunc S) (newer : List (Pkger S F)) (b : Pkger S F)
    (older : List (Pkger S F)) (s s1 s2 : S) (e : Err)
    (h1 : allOf (newer.map fun x => x.walk p wf) s = (s1, .ok ())) (h2 : b.walk p wf s1 = (s2, .err e)) :
    ∃ x, stackOf (newer ++ b :: older) = some x ∧ x.walk p wf s = (s2, .err e) := by
  have key : ∀ (newer : List (Pkger S F)) (s : S), allOf (newer.map fun x => x.walk p wf) s = (s1, .ok ()) →
      allOf ((newer ++ b :: older).map fun x => x.walk p wf) s = (s2, .err e) := by
    intro newer
    induction newer with
    | nil =>
      intro s h
      simp only [List.map_nil, allOf, Prod.mk.injEq, and_true] at h
      subst h
      simp only [List.nil_append, List.map_cons, allOf, h2]
    | cons a as ih =>
      intro s h
      simp only [List.map_cons, allOf, List.cons_append] at h ⊢
      revert h
      generalize a.walk p wf s = r
      obtain ⟨t, r⟩ := r
      cases r with
      | ok u => intro h; exact ih t h
      | err e' => intro h; simp at h
      | panic => intro h; simp at h
  cases newer with
  | nil =>
    obtain ⟨x, hx, ht⟩ := tell_stack (.walk p wf) b older
    exact ⟨x, hx, by rw [show x.walk p wf = tell x (.walk p wf) from rfl, ht]; exact key [] s h1⟩
  | cons a as =>
    obtain ⟨x, hx, ht⟩ := tell_stack (.walk p wf) a (as ++ b :: older)
    exact ⟨x, hx, by rw [show x.walk p wf = tell x (.walk p wf) from rfl, ht]; exact key (a :: as) s h1⟩

/-- The walk of layer 1 over layer 0. -/
example : ((memStack Demo.env 1 [0]).walk (b! "/") noteAll (twoLayers, [])).1.2.map (·.path) =
    [b! "app:/", b! "app:/a", b! "app:/b", b! "app:/", b! "app:/a", b! "app:/c"] := by decide +kernel

end Props
end Verif
