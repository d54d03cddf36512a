import Verif.Lemmas.Alone
import Verif.Lemmas.FineRead
import Verif.Spec.Touch

/-! Goroutines that write, interrupted anywhere. -/

namespace Verif
namespace Fine

open Mem Code

/-- What is always true: entries lead to objects with details, the bytes of every object that is or was the file `q` are
among `S q`, and the paths `D` are not deleted. -/
structure Inv (S : Path → Str → Prop) (D : Path → Prop) (g : Glob) : Prop where
  was : ∀ q id, AMap.get g.w.files q = some id → (q, id) ∈ g.came
  lt : ∀ e ∈ g.came, e.2 < g.w.next
  info : ∀ e ∈ g.came, (g.w.heap e.2).info ≠ none
  content : ∀ e ∈ g.came, S e.1 (g.w.heap e.2).bytes
  stays : ∀ e ∈ g.came, D e.1 → ∃ id, AMap.get g.w.files e.1 = some id
  gone : ∀ q ∈ g.gone, ¬ D q

/-- What goroutine `t` does: it changes objects of its own and the entries `K`, stores its own objects, and keeps `Inv`. -/
structure Guar (S : Path → Str → Prop) (D K : Path → Prop) (t : Nat) (g g' : Glob) : Prop where
  here : g'.w.here = g.w.here
  infos : g'.w.infos = g.w.infos
  next : g.w.next ≤ g'.w.next
  owner : ∀ id, id < g.w.next → g'.owner id = g.owner id
  heap : ∀ id, id < g.w.next → g.owner id ≠ some t → g'.w.heap id = g.w.heap id
  came : ∀ e ∈ g.came, e ∈ g'.came
  stored : ∀ e ∈ g'.came, e ∈ g.came ∨ g'.owner e.2 = some t
  keys : ∀ q, ¬ K q → AMap.get g'.w.files q = AMap.get g.w.files q
  inv : Inv S D g → Inv S D g'

/-- What goroutine `t` relies on: its objects stay, nobody stores them, and the entries `M` stay. -/
structure Rely (S : Path → Str → Prop) (D M : Path → Prop) (t : Nat) (g g' : Glob) : Prop where
  here : g'.w.here = g.w.here
  infos : g'.w.infos = g.w.infos
  next : g.w.next ≤ g'.w.next
  owner : ∀ id, id < g.w.next → g'.owner id = g.owner id
  heap : ∀ id, id < g.w.next → g.owner id = some t → g'.w.heap id = g.w.heap id
  came : ∀ e ∈ g.came, e ∈ g'.came
  stored : ∀ e ∈ g'.came, e ∈ g.came ∨ g'.owner e.2 ≠ some t
  keys : ∀ q, M q → AMap.get g'.w.files q = AMap.get g.w.files q
  inv : Inv S D g → Inv S D g'

variable {p : Path} {S : Path → Str → Prop} {D K M : Path → Prop} {t u : Nat}

theorem Guar.rely {g g' : Glob} (h : t ≠ u) (hM : ∀ q, M q → ¬ K q) (hg : Guar S D K u g g') :
    Rely S D M t g g' where
  here := hg.here
  infos := hg.infos
  next := hg.next
  owner := hg.owner
  heap := fun id h1 h2 => hg.heap id h1 (by rw [h2]; intro e; injection e with e; exact h e)
  came := hg.came
  stored := fun e h1 => (hg.stored e h1).imp (fun h => h) fun h2 h3 => by
    rw [h2] at h3; injection h3 with e; exact h e.symm
  keys := fun q h1 => hg.keys q (hM q h1)
  inv := hg.inv

theorem Rely.ticks {g g' : Glob} (h : Ticks g g') : Rely S D M t g g' := by
  obtain ⟨now, rfl⟩ := h
  exact ⟨rfl, rfl, Nat.le_refl _, fun _ _ => rfl, fun _ _ _ => rfl, fun _ h => h, fun _ h => Or.inl h, fun _ _ => rfl,
    fun h => ⟨h.was, h.lt, h.info, h.content, h.stays, h.gone⟩⟩

theorem Guar.refl (g : Glob) : Guar S D K t g g :=
  ⟨rfl, rfl, Nat.le_refl _, fun _ _ => rfl, fun _ _ _ => rfl, fun _ h => h, fun _ h => Or.inl h, fun _ _ => rfl, fun h => h⟩

/-- The handles `hs` are objects of goroutine `t`, and if one of them is or was the file `q`, `q` may have any content. -/
structure Hold (S : Path → Str → Prop) (D : Path → Prop) (t : Nat) (hs : List Nat) (g : Glob) : Prop where
  inv : Inv S D g
  own : ∀ a ∈ hs, a < g.w.next ∧ g.owner a = some t
  free : ∀ a ∈ hs, ∀ q, (q, a) ∈ g.came → ∀ s, S q s

theorem Hold.stable (hs : List Nat) : Stable (Rely S D M t) (Hold S D t hs) := by
  intro g g' h hr
  refine ⟨hr.inv h.inv, ?_, ?_⟩
  · intro a ha
    obtain ⟨h1, h2⟩ := h.own a ha
    exact ⟨Nat.lt_of_lt_of_le h1 hr.next, (hr.owner a h1).trans h2⟩
  · intro a ha q hst
    obtain ⟨h1, h2⟩ := h.own a ha
    rcases hr.stored (q, a) hst with h3 | h3
    · exact h.free a ha q h3
    · exact absurd ((hr.owner a h1).trans h2) h3

theorem Hold.sub {hs hs' : List Nat} {g : Glob} (h : Hold S D t hs g) (hsub : ∀ a ∈ hs', a ∈ hs) : Hold S D t hs' g :=
  ⟨h.inv, fun a ha => h.own a (hsub a ha), fun a ha => h.free a (hsub a ha)⟩

/-- An object of one's own with known contents. -/
structure HoldNew (S : Path → Str → Prop) (D : Path → Prop) (t : Nat) (hs : List Nat) (id : Nat) (f : FileObj)
    (g : Glob) : Prop where
  hold : Hold S D t (id :: hs) g
  obj : g.w.heap id = f
  new : id ∉ hs
  fresh : ∀ q, (q, id) ∉ g.came

theorem HoldNew.stable (hs : List Nat) (id : Nat) (f : FileObj) :
    Stable (Rely S D M t) (HoldNew S D t hs id f) := by
  intro g g' h hr
  have hid := h.hold.own id (List.mem_cons_self ..)
  exact ⟨Hold.stable _ g g' h.hold hr, (hr.heap id hid.1 hid.2).trans h.obj, h.new, fun q hq =>
    (hr.stored _ hq).elim (h.fresh q) fun h' => h' ((hr.owner id hid.1).trans hid.2)⟩

abbrev Safe' (S : Path → Str → Prop) (D K M : Path → Prop) (t : Nat) {α : Type} (c : Code α) (P : Glob → Prop)
    (Q : α → Glob → Prop) : Prop := Safe t (Rely S D M t) (Any (Guar S D K t)) c P Q

/-- An access that changes nothing. -/
theorem safe_look {α β : Type} {a : Acc β} (ha : ∀ g, (a.run t g).1 = g) {P : Glob → Prop} (hP : Stable (Rely S D M t) P)
    {k : β → Code α} {Q : α → Glob → Prop} (h : ∀ r, Safe' S D K M t (k r) P Q) : Safe' S D K M t (.acc a k) P Q :=
  ⟨fun _ => P, fun _ => hP, fun g hg => by rw [ha]; exact ⟨Guar.refl g, hg⟩, h⟩

variable {hs : List Nat} {α : Type} {Q : α → Glob → Prop}

/-- Changing an object of one's own. -/
theorem guar_set {g : Glob} {id : Nat} {f : FileObj} (ho : g.owner id = some t)
    (hfree : ∀ q, (q, id) ∈ g.came → S q f.bytes) (hf : (g.w.heap id).info ≠ none → f.info ≠ none) :
    Guar S D K t g { g with w := setObj g.w id f } := by
  refine ⟨rfl, rfl, Nat.le_refl _, fun _ _ => rfl, ?_, fun _ h => h, fun _ h => Or.inl h, fun _ _ => rfl, ?_⟩
  · intro a _ ha
    have hne : a ≠ id := by rintro rfl; exact ha ho
    simp only [setObj]; rw [upd_ne _ _ hne]
  · intro hI
    refine ⟨hI.was, hI.lt, ?_, ?_, hI.stays, hI.gone⟩
    · rintro ⟨q, a⟩ ha
      by_cases he : a = id
      · subst he
        simp only [setObj_heap]
        exact hf (hI.info _ ha)
      · simp only [setObj]; rw [upd_ne _ _ he]; exact hI.info _ ha
    · rintro ⟨q, a⟩ ha
      by_cases he : a = id
      · subst he
        simp only [setObj_heap]
        exact hfree q ha
      · simp only [setObj]; rw [upd_ne _ _ he]; exact hI.content _ ha

theorem safe_set {id : Nat} (hid : id ∈ hs) {a : Acc Unit} {φ : FileObj → FileObj}
    (ha : ∀ g : Glob, (a.run t g).1 = { g with w := setObj g.w id (φ (g.w.heap id)) })
    (hφ : ∀ f : FileObj, f.info ≠ none → (φ f).info ≠ none) {k : Unit → Code α}
    (h : Safe' S D K M t (k ()) (Hold S D t hs) Q) : Safe' S D K M t (.acc a k) (Hold S D t hs) Q := by
  refine Safe.det () _ (Hold.stable hs) ?_ h
  intro g hg
  rw [ha]
  obtain ⟨h1, h2⟩ := hg.own id hid
  have hG : Guar S D K t g { g with w := setObj g.w id (φ (g.w.heap id)) } :=
    guar_set h2 (fun q e => hg.free id hid q e _) (hφ _)
  exact ⟨hG, rfl, ⟨hG.inv hg.inv, hg.own, hg.free⟩⟩

/-- Making an object. -/
theorem guar_alloc {f : FileObj} {g : Glob} (hlt : ∀ e ∈ g.came, e.2 < g.w.next) :
    Guar S D K t g ⟨(Mem.alloc g.w f).1, g.came, g.gone, upd g.owner g.w.next (some t)⟩ := by
  have hne : ∀ a, a < g.w.next → a ≠ g.w.next := fun a h => Nat.ne_of_lt h
  have hheap : ∀ a, a < g.w.next → (upd g.w.heap g.w.next f) a = g.w.heap a := fun a h => upd_ne _ _ (hne a h)
  have hown : ∀ a, a < g.w.next → (upd g.owner g.w.next (some t)) a = g.owner a := fun a h => upd_ne _ _ (hne a h)
  refine ⟨rfl, rfl, Nat.le_succ _, hown, fun a h1 _ => hheap a h1, fun _ h => h, fun _ h => Or.inl h, fun _ _ => rfl, ?_⟩
  intro hI
  refine ⟨hI.was, fun e he => Nat.lt_succ_of_lt (hI.lt e he), ?_, ?_, hI.stays, hI.gone⟩
  · intro e he
    show (upd g.w.heap g.w.next f e.2).info ≠ none
    rw [hheap e.2 (hlt e he)]
    exact hI.info e he
  · intro e he
    show S e.1 (upd g.w.heap g.w.next f e.2).bytes
    rw [hheap e.2 (hlt _ he)]
    exact hI.content e he

theorem safe_alloc {f : FileObj} {k : Nat → Code α}
    (h : ∀ id, Safe' S D K M t (k id) (HoldNew S D t hs id f) Q) :
    Safe' S D K M t (.acc (.alloc f) k) (Hold S D t hs) Q := by
  refine ⟨fun id => HoldNew S D t hs id f, fun id => HoldNew.stable hs id f, ?_, h⟩
  intro g hg
  have hG : Guar S D K t g ⟨(Mem.alloc g.w f).1, g.came, g.gone, upd g.owner g.w.next (some t)⟩ := guar_alloc hg.inv.lt
  refine ⟨hG, ⟨hG.inv hg.inv, ?_, ?_⟩, upd_self .., fun e => Nat.lt_irrefl _ (hg.own _ e).1,
    fun q hq => Nat.lt_irrefl _ (hg.inv.lt _ hq)⟩
  · intro a ha
    rcases List.mem_cons.mp ha with rfl | ha
    · exact ⟨Nat.lt_succ_self _, upd_self ..⟩
    · obtain ⟨h1, h2⟩ := hg.own a ha
      exact ⟨Nat.lt_succ_of_lt h1, (hG.owner a h1).trans h2⟩
  · intro a ha
    rcases List.mem_cons.mp ha with rfl | ha
    · intro q e
      exact absurd (hg.inv.lt _ e) (Nat.lt_irrefl _)
    · exact hg.free a ha

/-- Storing an object just made. -/
theorem guar_store {g : Glob} {id : Nat} {q : Path} (hlt : id < g.w.next) (ho : g.owner id = some t) (hK : K q)
    (hi : (g.w.heap id).info ≠ none) (hS : S q (g.w.heap id).bytes) :
    Guar S D K t g { g with w := Mem.store g.w q id, came := g.came ++ [(q, id)] } := by
  have hcame : ∀ e, e ∈ g.came ++ [(q, id)] → e ∈ g.came ∨ e = (q, id) := by
    intro e he
    rcases List.mem_append.mp he with h | h
    · exact Or.inl h
    · simp at h; exact Or.inr h
  refine ⟨rfl, rfl, Nat.le_refl _, fun _ _ => rfl, fun _ _ _ => rfl, fun e h => List.mem_append_left _ h, ?_, ?_, ?_⟩
  · intro e h
    rcases hcame e h with h | rfl
    · exact Or.inl h
    · exact Or.inr ho
  · intro q' hq'
    show AMap.get (AMap.set g.w.files q id) q' = _
    rw [AMap.get_set_ne _ _ (by rintro rfl; exact hq' hK)]
  · intro hI
    refine ⟨?_, ?_, ?_, ?_, ?_, hI.gone⟩
    · intro q' a h
      have h : AMap.get (AMap.set g.w.files q id) q' = some a := h
      rw [AMap.get_set] at h
      by_cases he : q' = q
      · rw [if_pos he] at h
        injection h with h
        subst h; subst he
        exact List.mem_append_right _ (List.mem_singleton_self _)
      · rw [if_neg he] at h
        exact List.mem_append_left _ (hI.was q' a h)
    · intro e h
      rcases hcame e h with h | rfl
      · exact hI.lt e h
      · exact hlt
    · intro e h
      rcases hcame e h with h | rfl
      · exact hI.info e h
      · exact hi
    · intro e h
      rcases hcame e h with h | rfl
      · exact hI.content e h
      · exact hS
    · intro e h hD
      by_cases he : e.1 = q
      · exact ⟨id, by show AMap.get (AMap.set g.w.files q id) e.1 = _; rw [he, AMap.get_set_self]⟩
      · rcases hcame e h with h | rfl
        · obtain ⟨a, ha⟩ := hI.stays e h hD
          exact ⟨a, by show AMap.get (AMap.set g.w.files q id) e.1 = _; rw [AMap.get_set_ne _ _ he]; exact ha⟩
        · exact absurd rfl he

/-- Storing an object that one then forgets. -/
theorem safe_store_drop {id : Nat} {f : FileObj} {q : Path} (hK : K q) (hi : f.info ≠ none) (hS : S q f.bytes)
    {k : Unit → Code α} (h : Safe' S D K M t (k ()) (Hold S D t hs) Q) :
    Safe' S D K M t (.acc (.store q id) k) (HoldNew S D t hs id f) Q := by
  refine Safe.det () _ (Hold.stable hs) ?_ h
  intro g hg
  obtain ⟨h1, h2⟩ := hg.hold.own id (List.mem_cons_self ..)
  have hG : Guar S D K t g _ := guar_store h1 h2 hK (by rw [hg.obj]; exact hi) (by rw [hg.obj]; exact hS)
  refine ⟨hG, rfl, ⟨hG.inv hg.hold.inv, fun a ha => hg.hold.own a (List.mem_cons_of_mem _ ha), ?_⟩⟩
  intro a ha q' e
  rcases List.mem_append.mp e with e | e
  · exact hg.hold.free a (List.mem_cons_of_mem _ ha) q' e
  · simp at e
    rw [e.2] at ha
    exact absurd ha hg.new

/-- Storing an object at a path that may have any content. -/
theorem safe_store_keep {id : Nat} {f : FileObj} {q : Path} (hK : K q) (hi : f.info ≠ none) (hq : ∀ s, S q s)
    {k : Unit → Code α} (h : Safe' S D K M t (k ()) (Hold S D t (id :: hs)) Q) :
    Safe' S D K M t (.acc (.store q id) k) (HoldNew S D t hs id f) Q := by
  refine Safe.det () _ (Hold.stable _) ?_ h
  intro g hg
  obtain ⟨h1, h2⟩ := hg.hold.own id (List.mem_cons_self ..)
  have hG : Guar S D K t g _ := guar_store h1 h2 hK (by rw [hg.obj]; exact hi) (hq _)
  refine ⟨hG, rfl, ⟨hG.inv hg.hold.inv, hg.hold.own, ?_⟩⟩
  intro a ha q' e
  rcases List.mem_append.mp e with e | e
  · exact hg.hold.free a ha q' e
  · simp at e
    rw [e.1]
    exact hq

theorem safe_delete {q : Path} (hK : K q) (hD : ¬ D q) {k : Unit → Code α}
    (h : Safe' S D K M t (k ()) (Hold S D t hs) Q) :
    Safe' S D K M t (.acc (.delete q) k) (Hold S D t hs) Q := by
  have hget : ∀ (m : AMap Path Nat) q' a, AMap.get (AMap.erase m q) q' = some a → AMap.get m q' = some a := by
    intro m q' a h
    rw [AMap.get_erase] at h
    by_cases he : q' = q
    · rw [if_pos he] at h; cases h
    · rw [if_neg he] at h; exact h
  refine Safe.det () _ (Hold.stable _) ?_ h
  intro g hg
  have hI : Inv S D (Acc.run t (.delete q) g).1 :=
    ⟨fun q' a h => hg.inv.was q' a (hget _ q' a h), hg.inv.lt, hg.inv.info, hg.inv.content, fun e he hDe => by
        obtain ⟨a, ha⟩ := hg.inv.stays e he hDe
        refine ⟨a, ?_⟩
        show AMap.get (AMap.erase g.w.files q) e.1 = _
        rw [AMap.get_erase_ne _ (by intro e'; rw [e'] at hDe; exact hD hDe)]
        exact ha, fun q' hq' => by
        rcases List.mem_append.mp hq' with h | h
        · exact hg.inv.gone q' h
        · simp at h; rw [h]; exact hD⟩
  refine ⟨⟨rfl, rfl, Nat.le_refl _, fun _ _ => rfl, fun _ _ _ => rfl, fun _ h => h, fun _ h => Or.inl h, ?_,
    fun _ => hI⟩, rfl, hI, hg.own, hg.free⟩
  intro q' hq'
  show AMap.get (AMap.erase g.w.files q) q' = _
  rw [AMap.get_erase_ne _ (by rintro rfl; exact hq' hK)]

/-! ### The methods -/

/-- After a call that may have returned a handle. -/
def Got (S : Path → Str → Prop) (D : Path → Prop) (t : Nat) (hs : List Nat) : Res Nat → Glob → Prop
  | .ok id, g => Hold S D t (id :: hs) g
  | .err _, g => Hold S D t hs g
  | .panic, g => Hold S D t hs g

theorem hold_get {id : Nat} {k : FileObj → Code α} (h : ∀ f, Safe' S D K M t (k f) (Hold S D t hs) Q) :
    Safe' S D K M t (.acc (.get id) k) (Hold S D t hs) Q := safe_look (fun _ => rfl) (Hold.stable hs) h

theorem hold_load {q : Path} {k : Option Nat → Code α} (h : ∀ r, Safe' S D K M t (k r) (Hold S D t hs) Q) :
    Safe' S D K M t (.acc (.load q) k) (Hold S D t hs) Q := safe_look (fun _ => rfl) (Hold.stable hs) h

theorem hold_now {k : Int → Code α} (h : ∀ r, Safe' S D K M t (k r) (Hold S D t hs) Q) :
    Safe' S D K M t (.acc .now k) (Hold S D t hs) Q := safe_look (fun _ => rfl) (Hold.stable hs) h

theorem hold_info {q : Str} {k : Option Info → Code α} (h : ∀ r, Safe' S D K M t (k r) (Hold S D t hs) Q) :
    Safe' S D K M t (.acc (.loadInfo q) k) (Hold S D t hs) Q := safe_look (fun _ => rfl) (Hold.stable hs) h

theorem HoldNew.hold' {id : Nat} {f : FileObj} {g : Glob} (h : HoldNew S D t hs id f g) : Hold S D t hs g :=
  h.hold.sub fun a ha => List.mem_cons_of_mem _ ha

theorem hold_open (E : Env) (here : Info) (name : Str) :
    Safe' S D K M t (openC E here name) (Hold S D t hs) (Got S D t hs) := by
  unfold openC
  cases E.parse here name with
  | error e => exact fun g h => h
  | ok pt =>
    refine hold_load fun r => ?_
    cases r with
    | none => exact fun g h => h
    | some i =>
      refine hold_get fun f => ?_
      cases f.info with
      | none => exact fun g h => h
      | some d => exact hold_get fun f' => safe_alloc fun id g h => h.hold

theorem hold_fileStat (id : Nat) :
    Safe' S D K M t (fileStatC id) (Hold S D t hs) (fun _ => Hold S D t hs) := by
  unfold fileStatC
  refine hold_get fun f => ?_
  cases f.info with
  | none => exact fun g h => h
  | some d =>
    refine hold_get fun f' => ?_
    cases f'.info with
    | none => exact fun g h => h
    | some d' => exact fun g h => h

theorem hold_fileName (id : Nat) :
    Safe' S D K M t (fileNameC id) (Hold S D t hs) (fun _ => Hold S D t hs) := by
  unfold fileNameC
  exact hold_get fun f g h => h

theorem hold_stat (E : Env) (here : Info) (name : Str) :
    Safe' S D K M t (statC E here name) (Hold S D t hs) (fun _ => Hold S D t hs) := by
  unfold statC
  cases E.parse here name with
  | error e => exact fun g h => h
  | ok pt =>
    refine hold_load fun r => ?_
    cases r with
    | none => exact fun g h => h
    | some i => exact hold_fileStat i

theorem hold_walkLoop {T : Type} (cb : Str → Details → T → T × Option Err) (root : Path) (ks : List Path) :
    ∀ (skip : Str) (s : T), Safe' S D K M t (walkLoopC cb root ks skip s) (Hold S D t hs) (fun _ => Hold S D t hs) := by
  induction ks with
  | nil => exact fun skip s g h => h
  | cons k ks ih =>
    intro skip s
    simp only [walkLoopC]
    by_cases h1 : k.pkg ≠ root.pkg
    · rw [if_pos h1]; exact ih _ _
    · rw [if_neg h1]
      by_cases h2 : Str.hasPrefix k.name root.name = false
      · rw [if_pos h2]; exact ih _ _
      · rw [if_neg h2]
        by_cases h3 : Str.hasPrefix k.name skip = true
        · rw [if_pos h3]; exact ih _ _
        · rw [if_neg h3]
          refine hold_load fun r => ?_
          cases r with
          | none => exact fun g h => h
          | some id =>
            refine (hold_fileStat id).bind fun r => ?_
            cases r with
            | err e => exact fun g h => h
            | panic => exact fun g h => h
            | ok d =>
              simp only
              generalize cb k.str (newFileInfo d) s = m
              obtain ⟨s', e⟩ := m
              cases e with
              | none => exact ih _ _
              | some e => cases e <;> first | exact ih _ _ | exact fun g h => h

theorem hold_range {body : Path → Code Unit} {k : List Path → Code α}
    (hb : ∀ q, Safe' S D K M t (body q) (Hold S D t hs) (fun _ => Hold S D t hs))
    (hk : ∀ l, Safe' S D K M t (k l) (Hold S D t hs) Q) :
    Safe' S D K M t (.range none body k) (Hold S D t hs) Q :=
  ⟨fun _ => Hold S D t hs, fun _ _ => Hold S D t hs, fun _ => Hold S D t hs, fun _ => Hold.stable hs,
    fun _ _ => Hold.stable hs, fun _ => Hold.stable hs, fun _ h => h, fun _ _ _ h _ => h, fun _ q => hb q,
    fun _ _ h _ => h, hk⟩

theorem hold_walk {T : Type} (E : Env) (here : Info) (cb : Str → Details → T → T × Option Err) (s : T) (name : Str) :
    Safe' S D K M t (walkC E here cb s name) (Hold S D t hs) (fun _ => Hold S D t hs) := by
  unfold walkC keysC
  simp only [Code.bind]
  refine hold_range (fun q g h => h) fun l => ?_
  cases E.parse here name with
  | error e => exact fun g h => h
  | ok pt => exact hold_walkLoop cb pt _ _ _

theorem hold_readdir (E : Env) (here : Info) (id : Nat) (count : Int) :
    Safe' S D K M t (readdirC E here id count) (Hold S D t hs) (fun _ => Hold S D t hs) := by
  unfold readdirC
  refine hold_get fun f => ?_
  by_cases hp : f.pkging = false
  · rw [if_pos hp]; exact fun g h => h
  · rw [if_neg hp]
    refine (hold_walk E here _ _ _).bind fun r => ?_
    obtain ⟨infos, r⟩ := r
    cases r with
    | ok _ => exact fun g h => h
    | panic => exact fun g h => h
    | err e =>
      simp only
      by_cases h1 : e.isPathError
      · rw [if_pos h1]; exact fun g h => h
      · rw [if_neg h1]
        by_cases h2 : e ≠ .eof
        · rw [if_pos h2]; exact fun g h => h
        · rw [if_neg h2]; exact fun g h => h

theorem hold_ensure {id : Nat} (hid : id ∈ hs) {k : FileObj → Code α}
    (h : ∀ f, Safe' S D K M t (k f) (Hold S D t hs) Q) :
    Safe' S D K M t (ensureReaderC id k) (Hold S D t hs) Q := by
  unfold ensureReaderC
  refine hold_get fun f => ?_
  by_cases hc : f.reader = none ∧ f.bytes.length > 0
  · rw [if_pos hc]
    exact safe_set hid (φ := fun f' => { f' with reader := some (f.bytes, 0) }) (fun _ => rfl) (fun _ h => h) (hold_get h)
  · rw [if_neg hc]
    exact hold_get h

theorem hold_read {id : Nat} (hid : id ∈ hs) (n : Nat) :
    Safe' S D K M t (readC id n) (Hold S D t hs) (fun _ => Hold S D t hs) := by
  unfold readC
  refine hold_ensure hid fun f => ?_
  cases f.reader with
  | none => exact fun g h => h
  | some r =>
    obtain ⟨s, i⟩ := r
    exact safe_set hid (φ := fun f' => { f' with reader := some (s, (readerRead s i n).1) }) (fun _ => rfl) (fun _ h => h)
      fun g h => h

theorem hold_seek {id : Nat} (hid : id ∈ hs) (off whence : Int) :
    Safe' S D K M t (seekC id off whence) (Hold S D t hs) (fun _ => Hold S D t hs) := by
  unfold seekC
  refine hold_ensure hid fun f => ?_
  cases f.reader with
  | none => exact fun g h => h
  | some r =>
    obtain ⟨s, i⟩ := r
    exact safe_set hid (φ := fun f' => { f' with reader := some (s, (readerSeek s i off whence).1) }) (fun _ => rfl)
      (fun _ h => h) fun g h => h

theorem hold_write {id : Nat} (hid : id ∈ hs) (b : Str) :
    Safe' S D K M t (writeC id b) (Hold S D t hs) (fun _ => Hold S D t hs) := by
  unfold writeC
  exact hold_get fun f => safe_set hid (φ := fun f' => { f' with writer := some (f.writer.getD [] ++ b) }) (fun _ => rfl)
    (fun _ h => h) fun g h => h

theorem hold_closed {β : Type} {id : Nat} (hid : id ∈ hs) (a : β) :
    Safe' S D K M t (closedC id a) (Hold S D t hs) (fun _ => Hold S D t hs) :=
  safe_set hid (φ := fun f' => { f' with reader := none }) (fun _ => rfl) (fun _ h => h)
    (safe_set hid (φ := fun f' => { f' with writer := none }) (fun _ => rfl) (fun _ h => h) fun g h => h)

theorem map_ne_none {β γ : Type} {o : Option β} {φ : β → γ} (h : o ≠ none) : o.map φ ≠ none := by
  cases o with
  | none => exact absurd rfl h
  | some x => simp

theorem hold_close {id : Nat} (hid : id ∈ hs) :
    Safe' S D K M t (closeC id) (Hold S D t hs) (fun _ => Hold S D t hs) := by
  unfold closeC
  refine hold_get fun f => ?_
  cases f.writer with
  | none => exact hold_closed hid _
  | some b =>
    refine safe_set hid (φ := fun f' => { f' with data := bufBytes b }) (fun _ => rfl) (fun _ h => h) ?_
    refine hold_get fun f' => ?_
    cases f'.info with
    | none => exact hold_closed hid _
    | some d =>
      refine safe_set hid (φ := fun f' => { f' with info := f'.info.map fun d => { d with size := b.length } }) (fun _ => rfl)
        (fun _ h => map_ne_none h) ?_
      refine hold_now fun now => ?_
      exact safe_set hid (φ := fun f' => { f' with info := f'.info.map fun d => { d with modTime := now } }) (fun _ => rfl)
        (fun _ h => map_ne_none h) (hold_closed hid _)

theorem hold_fileOpen (E : Env) (here : Info) {id : Nat} (hid : id ∈ hs) (name : Str) :
    Safe' S D K M t (fileOpenC E here id name) (Hold S D t hs) (Got S D t hs) := by
  unfold fileOpenC
  refine hold_get fun f => ?_
  cases E.parse f.here name with
  | error e => exact fun g h => h
  | ok pt0 =>
    simp only
    by_cases h1 : pt0 = f.path
    · rw [if_pos h1]
      refine fun g h => h.sub fun a ha => ?_
      rcases List.mem_cons.mp ha with rfl | ha
      · exact hid
      · exact ha
    · rw [if_neg h1]
      by_cases h2 : f.pkging = false
      · rw [if_pos h2]; exact fun g h => h
      · rw [if_neg h2]
        refine (hold_open E here _).bind fun r => ?_
        cases r with
        | err e => exact fun g h => h
        | panic => exact fun g h => h
        | ok di =>
          simp only [Got]
          have drop : ∀ g, Hold S D t (di :: hs) g → Hold S D t hs g := fun g h =>
            h.sub fun a ha => List.mem_cons_of_mem _ ha
          refine (hold_fileStat di).bind fun r => ?_
          cases r with
          | err e => exact fun g h => drop g h
          | panic => exact fun g h => drop g h
          | ok d =>
            simp only
            by_cases h3 : d.isDir = true
            · rw [if_pos h3]
              refine hold_get fun fd => safe_alloc fun d2 g h => h.hold.sub fun a ha => ?_
              rcases List.mem_cons.mp ha with rfl | ha
              · exact List.mem_cons_self ..
              · exact List.mem_cons_of_mem _ (List.mem_cons_of_mem _ ha)
            · rw [if_neg h3]; exact fun g h => h

theorem hold_mkdirAllF (E : Env) (here : Info) : ∀ (fuel : Nat) (s : Str) (perm : Nat), (∀ q, Makes E here s q → K q) →
    (∀ q, S q []) → Safe' S D K M t (mkdirAllFC E here fuel s perm) (Hold S D t hs) (fun _ => Hold S D t hs)
  | 0, s, perm, _, _ => fun g h => h
  | fuel + 1, s, perm, hK, hS => by
    rw [mkdirAllFC]
    cases hp : E.parse here s with
    | error e => exact fun g h => h
    | ok pt =>
      simp only
      have last : Safe' S D K M t (acc .now fun t => acc (.alloc (dirObj here pt perm t)) fun id =>
          acc (.store pt id) fun _ => ret (Res.ok ())) (Hold S D t hs) (fun _ => Hold S D t hs) := by
        refine hold_now fun now => safe_alloc fun id => ?_
        exact safe_store_drop (hK pt (.self hp)) (by simp [dirObj, closeObj]) (by simpa [dirObj, closeObj, FileObj.bytes] using hS pt)
          fun g h => h
      by_cases hd : (GoPath.split pt.name).1 ≠ GoPath.rootS
      · rw [if_pos hd]
        refine (hold_mkdirAllF E here fuel _ perm (fun q hq => hK q (.above hp hd hq)) hS).bind fun r => ?_
        cases r with
        | err e => exact fun g h => h
        | panic => exact fun g h => h
        | ok _ => exact last
      · rw [if_neg hd]; exact last

/-- Creating a file that may have any content. -/
theorem hold_create (E : Env) (here : Info) (name : Str) (hK : ∀ q, (Fine.Call.create name).Stores E here q → K q) (hS : ∀ q, S q [])
    (hne : ∀ q, E.parse here name = .ok q → ∀ s, S q s) :
    Safe' S D K M t (createC E here name) (Hold S D t hs) (Got S D t hs) := by
  unfold createC mkdirAllC
  have rest : Safe' S D K M t (match E.parse here name with
      | .error e => ret (.err e)
      | .ok pt =>
        (infoC pt.pkg).bind fun
          | .err e => ret (.err e)
          | .panic => ret .panic
          | .ok her =>
            (if GoPath.dir pt.name ≠ GoPath.rootS then statC E here (GoPath.dir pt.name)
              else ret (.ok ⟨[], 0, 0, 0, true⟩)).bind fun
              | .err e => ret (.err e)
              | .panic => ret .panic
              | .ok _ =>
                acc .now fun t =>
                  acc (.alloc (createdObj her pt name t)) fun id =>
                    acc (.store pt id) fun _ => ret (.ok id)) (Hold S D t hs) (Got S D t hs) := by
    cases hp : E.parse here name with
    | error e => exact fun g h => h
    | ok pt =>
      simp only [infoC, Code.bind]
      refine hold_info fun r => ?_
      cases r with
      | none => exact fun g h => h
      | some her =>
        simp only [Code.bind]
        have last : Safe' S D K M t (acc .now fun t => acc (.alloc (createdObj her pt name t)) fun id =>
            acc (.store pt id) fun _ => ret (Res.ok id)) (Hold S D t hs) (Got S D t hs) := by
          refine hold_now fun now => safe_alloc fun id => ?_
          exact safe_store_keep (hK pt (Or.inr hp)) (by simp [createdObj]) (hne pt hp) fun g h => h
        by_cases hd : GoPath.dir pt.name ≠ GoPath.rootS
        · rw [if_pos hd]
          refine (hold_stat E here _).bind fun r => ?_
          cases r with
          | err e => exact fun g h => h
          | panic => exact fun g h => h
          | ok _ => exact last
        · rw [if_neg hd]; exact last
  refine (hold_mkdirAllF E here _ _ _ (fun q hq => hK q (Or.inl hq)) hS).bind fun r => ?_
  cases r with
  | panic => exact fun g h => h
  | err e => exact rest
  | ok _ => exact rest

theorem hold_remove (E : Env) (here : Info) (name : Str)
    (hK : ∀ q, (Fine.Call.remove name).Deletes E here q → K q ∧ ¬ D q) :
    Safe' S D K M t (removeC E here name) (Hold S D t hs) (fun _ => Hold S D t hs) := by
  unfold removeC
  cases hp : E.parse here name with
  | error e => exact fun g h => h
  | ok pt =>
    refine hold_load fun r => ?_
    cases r with
    | none => exact fun g h => h
    | some i => exact safe_delete (hK pt hp).1 (hK pt hp).2 fun g h => h

theorem hold_removeAll (E : Env) (here : Info) (name : Str)
    (hK : ∀ q, (Fine.Call.removeAll name).Deletes E here q → K q ∧ ¬ D q) :
    Safe' S D K M t (removeAllC E here name) (Hold S D t hs) (fun _ => Hold S D t hs) := by
  unfold removeAllC
  cases hp : E.parse here name with
  | error e => exact fun g h => h
  | ok pt =>
    refine hold_range (fun q => ?_) fun l g h => h
    by_cases hq : Str.hasPrefix q.name pt.name = true
    · rw [if_pos hq]
      exact safe_delete (hK q ⟨pt, hp, hq⟩).1 (hK q ⟨pt, hp, hq⟩).2 fun g h => h
    · rw [if_neg hq]; exact fun g h => h

/-! ### Calls and programs -/

/-- The call changes the entries `K` at most, keeps the entries `D`, and creates only files that may have any content. -/
def Mild (E : Env) (here : Info) (S : Path → Str → Prop) (D K : Path → Prop) (c : Call) : Prop :=
  (∀ q, c.Stores E here q → K q) ∧ (∀ q, c.Deletes E here q → K q ∧ ¬ D q) ∧ ∀ q, c.Creates E here q → ∀ s, S q s

theorem hold_obtained {c : Code (Res Nat)} (h : Safe' S D K M t c (Hold S D t hs) (Got S D t hs)) :
    Safe' S D K M t (obtainedC hs c) (Hold S D t hs) (fun r => Hold S D t r.1) := by
  refine h.bind fun r => ?_
  cases r with
  | ok id =>
    refine fun g h => h.sub fun a ha => ?_
    rcases List.mem_append.mp ha with ha | ha
    · exact List.mem_cons_of_mem _ ha
    · simp at ha; subst ha; exact List.mem_cons_self ..
  | err e => exact fun g h => h
  | panic => exact fun g h => h

theorem hold_reads (E : Env) (here : Info) (c : Client.Call) :
    Safe' S D K M t (readsC E here hs c) (Hold S D t hs) (fun r => Hold S D t r.1) := by
  have handle : ∀ (k : Nat) (f : Nat → Code (List Nat × Client.Ans)),
      (∀ id ∈ hs, Safe' S D K M t (f id) (Hold S D t hs) (fun r => Hold S D t r.1)) →
      Safe' S D K M t (withHandleC hs k f) (Hold S D t hs) (fun r => Hold S D t r.1) := by
    intro k f h
    unfold withHandleC
    cases hk : hs[k]? with
    | none => exact fun g h => h
    | some id => exact h id (List.mem_of_getElem? hk)
  cases c with
  | openFile name => exact hold_obtained (hold_open E here name)
  | openIn k name => exact handle k _ fun id hid => hold_obtained (hold_fileOpen E here hid name)
  | stat name => exact (hold_stat E here name).bind fun r g h => h
  | fileStat k => exact handle k _ fun id hid => (hold_fileStat id).bind fun r g h => h
  | readdir k count => exact handle k _ fun id hid => (hold_readdir E here id count).bind fun r g h => h
  | read k n => exact handle k _ fun id hid => (hold_read hid n).bind fun r g h => h
  | seek k off whence => exact handle k _ fun id hid => (hold_seek hid off whence).bind fun r g h => h
  | close k => exact handle k _ fun id hid => (hold_close hid).bind fun r g h => h
  | walk s => exact (hold_walk E here _ _ s).bind fun r g h => h
  | fileName k => exact handle k _ fun id hid => (hold_fileName id).bind fun r g h => h

theorem hold_call (E : Env) (here : Info) (hS : ∀ q, S q []) {c : Call} (hc : Mild E here S D K c) :
    Safe' S D K M t (callC E here hs c) (Hold S D t hs) (fun r => Hold S D t r.1) := by
  obtain ⟨h1, h2, h3⟩ := hc
  cases c with
  | reads c => exact (hold_reads E here c).bind fun r g h => h
  | create name => exact (hold_obtained (hold_create E here name h1 hS h3)).bind fun r g h => h
  | write k b =>
    simp only [callC]
    cases hk : hs[k]? with
    | none => exact fun g h => h
    | some id => exact (hold_write (List.mem_of_getElem? hk) b).bind fun r g h => h
  | mkdirAll s perm => exact (hold_mkdirAllF E here _ s perm h1 hS).bind fun r g h => h
  | remove name => exact (hold_remove E here name h2).bind fun r g h => h
  | removeAll name => exact (hold_removeAll E here name h2).bind fun r g h => h

/-- A program that creates files that may have any content. -/
theorem hold_prog (E : Env) (here : Info) (hS : ∀ q, S q []) {α : Type} : ∀ (c : Prog α) (hs : List Nat), c.All (Mild E here S D K) →
    Safe' S D K M t (c.code E here hs) (Hold S D t hs) (fun _ _ => True)
  | .ret a, hs, _ => fun g h => trivial
  | .step c k, hs, h => (hold_call E here hS h.1).bind fun r => hold_prog E here hS (k r.2) r.1 (h.2 r.2)

/-! ### Writing `p` -/

/-- Goroutine `t` has made the object `id`, which looks like `f`; if nobody else touches the entry `p`, it is there. -/
structure Mine (S : Path → Str → Prop) (D M : Path → Prop) (t : Nat) (p : Path) (id : Nat) (f : FileObj) (g : Glob) : Prop where
  inv : Inv S D g
  lt : id < g.w.next
  own : g.owner id = some t
  only : ∀ q, (q, id) ∈ g.came → q = p
  obj : g.w.heap id = f
  there : M p → AMap.get g.w.files p = some id

theorem Mine.stable (id : Nat) (f : FileObj) : Stable (Rely S D M t) (Mine S D M t p id f) := by
  intro g g' h hr
  exact ⟨hr.inv h.inv, Nat.lt_of_lt_of_le h.lt hr.next, (hr.owner id h.lt).trans h.own, fun q hq => (hr.stored _ hq).elim (h.only q) fun h' =>
      absurd ((hr.owner id h.lt).trans h.own) h', (hr.heap id h.lt h.own).trans h.obj, fun hM => (hr.keys p hM).trans (h.there hM)⟩

theorem mine_get {id : Nat} {f : FileObj} {k : FileObj → Code α}
    (h : Safe' S D K M t (k f) (Mine S D M t p id f) Q) : Safe' S D K M t (.acc (.get id) k) (Mine S D M t p id f) Q :=
  Safe.det f _ (Mine.stable id f) (fun g hg => ⟨Guar.refl g, hg.obj, hg⟩) h

theorem mine_set {id : Nat} {f : FileObj} {a : Acc Unit} {φ : FileObj → FileObj}
    (ha : ∀ g : Glob, (a.run t g).1 = { g with w := setObj g.w id (φ (g.w.heap id)) })
    (hφ : f.info ≠ none → (φ f).info ≠ none) (hS : S p (φ f).bytes) {k : Unit → Code α}
    (h : Safe' S D K M t (k ()) (Mine S D M t p id (φ f)) Q) :
    Safe' S D K M t (.acc a k) (Mine S D M t p id f) Q := by
  refine Safe.det () _ (Mine.stable id (φ f)) ?_ h
  intro g hg
  rw [ha]
  have hG : Guar S D K t g { g with w := setObj g.w id (φ (g.w.heap id)) } :=
    guar_set hg.own (fun q hq => by rw [hg.obj, hg.only q hq]; exact hS) (by rw [hg.obj]; exact hφ)
  refine ⟨hG, rfl, ⟨hG.inv hg.inv, hg.lt, hg.own, hg.only, ?_, hg.there⟩⟩
  simp only [setObj_heap, hg.obj]

/-- The packages are `I0`, and there have been entries at the paths `N`. -/
structure Known (I0 : AMap Str Info) (N : Path → Prop) (g : Glob) : Prop where
  infos : g.w.infos = I0
  came : ∀ q, N q → ∃ id, (q, id) ∈ g.came

theorem Known.stable {I0 : AMap Str Info} {N : Path → Prop} : Stable (Rely S D M t) (Known I0 N) := fun g g' h hr =>
  ⟨hr.infos.trans h.infos, fun q hq => (h.came q hq).imp fun _ h => hr.came _ h⟩

/-- What is needed for `Create` to succeed whatever the others do. -/
structure Sure (E : Env) (here : Info) (I0 : AMap Str Info) (N D : Path → Prop) (p : Path) : Prop where
  root : ∀ pt, E.parse here GoPath.rootS = .ok pt → (GoPath.split pt.name).1 = GoPath.rootS
  pkg : ∃ i, AMap.get I0 p.pkg = some i
  dir : GoPath.dir p.name = GoPath.rootS ∨ ∃ q, E.parse here (GoPath.dir p.name) = .ok q ∧ N q ∧ D q

/-- `Stat` of a path that stays. -/
theorem sure_stat (E : Env) (here : Info) {name : Str} {q : Path} (hp : E.parse here name = .ok q) (hD : D q)
    {P : Glob → Prop} (hP : Stable (Rely S D M t) P) (hI : ∀ g, P g → Inv S D g ∧ ∃ id, (q, id) ∈ g.came) :
    Safe' S D K M t (statC E here name) P (fun r g => (∃ d, r = .ok d) ∧ P g) := by
  unfold statC
  rw [hp]
  simp only
  refine ⟨fun r g => (∃ id, r = some id ∧ (q, id) ∈ g.came) ∧ P g, ?_, ?_, ?_⟩
  · rintro r g g' ⟨⟨id, h1, h2⟩, h3⟩ hr
    exact ⟨⟨id, h1, hr.came _ h2⟩, hP g g' h3 hr⟩
  · intro g hg
    obtain ⟨id0, h0⟩ := (hI g hg).2
    obtain ⟨id, hid⟩ := (hI g hg).1.stays _ h0 hD
    exact ⟨Guar.refl g, ⟨id, hid, (hI g hg).1.was q id hid⟩, hg⟩
  · intro r
    cases r with
    | none =>
      refine (Safe.never _ _).mono (P1 := fun g => (∃ id, none = some id ∧ (q, id) ∈ g.came) ∧ P g) ?_ (fun _ _ h => h)
      rintro g ⟨⟨id, h1, _⟩, _⟩
      cases h1
    | some id =>
      have hst : Stable (Rely S D M t) (fun g => (q, id) ∈ g.came ∧ P g) := fun g g' h hr =>
        ⟨hr.came _ h.1, hP g g' h.2 hr⟩
      have look : ∀ {β : Type} {k : FileObj → Code β} {Q : β → Glob → Prop},
          (∀ f : FileObj, f.info ≠ none → Safe' S D K M t (k f) (fun g => (q, id) ∈ g.came ∧ P g) Q) →
          Safe' S D K M t (.acc (.get id) k) (fun g => (q, id) ∈ g.came ∧ P g) Q := by
        intro β k Q h
        refine ⟨fun f g => f.info ≠ none ∧ (q, id) ∈ g.came ∧ P g, fun f g g' h1 hr => ⟨h1.1, hst g g' h1.2 hr⟩, ?_,
          fun f => Safe.of_fact fun hf => h f hf⟩
        intro g hg
        exact ⟨Guar.refl g, (hI g hg.2).1.info _ hg.1, hg⟩
      refine Safe.mono (P := fun g => (q, id) ∈ g.came ∧ P g) (Q := fun r g => (∃ d, r = .ok d) ∧ P g) ?_ ?_ (fun _ _ h => h)
      · unfold fileStatC
        refine look fun f hf => ?_
        cases hfi : f.info with
        | none => exact absurd hfi hf
        | some d =>
          refine look fun f' hf' => ?_
          cases hfi' : f'.info with
          | none => exact absurd hfi' hf'
          | some d' => exact fun g h => ⟨⟨d', rfl⟩, h.2⟩
      · rintro g ⟨⟨id', h1, h2⟩, h3⟩
        injection h1 with h1
        subst h1
        exact ⟨h2, h3⟩

theorem root_noPanic (E : Env) (here : Info) {fuel perm : Nat}
    (h : ∀ pt, E.parse here GoPath.rootS = .ok pt → (GoPath.split pt.name).1 = GoPath.rootS) :
    (mkdirAllFC E here (fuel + 1) GoPath.rootS perm).Ends (fun r => r ≠ .panic) := by
  rw [mkdirAllFC]
  cases hp : E.parse here GoPath.rootS with
  | error e => simp [Code.Ends]
  | ok pt =>
    simp only
    rw [if_neg (fun e => e (h pt hp))]
    simp only [Code.bind, Code.Ends]
    intro _ _ _
    simp

/-- Creating `p`. -/
theorem write_create (E : Env) (here : Info) {name : Str} (hp : E.parse here name = .ok p)
    (hK : ∀ q, (Fine.Call.create name).Stores E here q → K q) (hS : ∀ q, S q []) (I0 : AMap Str Info) (N : Path → Prop) :
    Safe' S D K M t (createC E here name) (fun g => Hold S D t [] g ∧ Known I0 N g) fun r g =>
      (∃ x : Nat × Info × Int, r = .ok x.1 ∧ Mine S D M t p x.1 (createdObj x.2.1 p name x.2.2) g) ∨
        ((∀ id, r ≠ .ok id) ∧ ¬ Sure E here I0 N D p) := by
  have hst : Stable (Rely S D M t) (fun g => Hold S D t [] g ∧ Known I0 N g) := fun g g' h hr =>
    ⟨Hold.stable [] g g' h.1 hr, Known.stable g g' h.2 hr⟩
  have hkeep : ∀ {β : Type} (c : Code β), Safe t (Rely S D M t) (Any fun _ _ => True) c (Known I0 N)
      (fun _ => Known I0 N) := by
    intro β c
    refine Safe.keep c Known.stable ?_
    intro γ a g h
    cases a with
    | store k id => exact ⟨h.infos, fun q hq => (h.came q hq).imp fun _ h => List.mem_append_left _ h⟩
    | _ => exact ⟨h.infos, h.came⟩
  have fail : ∀ {r : Res Nat}, (∀ id, r ≠ .ok id) → ¬ Sure E here I0 N D p → ∀ {P : Glob → Prop}, ∀ g : Glob, P g →
      (∃ x : Nat × Info × Int, r = .ok x.1 ∧ Mine S D M t p x.1 (createdObj x.2.1 p name x.2.2) g) ∨
        ((∀ id, r ≠ .ok id) ∧ ¬ Sure E here I0 N D p) := fun h1 h2 _ _ _ => Or.inr ⟨h1, h2⟩
  unfold createC mkdirAllC
  have m : Safe' S D K M t (mkdirAllFC E here (GoPath.rootS.length + 2) GoPath.rootS 0o755)
      (fun g => Hold S D t [] g ∧ Known I0 N g)
      (fun r g => (Sure E here I0 N D p → r ≠ .panic) ∧ Hold S D t [] g ∧ Known I0 N g) := by
    have h1 := (hold_mkdirAllF (S := S) (D := D) (M := M) (t := t) (hs := []) E here (GoPath.rootS.length + 2)
      GoPath.rootS 0o755 (fun q hq => hK q (Or.inl hq)) hS).and (hkeep _)
    by_cases hsure : Sure E here I0 N D p
    · have h2 := h1.and (Safe.ends (t := t) (R := Rely S D M t) (root_noPanic (fuel := 2) (perm := 0o755) E here hsure.root))
      exact h2.mono (fun g h => ⟨h, trivial⟩) fun r g h => ⟨fun _ => h.2, h.1⟩
    · exact h1.mono (fun g h => h) fun r g h => ⟨fun hs => absurd hs hsure, h⟩
  refine m.bind fun r => Safe.of_fact fun hr => ?_
  have rest : Safe' S D K M t (match E.parse here name with
      | .error e => ret (Res.err e)
      | .ok pt =>
        (infoC pt.pkg).bind fun
          | .err e => ret (Res.err e)
          | .panic => ret Res.panic
          | .ok her =>
            (if GoPath.dir pt.name ≠ GoPath.rootS then statC E here (GoPath.dir pt.name)
              else ret (Res.ok ⟨[], 0, 0, 0, true⟩)).bind fun
              | .err e => ret (Res.err e)
              | .panic => ret Res.panic
              | .ok _ =>
                acc .now fun t =>
                  acc (.alloc (createdObj her pt name t)) fun id =>
                    acc (.store pt id) fun _ => ret (Res.ok id)) (fun g => Hold S D t [] g ∧ Known I0 N g) fun r g =>
      (∃ x : Nat × Info × Int, r = .ok x.1 ∧ Mine S D M t p x.1 (createdObj x.2.1 p name x.2.2) g) ∨
        ((∀ id, r ≠ .ok id) ∧ ¬ Sure E here I0 N D p) := by
    rw [hp]
    simp only [infoC, Code.bind]
    refine ⟨fun r g => r = AMap.get I0 p.pkg ∧ Hold S D t [] g ∧ Known I0 N g, fun r g g' h hr => ⟨h.1, hst g g' h.2 hr⟩,
      fun g hg => ⟨Guar.refl g, by simp only [Acc.run, hg.2.infos], hg⟩, fun r => Safe.of_fact fun hri => ?_⟩
    cases r with
    | none =>
      refine fail (fun _ e => (by cases e)) fun hs => ?_
      obtain ⟨i, hi⟩ := hs.pkg
      rw [hi] at hri
      cases hri
    | some her =>
      simp only [Code.bind]
      have last : Safe' S D K M t (acc .now fun t => acc (.alloc (createdObj her p name t)) fun id =>
          acc (.store p id) fun _ => ret (Res.ok id)) (Hold S D t []) fun r g =>
            (∃ x : Nat × Info × Int, r = .ok x.1 ∧ Mine S D M t p x.1 (createdObj x.2.1 p name x.2.2) g) ∨
              ((∀ id, r ≠ .ok id) ∧ ¬ Sure E here I0 N D p) := by
        refine hold_now fun now => safe_alloc fun id => ?_
        refine Safe.det () (Mine S D M t p id (createdObj her p name now)) (Mine.stable _ _) ?_
          fun g hg => Or.inl ⟨(id, her, now), rfl, hg⟩
        intro g hg
        obtain ⟨h1, h2⟩ := hg.hold.own id (List.mem_cons_self ..)
        have hG : Guar S D K t g _ := guar_store h1 h2 (hK p (Or.inr hp)) (by rw [hg.obj]; simp [createdObj])
          (by rw [hg.obj]; simpa [createdObj, FileObj.bytes] using hS p)
        refine ⟨hG, rfl, hG.inv hg.hold.inv, h1, h2, fun q hq => ?_, hg.obj, fun _ => AMap.get_set_self ..⟩
        rcases List.mem_append.mp hq with hq | hq
        · exact absurd hq (hg.fresh q)
        · simp at hq; exact hq
      by_cases hd : GoPath.dir p.name ≠ GoPath.rootS
      · rw [if_pos hd]
        have hstat : Safe' S D K M t (statC E here (GoPath.dir p.name)) (fun g => Hold S D t [] g ∧ Known I0 N g)
            (fun r g => (Sure E here I0 N D p → ∃ d, r = .ok d) ∧ Hold S D t [] g) := by
          by_cases hsure : Sure E here I0 N D p
          · rcases hsure.dir with h | ⟨q, h1, h2, h3⟩
            · exact absurd h hd
            · exact (sure_stat E here h1 h3 hst fun g h => ⟨h.1.inv, h.2.came q h2⟩).mono (fun _ h => h)
                fun r g h => ⟨fun _ => h.1, h.2.1⟩
          · exact (hold_stat E here _).mono (fun _ h => h.1) fun r g h => ⟨fun hs => absurd hs hsure, h⟩
        refine (hstat.bind fun r => Safe.of_fact fun hrs => ?_).mono (fun g h => h) (fun _ _ h => h)
        cases r with
        | err e => exact fail (fun _ e => (by cases e)) fun hs => (by obtain ⟨d, hd⟩ := hrs hs; cases hd)
        | panic => exact fail (fun _ e => (by cases e)) fun hs => (by obtain ⟨d, hd⟩ := hrs hs; cases hd)
        | ok d => exact last
      · rw [if_neg hd]
        exact last.mono (fun g h => h.1) (fun _ _ h => h)
  cases r with
  | panic => exact fail (fun _ e => (by cases e)) fun hs => hr hs rfl
  | err e => exact rest
  | ok _ => exact rest

/-- The file being written. -/
def writing (her : Info) (p : Path) (name : Str) (now : Int) (b : Option Str) : FileObj :=
  { createdObj her p name now with writer := b }

theorem write_write {id : Nat} {her : Info} {name : Str} {now : Int} {b : Option Str} (x : Str) (hS : ∀ q, S q []) :
    Safe' S D K M t (writeC id x) (Mine S D M t p id (writing her p name now b))
      (fun _ => Mine S D M t p id (writing her p name now (some (b.getD [] ++ x)))) := by
  unfold writeC
  refine mine_get ?_
  refine mine_set (φ := fun f => { f with writer := some ((writing her p name now b).writer.getD [] ++ x) }) (fun g => rfl)
    (fun h => h) (by simpa [writing, createdObj, FileObj.bytes] using hS p) ?_
  exact fun g h => h

theorem write_closed {id : Nat} {f : FileObj} {β : Type} (a : β) (hS : S p f.bytes) :
    Safe' S D K M t (closedC id a) (Mine S D M t p id f)
      (fun _ => Mine S D M t p id { f with reader := none, writer := none }) := by
  unfold closedC
  refine mine_set (φ := fun f => { f with reader := none }) (fun g => rfl) (fun h => h) hS ?_
  have h : Safe' S D K M t (ret a) (Mine S D M t p id { f with reader := none, writer := none })
      (fun _ => Mine S D M t p id { f with reader := none, writer := none }) := fun g h => h
  exact mine_set (f := { f with reader := none }) (a := .setWriter id none) (φ := fun f => { f with writer := none }) (fun g => rfl) (fun h => h) hS h

theorem write_close {id : Nat} {her : Info} {name : Str} {now : Int} {b : Option Str} (hS : ∀ q, S q []) (hb : S p (b.getD [])) :
    Safe' S D K M t (closeC id) (Mine S D M t p id (writing her p name now b))
      (fun _ g => ∃ f, Written p name (b.getD []) f ∧ Mine S D M t p id f g) := by
  unfold closeC
  refine mine_get ?_
  cases b with
  | none =>
    simp only [writing]
    refine (write_closed _ (by simpa [createdObj, FileObj.bytes] using hS p)).mono (fun g h => h) fun r g h => ⟨_, ?_, h⟩
    exact ⟨rfl, rfl, rfl, ⟨rfl, rfl⟩, _, rfl, rfl, rfl, rfl, rfl⟩
  | some b =>
    simp only [writing]
    have hb : S p ((bufBytes b).getD []) := by rw [bufBytes_getD]; exact hb
    refine mine_set (φ := fun f => { f with data := bufBytes b }) (fun g => rfl) (fun h => h) hb ?_
    refine mine_get ?_
    simp only [createdObj]
    refine mine_set (φ := fun f => { f with info := f.info.map fun d => { d with size := b.length } }) (fun g => rfl)
      (fun _ => by simp) hb ?_
    refine safe_look (fun g => rfl) (Mine.stable _ _) fun now' => ?_
    refine mine_set (φ := fun f => { f with info := f.info.map fun d => { d with modTime := now' } }) (fun g => rfl)
      (fun _ => by simp) hb ?_
    refine (write_closed _ hb).mono (fun g h => h) fun r g h => ⟨_, ?_, h⟩
    exact ⟨bufBytes_getD b, rfl, rfl, ⟨rfl, rfl⟩, _, rfl, rfl, rfl, rfl, rfl⟩

theorem write_writes (E : Env) (here : Info) {id : Nat} {her : Info} {name : Str} {now : Int} (hS : ∀ q, S q []) {γ : Type} (yes : γ) :
    ∀ (bs : List Str) (b : Option Str), S p (b.getD [] ++ bs.flatten) →
    Safe' S D K M t ((writes 0 bs (.step (.reads (.close 0)) fun _ => .ret yes)).code E here [id])
      (Mine S D M t p id (writing her p name now b))
      (fun r g => r = yes ∧ ∃ f, Written p name (b.getD [] ++ bs.flatten) f ∧ Mine S D M t p id f g) := by
  intro bs
  induction bs with
  | nil =>
    intro b hb
    simp only [List.flatten_nil, List.append_nil] at hb ⊢
    simp only [writes, Prog.code, callC, readsC, withHandleC, List.getElem?_cons_zero]
    refine Safe.bind (Q1 := fun _ g => ∃ f, Written p name (b.getD []) f ∧ Mine S D M t p id f g)
      (Safe.bind (Q1 := fun _ g => ∃ f, Written p name (b.getD []) f ∧ Mine S D M t p id f g)
      (Safe.bind (write_close hS hb) fun r => ?_) fun r => ?_) fun r => ?_
    · exact fun g h => h
    · exact fun g h => h
    · exact fun g h => ⟨rfl, h⟩
  | cons x bs ih =>
    intro b hb
    simp only [writes, Prog.code, callC, List.getElem?_cons_zero]
    refine Safe.bind (Q1 := fun r g => r.1 = [id] ∧ Mine S D M t p id (writing her p name now (some (b.getD [] ++ x))) g)
      (Safe.bind (write_write x hS) fun r => ?_) fun r => Safe.of_fact fun hr => ?_
    · exact fun g h => ⟨rfl, h⟩
    · rw [hr]
      have := ih (some (b.getD [] ++ x)) (by simpa using hb)
      simpa using this

/-- Creating, writing and closing `p`. -/
theorem write_all (E : Env) (here : Info) {name : Str} (hp : E.parse here name = .ok p)
    (hK : ∀ q, (Fine.Call.create name).Stores E here q → K q) (hS : ∀ q, S q []) (I0 : AMap Str Info) (N : Path → Prop) {γ : Type} (yes no : γ)
    {bs : List Str} (hb : S p bs.flatten) :
    Safe' S D K M t ((writeAll name bs yes no).code E here []) (fun g => Hold S D t [] g ∧ Known I0 N g)
      (fun r g => (r = yes ∧ ∃ id f, Written p name bs.flatten f ∧ Mine S D M t p id f g) ∨ (r = no ∧ ¬ Sure E here I0 N D p)) := by
  unfold writeAll
  simp only [Prog.code, callC, obtainedC]
  refine Safe.bind (Q1 := fun r g => (∃ x : Nat × Info × Int, r = ([x.1], .reads (.opened (.ok 0))) ∧
      Mine S D M t p x.1 (createdObj x.2.1 p name x.2.2) g) ∨ ((∀ k, r.2 ≠ .reads (.opened (.ok k))) ∧ ¬ Sure E here I0 N D p))
    (Safe.bind (Q1 := fun r g => (∃ x : Nat × Info × Int, r = ([x.1], .opened (.ok 0)) ∧
      Mine S D M t p x.1 (createdObj x.2.1 p name x.2.2) g) ∨ ((∀ k, r.2 ≠ .opened (.ok k)) ∧ ¬ Sure E here I0 N D p))
      (Safe.bind (write_create E here hp hK hS I0 N) fun r => ?_) fun r => ?_) fun r => ?_
  · cases r with
    | ok id =>
      intro g h
      rcases h with ⟨x, h1, h2⟩ | ⟨h1, _⟩
      · injection h1 with h1
        subst h1
        exact Or.inl ⟨x, rfl, h2⟩
      · exact absurd rfl (h1 id)
    | err e =>
      rintro g (⟨x, h1, _⟩ | ⟨_, h2⟩)
      · cases h1
      · exact Or.inr ⟨fun _ => by simp, h2⟩
    | panic =>
      rintro g (⟨x, h1, _⟩ | ⟨_, h2⟩)
      · cases h1
      · exact Or.inr ⟨fun _ => by simp, h2⟩
  · rintro g (⟨x, h1, h2⟩ | ⟨h1, h2⟩)
    · subst h1; exact Or.inl ⟨x, rfl, h2⟩
    · exact Or.inr ⟨fun k e => h1 k (by injection e), h2⟩
  · by_cases hr : ∃ id, r = ([id], .reads (.opened (.ok 0)))
    · obtain ⟨id, rfl⟩ := hr
      refine Safe.mono (P := fun g => ∃ x : Info × Int, Mine S D M t p id (writing x.1 p name x.2 none) g) ?_ ?_ (fun _ _ h => h)
      · refine Safe.ex fun x => ?_
        refine (write_writes E here hS yes bs none (by simpa using hb)).mono (fun g h => h) ?_
        rintro r g ⟨h1, f, h2, h3⟩
        exact Or.inl ⟨h1, id, f, by simpa using h2, h3⟩
      · rintro g (⟨x, h1, h2⟩ | ⟨h1, _⟩)
        · injection h1 with h1 _
          injection h1 with h1
          subst h1
          exact ⟨x.2, h2⟩
        · exact absurd rfl (h1 0)
    · obtain ⟨hs', a⟩ := r
      refine Safe.mono (P := fun _ => (∀ k, a ≠ .reads (.opened (.ok k))) ∧ ¬ Sure E here I0 N D p)
        (Q := fun r _ => r = no ∧ ¬ Sure E here I0 N D p) ?_ ?_ (fun _ _ h => Or.inr h)
      · refine Safe.mono (P := fun g => ((∀ k, a ≠ .reads (.opened (.ok k))) ∧ ¬ Sure E here I0 N D p) ∧ True)
          (Safe.of_fact ?_) (fun g h => ⟨h, trivial⟩) (fun _ _ h => h)
        rintro ⟨h1, h2⟩
        cases a with
        | wrote n => exact fun g _ => ⟨rfl, h2⟩
        | did r => exact fun g _ => ⟨rfl, h2⟩
        | reads a =>
          cases a with
          | opened r =>
            cases r with
            | ok k => exact absurd rfl (h1 k)
            | err e => exact fun g _ => ⟨rfl, h2⟩
            | panic => exact fun g _ => ⟨rfl, h2⟩
          | _ => exact fun g _ => ⟨rfl, h2⟩
      · rintro g (⟨x, h1, _⟩ | h)
        · exact absurd ⟨x.1, h1⟩ hr
        · exact h

/-! ### Reading `p` -/

/-- Opening `p`: the handle has a content that `p` may have. -/
theorem read_open (E : Env) (here : Info) {name : Str} (hp : E.parse here name = .ok p) (hM : ∀ q, ¬ M q) :
    Safe' S D K M t (openC E here name) (Hold S D t []) fun r g =>
      (∃ x : Nat × FileObj, r = .ok x.1 ∧ S p x.2.bytes ∧ x.2.reader = none ∧ Mine S D M t p x.1 x.2 g) ∨
        r = .err .notExist := by
  unfold openC
  rw [hp]
  simp only
  refine ⟨fun r g => (∀ i, r = some i → (p, i) ∈ g.came) ∧ Hold S D t [] g, ?_, ?_, ?_⟩
  · rintro r g g' ⟨h1, h2⟩ hr
    exact ⟨fun i hi => hr.came _ (h1 i hi), Hold.stable [] g g' h2 hr⟩
  · intro g hg
    exact ⟨Guar.refl g, fun i hi => hg.inv.was p i hi, hg⟩
  · intro r
    cases r with
    | none => exact fun g _ => Or.inr rfl
    | some i =>
      have hst : Stable (Rely S D M t) (fun g => (p, i) ∈ g.came ∧ Hold S D t [] g) := fun g g' h hr =>
        ⟨hr.came _ h.1, Hold.stable [] g g' h.2 hr⟩
      have look : ∀ {β : Type} {k : FileObj → Code β} {Q : β → Glob → Prop},
          (∀ f : FileObj, f.info ≠ none ∧ S p f.bytes → Safe' S D K M t (k f) (fun g => (p, i) ∈ g.came ∧ Hold S D t [] g) Q) →
          Safe' S D K M t (.acc (.get i) k) (fun g => (p, i) ∈ g.came ∧ Hold S D t [] g) Q := by
        intro β k Q h
        refine ⟨fun f g => (f.info ≠ none ∧ S p f.bytes) ∧ (p, i) ∈ g.came ∧ Hold S D t [] g,
          fun f g g' h1 hr => ⟨h1.1, hst g g' h1.2 hr⟩, ?_, fun f => Safe.of_fact fun hf => h f hf⟩
        intro g hg
        exact ⟨Guar.refl g, ⟨hg.2.inv.info _ hg.1, hg.2.inv.content _ hg.1⟩, hg⟩
      refine Safe.mono (P := fun g => (p, i) ∈ g.came ∧ Hold S D t [] g) ?_ (fun g h => ⟨h.1 i rfl, h.2⟩) (fun _ _ h => h)
      refine look fun f hf => ?_
      cases hfi : f.info with
      | none => exact absurd hfi hf.1
      | some d =>
        simp only
        refine look fun f' hf' => ?_
        refine Safe.mono (P := Hold S D t []) ?_ (fun g h => h.2) (fun _ _ h => h)
        refine safe_alloc fun id g h => Or.inl ⟨(id, openedObj f' d), rfl, hf'.2, rfl, ?_⟩
        obtain ⟨h1, h2⟩ := h.hold.own id (List.mem_cons_self ..)
        exact ⟨h.hold.inv, h1, h2, fun q hq => absurd hq (h.fresh q), h.obj, fun hm => absurd hm (hM p)⟩

/-- Reading from a handle just opened. -/
theorem read_read {id : Nat} {f : FileObj} (hS : S p f.bytes) (hr : f.reader = none) (n : Nat) :
    Safe' S D K M t (readC id n) (Mine S D M t p id f) fun r _ =>
      r = (f.bytes.take n, if f.bytes = [] then some .unableToRead else none) := by
  unfold readC ensureReaderC
  refine mine_get ?_
  by_cases hb : f.bytes = []
  · rw [if_neg (by simp [hb])]
    refine mine_get ?_
    rw [hr]
    exact fun g _ => by simp [hb]
  · have hpos : f.bytes.length > 0 := by
      cases h : f.bytes with
      | nil => exact absurd h hb
      | cons a l => simp
    rw [if_pos ⟨hr, hpos⟩]
    refine mine_set (φ := fun f' => { f' with reader := some (f.bytes, 0) }) (fun g => rfl) (fun h => h) hS ?_
    refine mine_get ?_
    simp only
    refine mine_set (f := { f with reader := some (f.bytes, 0) }) (a := .setReader id (some (f.bytes, (readerRead f.bytes 0 n).1)))
      (φ := fun f' => { f' with reader := some (f.bytes, (readerRead f.bytes 0 n).1) }) (fun g => rfl) (fun h => h) hS ?_
    intro g _
    have : (readerRead f.bytes 0 n).2 = (f.bytes.take n, none) := by
      unfold readerRead
      rw [if_neg (by omega)]
      simp
    rw [this, if_neg hb]

/-- Opening `p` and reading. -/
theorem read_once (E : Env) (here : Info) {name : Str} (hp : E.parse here name = .ok p) (hM : ∀ q, ¬ M q) {γ : Type}
    (n : Nat) (fin : Ans → γ) :
    Safe' S D K M t ((readOnce name n fin).code E here []) (Hold S D t []) fun r _ =>
      r = fin (.reads (.opened (.err .notExist))) ∨
        ∃ s, S p s ∧ r = fin (.reads (.bytes (s.take n) (if s = [] then some .unableToRead else none))) := by
  unfold readOnce
  simp only [Prog.code, callC, readsC, obtainedC]
  refine Safe.bind (Q1 := fun r g => (∃ x : Nat × FileObj, r = ([x.1], .reads (.opened (.ok 0))) ∧ S p x.2.bytes ∧
      x.2.reader = none ∧ Mine S D M t p x.1 x.2 g) ∨ r.2 = .reads (.opened (.err .notExist)))
    (Safe.bind (Q1 := fun r g => (∃ x : Nat × FileObj, r = ([x.1], .opened (.ok 0)) ∧ S p x.2.bytes ∧
      x.2.reader = none ∧ Mine S D M t p x.1 x.2 g) ∨ r.2 = .opened (.err .notExist))
      (Safe.bind (read_open E here hp hM) fun r => ?_) fun r => ?_) fun r => ?_
  · cases r with
    | ok id =>
      rintro g (⟨x, h1, h2⟩ | h1)
      · injection h1 with h1
        subst h1
        exact Or.inl ⟨x, rfl, h2⟩
      · cases h1
    | err e =>
      rintro g (⟨x, h1, _⟩ | h1)
      · cases h1
      · injection h1 with h1
        subst h1
        exact Or.inr rfl
    | panic =>
      rintro g (⟨x, h1, _⟩ | h1)
      · cases h1
      · cases h1
  · rintro g (⟨x, h1, h2⟩ | h1)
    · subst h1; exact Or.inl ⟨x, rfl, h2⟩
    · refine Or.inr ?_
      simp only [h1]
  · obtain ⟨hs', a⟩ := r
    by_cases ha : a = .reads (.opened (.err .notExist))
    · subst ha
      exact fun g _ => Or.inl rfl
    · by_cases hr : ∃ id, (hs', a) = ([id], .reads (.opened (.ok 0)))
      · obtain ⟨id, hr⟩ := hr
        injection hr with h1 h2
        subst h1; subst h2
        refine Safe.mono (P := fun g => ∃ f : FileObj, (S p f.bytes ∧ f.reader = none) ∧ Mine S D M t p id f g) ?_ ?_
          (fun _ _ h => h)
        · refine Safe.ex fun f => Safe.of_fact fun hf => ?_
          simp only [Prog.code, callC, readsC, withHandleC, List.getElem?_cons_zero]
          refine Safe.bind (Q1 := fun r _ => r.2 = .reads (.bytes (f.bytes.take n) (if f.bytes = [] then some .unableToRead else none)))
            (Safe.bind (Q1 := fun r _ => r.2 = .bytes (f.bytes.take n) (if f.bytes = [] then some .unableToRead else none))
            (Safe.bind (read_read hf.1 hf.2 n) fun r => ?_) fun r => ?_) fun r => ?_
          · intro g h
            simp only [h]
          · intro g h
            simp only [h]
          · intro g h
            simp only [h]
            exact Or.inr ⟨_, hf.1, rfl⟩
        · rintro g (⟨x, h1, h2, h3, h4⟩ | h1)
          · injection h1 with h1 _
            injection h1 with h1
            subst h1
            exact ⟨x.2, ⟨h2, h3⟩, h4⟩
          · cases h1
      · refine Safe.mono (P := fun _ => False) (Safe.never _ _) ?_ (fun _ _ h => h)
        rintro g (⟨x, h1, _⟩ | h1)
        · exact hr ⟨x.1, h1⟩
        · exact ha h1

end Fine
end Verif
