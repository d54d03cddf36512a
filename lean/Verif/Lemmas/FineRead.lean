import Verif.Lemmas.Alone
import Verif.Lemmas.Client

/-! Goroutines that only read and are interrupted anywhere. -/

namespace Verif
namespace Fine

open Mem Code Client

/-- What goroutine `t` relies on while everybody only reads: the map stays, and so do the objects it made itself and those
that were there from the beginning. -/
structure ReadRely (t : Nat) (g g' : Glob) : Prop where
  here : g'.w.here = g.w.here
  files : g'.w.files = g.w.files
  came : g'.came = g.came
  gone : g'.gone = g.gone
  next : g.w.next ≤ g'.w.next
  heap : ∀ id, id < g.w.next → (g.owner id = some t ∨ g.owner id = none) →
    g'.w.heap id = g.w.heap id ∧ g'.owner id = g.owner id

/-- What goroutine `t` does while it only reads: it changes only objects it made itself. -/
structure ReadGuar (t : Nat) (g g' : Glob) : Prop where
  here : g'.w.here = g.w.here
  files : g'.w.files = g.w.files
  came : g'.came = g.came
  gone : g'.gone = g.gone
  next : g.w.next ≤ g'.w.next
  heap : ∀ id, id < g.w.next → g.owner id ≠ some t → g'.w.heap id = g.w.heap id
  owner : ∀ id, id < g.w.next → g'.owner id = g.owner id

theorem ReadGuar.rely {t u : Nat} (h : t ≠ u) {g g' : Glob} (hg : ReadGuar u g g') : ReadRely t g g' where
  here := hg.here
  files := hg.files
  came := hg.came
  gone := hg.gone
  next := hg.next
  heap := by
    intro id hid ho
    refine ⟨hg.heap id hid ?_, hg.owner id hid⟩
    intro e
    rcases ho with ho | ho
    · rw [ho] at e; injection e with e; exact h e
    · rw [ho] at e; cases e

theorem ReadRely.ticks {t : Nat} {g g' : Glob} (h : Ticks g g') : ReadRely t g g' := by
  obtain ⟨now, rfl⟩ := h
  exact ⟨rfl, rfl, rfl, rfl, Nat.le_refl _, fun _ _ _ => ⟨rfl, rfl⟩⟩

/-- What goroutine `t`, which has made the objects `mine`, knows: its part of `g` looks like `v`.  The objects `Fz` were there
from the beginning and nobody changes them. -/
structure Agree (t : Nat) (Fz : Nat → Prop) (v : World) (mine : List Nat) (g : Glob) : Prop where
  here : g.w.here = v.here
  files : g.w.files = v.files
  next : v.next ≤ g.w.next
  own : ∀ id ∈ mine, g.owner id = some t ∧ g.w.heap id = v.heap id
  froz : ∀ id, Fz id → g.owner id = none ∧ g.w.heap id = v.heap id

/-- The view is in order, and the handles `hs` are the goroutine's own objects, or inert. -/
structure View (Fz : Nat → Prop) (v : World) (mine hs : List Nat) : Prop where
  lt : ∀ a ∈ mine, a < v.next
  fz : ∀ a, Fz a → a < v.next
  sep : ∀ a ∈ mine, ¬ Fz a
  stored : ∀ q id, AMap.get v.files q = some id → Fz id
  writer : ∀ a ∈ mine, (v.heap a).writer = none
  hold : ∀ a ∈ hs, a ∈ mine ∨ (Fz a ∧ Inert (v.heap a))

variable {t : Nat} {Fz : Nat → Prop} {v : World} {mine hs : List Nat}

theorem Agree.stable (hlt : ∀ a ∈ mine, a < v.next) (hfz : ∀ a, Fz a → a < v.next) :
    Stable (ReadRely t) (Agree t Fz v mine) := by
  intro g g' h hr
  refine ⟨hr.here.trans h.here, hr.files.trans h.files, Nat.le_trans h.next hr.next, ?_, ?_⟩
  · intro id hid
    obtain ⟨h1, h2⟩ := h.own id hid
    obtain ⟨h3, h4⟩ := hr.heap id (Nat.lt_of_lt_of_le (hlt id hid) h.next) (Or.inl h1)
    exact ⟨h4.trans h1, h3.trans h2⟩
  · intro id hid
    obtain ⟨h1, h2⟩ := h.froz id hid
    obtain ⟨h3, h4⟩ := hr.heap id (Nat.lt_of_lt_of_le (hfz id hid) h.next) (Or.inr h1)
    exact ⟨h4.trans h1, h3.trans h2⟩

theorem ReadGuar.refl (t : Nat) (g : Glob) : ReadGuar t g g :=
  ⟨rfl, rfl, rfl, rfl, Nat.le_refl _, fun _ _ _ => rfl, fun _ _ => rfl⟩

section
variable {α : Type} {Q : α → Glob → Prop}

theorem View.load (hv : View Fz v mine hs) {p : Path} {k : Option Nat → Code α}
    (h : Safe t (ReadRely t) (Any (ReadGuar t)) (k (AMap.get v.files p)) (Agree t Fz v mine) Q) :
    Safe t (ReadRely t) (Any (ReadGuar t)) (.acc (.load p) k) (Agree t Fz v mine) Q := by
  refine Safe.det _ _ (Agree.stable hv.lt hv.fz) ?_ h
  intro g hg
  exact ⟨ReadGuar.refl t g, by simp only [Acc.run, hg.files], hg⟩

theorem View.get (hv : View Fz v mine hs) {id : Nat} (hid : id ∈ mine ∨ Fz id) {k : FileObj → Code α}
    (h : Safe t (ReadRely t) (Any (ReadGuar t)) (k (v.heap id)) (Agree t Fz v mine) Q) :
    Safe t (ReadRely t) (Any (ReadGuar t)) (.acc (.get id) k) (Agree t Fz v mine) Q := by
  refine Safe.det _ _ (Agree.stable hv.lt hv.fz) ?_ h
  intro g hg
  refine ⟨ReadGuar.refl t g, ?_, hg⟩
  rcases hid with hid | hid
  · exact (hg.own id hid).2
  · exact (hg.froz id hid).2

/-- The view after objects have been made by others. -/
def bump (v : World) (n : Nat) : World := { v with next := n }

theorem View.bump (hv : View Fz v mine hs) {n : Nat} (hn : v.next ≤ n) : View Fz (bump v n) mine hs :=
  ⟨fun a ha => Nat.lt_of_lt_of_le (hv.lt a ha) hn, fun a ha => Nat.lt_of_lt_of_le (hv.fz a ha) hn, hv.sep, hv.stored,
    hv.writer, hv.hold⟩

/-- The view after the goroutine has made a new object. -/
theorem View.new (hv : View Fz v mine hs) {n : Nat} (hn : v.next ≤ n) {f : FileObj} (hf : f.writer = none) :
    View Fz (Mem.alloc (Fine.bump v n) f).1 (n :: mine) hs := by
  have hne : ∀ a, a < v.next → a ≠ n := fun a ha => by omega
  refine ⟨?_, ?_, ?_, hv.stored, ?_, ?_⟩
  · intro a ha
    rcases List.mem_cons.mp ha with rfl | ha
    · exact Nat.lt_succ_self _
    · have := hv.lt a ha
      show a < n + 1
      omega
  · intro a ha
    have := hv.fz a ha
    show a < n + 1
    omega
  · intro a ha
    rcases List.mem_cons.mp ha with rfl | ha
    · intro hz; have := hv.fz _ hz; omega
    · exact hv.sep a ha
  · intro a ha
    simp only [Mem.alloc, Fine.bump]
    rcases List.mem_cons.mp ha with rfl | ha
    · simpa using hf
    · rw [upd_ne _ _ (hne a (hv.lt a ha))]; exact hv.writer a ha
  · intro a ha
    rcases hv.hold a ha with h | h
    · exact Or.inl (List.mem_cons_of_mem _ h)
    · right
      refine ⟨h.1, ?_⟩
      simp only [Mem.alloc, Fine.bump]
      rw [upd_ne _ _ (hne a (hv.fz a h.1))]
      exact h.2

theorem View.alloc (hv : View Fz v mine hs) {f : FileObj} (hf : f.writer = none) {k : Nat → Code α}
    (h : ∀ id, v.next ≤ id → Safe t (ReadRely t) (Any (ReadGuar t)) (k id) (Agree t Fz (Mem.alloc (Fine.bump v id) f).1 (id :: mine)) Q) :
    Safe t (ReadRely t) (Any (ReadGuar t)) (.acc (.alloc f) k) (Agree t Fz v mine) Q := by
  refine ⟨fun id g => v.next ≤ id ∧ Agree t Fz (Mem.alloc (Fine.bump v id) f).1 (id :: mine) g, ?_, ?_, ?_⟩
  · rintro id g g' ⟨h1, h2⟩ hr
    have hv' := hv.new h1 hf
    exact ⟨h1, Agree.stable hv'.lt hv'.fz g g' h2 hr⟩
  · intro g hg
    have hne : ∀ a, a < v.next → a ≠ g.w.next := fun a ha => by have := hg.next; omega
    refine ⟨⟨rfl, rfl, rfl, rfl, Nat.le_succ _, ?_, ?_⟩, hg.next, hg.here, hg.files, Nat.le_refl _, ?_, ?_⟩
    · intro id hid _
      simp only [Acc.run, Mem.alloc]
      rw [upd_ne _ _ (Nat.ne_of_lt hid)]
    · intro id hid
      simp only [Acc.run]
      rw [upd_ne _ _ (Nat.ne_of_lt hid)]
    · intro id hid
      simp only [Acc.run, Mem.alloc, Fine.bump]
      by_cases he : id = g.w.next
      · subst he; simp
      · have hid : id ∈ mine := by
          rcases List.mem_cons.mp hid with h | h
          · exact absurd h he
          · exact h
        rw [upd_ne _ _ he, upd_ne _ _ he, upd_ne _ _ he]
        exact hg.own id hid
    · intro id hid
      have he := hne id (hv.fz id hid)
      simp only [Acc.run, Mem.alloc, Fine.bump]
      rw [upd_ne _ _ he, upd_ne _ _ he, upd_ne _ _ he]
      exact hg.froz id hid
  · intro id
    exact Safe.of_fact fun h1 => h id h1

/-- The view after the goroutine has changed an object of its own, or written into an inert one what was there. -/
theorem View.set (hv : View Fz v mine hs) {id : Nat} {f : FileObj} (hid : id ∈ mine ∨ (Fz id ∧ f = v.heap id))
    (hf : f.writer = none) (hi : Inert (v.heap id) → f = v.heap id) : View Fz (setObj v id f) mine hs := by
  have key : ∀ a, Fz a → (setObj v id f).heap a = v.heap a := by
    intro a ha
    by_cases he : a = id
    · subst he
      rcases hid with h | h
      · exact absurd ha (hv.sep a h)
      · rw [setObj_heap, h.2]
    · simp only [setObj]; rw [upd_ne _ _ he]
  refine ⟨hv.lt, hv.fz, hv.sep, hv.stored, ?_, ?_⟩
  · intro a ha
    by_cases he : a = id
    · subst he; rw [setObj_heap]; exact hf
    · simp only [setObj]; rw [upd_ne _ _ he]; exact hv.writer a ha
  · intro a ha
    rcases hv.hold a ha with h | h
    · exact Or.inl h
    · right
      rw [key a h.1]
      exact h

theorem View.change (hv : View Fz v mine hs) {id : Nat} {a : Acc Unit} {φ : FileObj → FileObj}
    (ha : ∀ g : Glob, (a.run t g).1 = { g with w := setObj g.w id (φ (g.w.heap id)) })
    (hid : id ∈ mine ∨ (Fz id ∧ φ (v.heap id) = v.heap id)) {k : Unit → Code α}
    (h : Safe t (ReadRely t) (Any (ReadGuar t)) (k ()) (Agree t Fz (setObj v id (φ (v.heap id))) mine) Q) :
    Safe t (ReadRely t) (Any (ReadGuar t)) (.acc a k) (Agree t Fz v mine) Q := by
  refine Safe.det () _ (Agree.stable (v := setObj v id (φ (v.heap id))) hv.lt hv.fz) ?_ h
  intro g hg
  rw [ha]
  have hheap : g.w.heap id = v.heap id := by
    rcases hid with h | h
    · exact (hg.own id h).2
    · exact (hg.froz id h.1).2
  refine ⟨⟨rfl, rfl, rfl, rfl, Nat.le_refl _, ?_, fun _ _ => rfl⟩, rfl, hg.here, hg.files, hg.next, ?_, ?_⟩
  · intro j _ hj
    by_cases he : j = id
    · subst he
      rcases hid with h | h
      · exact absurd (hg.own j h).1 hj
      · simp only [setObj_heap, hheap, h.2]
    · simp only [setObj]; rw [upd_ne _ _ he]
  · intro j hj
    refine ⟨(hg.own j hj).1, ?_⟩
    by_cases he : j = id
    · subst he; simp only [setObj_heap, hheap]
    · simp only [setObj]; rw [upd_ne _ _ he, upd_ne _ _ he]; exact (hg.own j hj).2
  · intro j hj
    refine ⟨(hg.froz j hj).1, ?_⟩
    by_cases he : j = id
    · subst he; simp only [setObj_heap, hheap]
    · simp only [setObj]; rw [upd_ne _ _ he, upd_ne _ _ he]; exact (hg.froz j hj).2

/-- `Range` visits the keys in some order. -/
theorem View.range (hv : View Fz v mine hs) (hn : AMap.Nodup v.files) {k : List Path → Code α}
    (h : ∀ l, l.Perm (AMap.keys v.files) → Safe t (ReadRely t) (Any (ReadGuar t)) (k l) (Agree t Fz v mine) Q) :
    Safe t (ReadRely t) (Any (ReadGuar t)) (.range none (fun _ => .ret ()) k) (Agree t Fz v mine) Q := by
  let J : RangeSt → Glob → Prop := fun st g => Agree t Fz v mine g ∧ st.start = AMap.keys v.files ∧
    g.came.drop st.came = [] ∧ g.gone.drop st.gone = [] ∧ st.seen.Nodup ∧ ∀ p ∈ st.seen, p ∈ st.start
  have hst := Agree.stable (t := t) hv.lt hv.fz
  have hJ : ∀ st, Stable (ReadRely t) (J st) := by
    rintro st g g' ⟨h1, h2, h3, h4, h5⟩ hr
    exact ⟨hst g g' h1 hr, h2, by rw [hr.came]; exact h3, by rw [hr.gone]; exact h4, h5⟩
  refine ⟨J, fun st p g => J st g ∧ p ∈ st.start ∧ p ∉ st.seen, fun l g => l.Perm (AMap.keys v.files) ∧ Agree t Fz v mine g,
    hJ, ?_, ?_, ?_, ?_, ?_, ?_, ?_⟩
  · rintro st p g g' ⟨h1, h2⟩ hr
    exact ⟨hJ st g g' h1 hr, h2⟩
  · rintro l g g' ⟨h1, h2⟩ hr
    exact ⟨h1, hst g g' h2 hr⟩
  · intro g hg
    refine ⟨hg, ?_, List.drop_length, List.drop_length, List.nodup_nil, by simp [RangeSt.begin]⟩
    show AMap.keys g.w.files = _
    rw [hg.files]
  · rintro st p g h1 ⟨h2, h3⟩
    refine ⟨h1, ?_, h3⟩
    rcases h2 with h2 | h2
    · exact h2
    · rw [h1.2.2.1] at h2; cases h2
  · rintro st p g ⟨⟨h1, h2, h3, h4, h5, h6⟩, h7, h8⟩
    refine ⟨h1, h2, h3, h4, ?_, ?_⟩
    · rw [List.nodup_append]
      refine ⟨h5, by simp, ?_⟩
      intro a ha b hb e
      simp at hb
      subst hb; subst e
      exact h8 ha
    · intro q hq
      rcases List.mem_append.mp hq with hq | hq
      · exact h6 q hq
      · simp at hq; subst hq; exact h7
  · rintro st g ⟨h1, h2, h3, h4, h5, h6⟩ he
    refine ⟨?_, h1⟩
    rw [List.perm_ext_iff_of_nodup h5 hn]
    intro q
    constructor
    · intro hq; rw [← h2]; exact h6 q hq
    · intro hq
      rcases he q (h2 ▸ hq) with h | h
      · exact h
      · rw [h4] at h; cases h
  · intro l
    exact Safe.of_fact fun hl => h l hl

end

/-! ### The methods -/

/-- The handle is the goroutine's own or inert. -/
def Own (Fz : Nat → Prop) (v : World) (mine : List Nat) (id : Nat) : Prop := id ∈ mine ∨ (Fz id ∧ Inert (v.heap id))

theorem Own.known {id : Nat} (h : Own Fz v mine id) : id ∈ mine ∨ Fz id := h.imp_right And.left

theorem safe_fileStat (hv : View Fz v mine hs) {id : Nat} (hid : id ∈ mine ∨ Fz id) :
    Safe t (ReadRely t) (Any (ReadGuar t)) (fileStatC id) (Agree t Fz v mine) fun r g =>
      r = detailsOf v id ∧ Agree t Fz v mine g := by
  unfold fileStatC
  refine hv.get hid ?_
  unfold detailsOf
  cases h : (v.heap id).info with
  | none => exact fun g hg => ⟨rfl, hg⟩
  | some d =>
    refine hv.get hid ?_
    rw [h]
    exact fun g hg => ⟨rfl, hg⟩

theorem safe_fileName (hv : View Fz v mine hs) {id : Nat} (hid : id ∈ mine ∨ Fz id) :
    Safe t (ReadRely t) (Any (ReadGuar t)) (fileNameC id) (Agree t Fz v mine) fun r g =>
      r = (v.heap id).path.str ∧ Agree t Fz v mine g := by
  unfold fileNameC
  exact hv.get hid fun g hg => ⟨rfl, hg⟩

theorem safe_stat (E : Env) (hv : View Fz v mine hs) (name : Str) :
    Safe t (ReadRely t) (Any (ReadGuar t)) (statC E v.here name) (Agree t Fz v mine) fun r g =>
      r = statDetails E v name ∧ Agree t Fz v mine g := by
  unfold statC statDetails Mem.stat Mem.parse
  cases E.parse v.here name with
  | error e => exact fun g hg => ⟨rfl, hg⟩
  | ok pt =>
    simp only
    refine hv.load ?_
    cases hg : AMap.get v.files pt with
    | none => exact fun g hg => ⟨rfl, hg⟩
    | some i =>
      refine (safe_fileStat hv (Or.inr (hv.stored pt i hg))).mono (fun _ h => h) ?_
      rintro a g ⟨rfl, ha⟩
      refine ⟨?_, ha⟩
      simp only [fileStat, detailsOf]
      cases h : (v.heap i).info with
      | none => rfl
      | some d => simp only [h]

theorem safe_walkLoop {S : Type} (hv : View Fz v mine hs) (cb : Str → Details → S → S × Option Err) (root : Path)
    (ks : List Path) : ∀ (skip : Str) (s : S),
    Safe t (ReadRely t) (Any (ReadGuar t)) (walkLoopC cb root ks skip s) (Agree t Fz v mine) fun r g =>
      r = walkLoop (fun _ => v) cb root ks skip s ∧ Agree t Fz v mine g := by
  induction ks with
  | nil => intro skip s; exact fun g hg => ⟨rfl, hg⟩
  | cons k ks ih =>
    intro skip s
    simp only [walkLoopC, walkLoop]
    by_cases h1 : k.pkg ≠ root.pkg
    · simp only [if_pos h1]; exact ih skip s
    · simp only [if_neg h1]
      by_cases h2 : Str.hasPrefix k.name root.name = false
      · simp only [if_pos h2]; exact ih skip s
      · simp only [if_neg h2]
        by_cases h3 : Str.hasPrefix k.name skip = true
        · simp only [if_pos h3]; exact ih skip s
        · simp only [if_neg h3]
          refine hv.load ?_
          cases hg : AMap.get v.files k with
          | none => exact fun g hg => ⟨rfl, hg⟩
          | some id =>
            simp only
            refine (safe_fileStat hv (Or.inr (hv.stored k id hg))).bind fun a => Safe.of_fact ?_
            rintro rfl
            unfold detailsOf
            cases (v.heap id).info with
            | none => exact fun g hg => ⟨rfl, hg⟩
            | some d =>
              simp only
              generalize cb k.str (newFileInfo d) s = m
              obtain ⟨s', e⟩ := m
              cases e with
              | none => exact ih skip _
              | some e => cases e <;> first | exact ih _ _ | exact fun g hg => ⟨rfl, hg⟩

theorem safe_walk {S : Type} (E : Env) (hv : View Fz v mine hs) (hn : AMap.Nodup v.files) (hnm : ∀ pkg, Named v pkg)
    (cb : Str → Details → S → S × Option Err) (s : S) (p : Str) :
    Safe t (ReadRely t) (Any (ReadGuar t)) (walkC E v.here cb s p) (Agree t Fz v mine) fun r g =>
      r = walk E (fun _ => v) cb s p ∧ Agree t Fz v mine g := by
  unfold walkC keysC
  simp only [Code.bind]
  refine hv.range hn fun l hl => ?_
  cases hp : E.parse v.here p with
  | error e =>
    simp only [walk, Mem.parse, hp]
    exact fun g hg => ⟨rfl, hg⟩
  | ok pt =>
    rw [walk_cands E (fun _ => v) cb s hp]
    simp only
    rw [walkLoopC_filter, cands_of_perm hn (hnm pt.pkg) hl]
    exact safe_walkLoop hv cb pt _ _ _

theorem safe_readdir (E : Env) (hv : View Fz v mine hs) (hn : AMap.Nodup v.files) (hnm : ∀ pkg, Named v pkg) {id : Nat}
    (hid : id ∈ mine ∨ Fz id) (count : Int) :
    Safe t (ReadRely t) (Any (ReadGuar t)) (readdirC E v.here id count) (Agree t Fz v mine) fun r g =>
      r = Mem.readdir E v id count ∧ Agree t Fz v mine g := by
  unfold readdirC Mem.readdir
  refine hv.get hid ?_
  simp only
  by_cases hp : (v.heap id).pkging = false
  · simp only [if_pos hp]; exact fun g hg => ⟨rfl, hg⟩
  · simp only [if_neg hp]
    refine (safe_walk E hv hn hnm _ _ _).bind fun a => Safe.of_fact ?_
    rintro rfl
    generalize walk E (fun _ => v) (readdirCb E v.here (v.heap id).path.str (v.heap id).parent count) []
      (v.heap id).path.str = m
    obtain ⟨infos, r⟩ := m
    cases r with
    | ok u => exact fun g hg => ⟨rfl, hg⟩
    | panic => exact fun g hg => ⟨rfl, hg⟩
    | err e =>
      simp only
      split
      · exact fun g hg => ⟨rfl, hg⟩
      · split
        · exact fun g hg => ⟨rfl, hg⟩
        · exact fun g hg => ⟨rfl, hg⟩

theorem ensureReader_writer (f : FileObj) : (ensureReader f).writer = f.writer := by
  unfold ensureReader
  split
  · rfl
  · split <;> rfl

theorem ensureReader_inert {f : FileObj} (h : Inert f) : ensureReader f = f := by simp [ensureReader, h.reader, h.bytes]

theorem View.writerOf (hv : View Fz v mine hs) {id : Nat} (hid : Own Fz v mine id) : (v.heap id).writer = none := by
  rcases hid with h | h
  · exact hv.writer id h
  · exact h.2.writer

theorem safe_ensure {α : Type} {Q : α → Glob → Prop} (hv : View Fz v mine hs) {id : Nat} (hid : Own Fz v mine id)
    {k : FileObj → Code α}
    (h : View Fz (setObj v id (ensureReader (v.heap id))) mine hs →
      Safe t (ReadRely t) (Any (ReadGuar t)) (k (ensureReader (v.heap id)))
        (Agree t Fz (setObj v id (ensureReader (v.heap id))) mine) Q) :
    Safe t (ReadRely t) (Any (ReadGuar t)) (ensureReaderC id k) (Agree t Fz v mine) Q := by
  have hv' : View Fz (setObj v id (ensureReader (v.heap id))) mine hs :=
    hv.set (hid.imp_right fun h => ⟨h.1, ensureReader_inert h.2⟩) (by rw [ensureReader_writer]; exact hv.writerOf hid)
      ensureReader_inert
  have h := h hv'
  unfold ensureReaderC
  refine hv.get hid.known ?_
  by_cases hc : (v.heap id).reader = none ∧ (v.heap id).bytes.length > 0
  · rw [if_pos hc]
    have he : ensureReader (v.heap id) = { v.heap id with reader := some ((v.heap id).bytes, 0) } := by
      simp only [ensureReader, hc.1, if_pos hc.2]
    rw [he] at h hv'
    have hm : id ∈ mine := by
      rcases hid with h1 | h1
      · exact h1
      · have := hc.2; rw [h1.2.bytes] at this; simp at this
    refine hv.change (φ := fun f => { f with reader := some ((v.heap id).bytes, 0) }) (fun g => rfl) (Or.inl hm) ?_
    refine hv'.get (Or.inl hm) ?_
    rw [setObj_heap]
    exact h
  · rw [if_neg hc]
    have he : ensureReader (v.heap id) = v.heap id := by
      unfold ensureReader
      cases hr : (v.heap id).reader with
      | some r => rfl
      | none =>
        simp only
        rw [if_neg fun hb => hc ⟨hr, hb⟩]
    rw [he, setObj_same] at h
    exact hv.get hid.known h

theorem safe_read (hv : View Fz v mine hs) {id : Nat} (hid : Own Fz v mine id) (n : Nat) :
    Safe t (ReadRely t) (Any (ReadGuar t)) (readC id n) (Agree t Fz v mine) fun r g =>
      r = (Mem.read v id n).2 ∧ Agree t Fz (Mem.read v id n).1 mine g := by
  unfold readC
  refine safe_ensure hv hid fun hv' => ?_
  simp only [Mem.read, readObj]
  cases hr : (ensureReader (v.heap id)).reader with
  | none => exact fun g hg => ⟨rfl, hg⟩
  | some r =>
    obtain ⟨s, i⟩ := r
    simp only
    have hm : id ∈ mine := by
      rcases hid with h1 | h1
      · exact h1
      · rw [ensureReader_inert h1.2, h1.2.reader] at hr; cases hr
    refine hv'.change (φ := fun f => { f with reader := some (s, (readerRead s i n).1) }) (fun g => rfl) (Or.inl hm) ?_
    rw [setObj_heap, setObj_setObj]
    exact fun g hg => ⟨rfl, hg⟩

theorem safe_seek (hv : View Fz v mine hs) {id : Nat} (hid : Own Fz v mine id) (off whence : Int) :
    Safe t (ReadRely t) (Any (ReadGuar t)) (seekC id off whence) (Agree t Fz v mine) fun r g =>
      r = (Mem.seek v id off whence).2 ∧ Agree t Fz (Mem.seek v id off whence).1 mine g := by
  unfold seekC
  refine safe_ensure hv hid fun hv' => ?_
  simp only [Mem.seek, seekObj]
  cases hr : (ensureReader (v.heap id)).reader with
  | none => exact fun g hg => ⟨rfl, hg⟩
  | some r =>
    obtain ⟨s, i⟩ := r
    simp only
    have hm : id ∈ mine := by
      rcases hid with h1 | h1
      · exact h1
      · rw [ensureReader_inert h1.2, h1.2.reader] at hr; cases hr
    refine hv'.change (φ := fun f => { f with reader := some (s, (readerSeek s i off whence).1) }) (fun g => rfl) (Or.inl hm) ?_
    rw [setObj_heap, setObj_setObj]
    exact fun g hg => ⟨rfl, hg⟩

theorem safe_close (hv : View Fz v mine hs) {id : Nat} (hid : Own Fz v mine id) :
    Safe t (ReadRely t) (Any (ReadGuar t)) (closeC id) (Agree t Fz v mine) fun r g =>
      r = (Mem.close v id).2 ∧ Agree t Fz (Mem.close v id).1 mine g := by
  have hw := hv.writerOf hid
  rw [close_noWriter hw]
  unfold closeC closedC
  refine hv.get hid.known ?_
  rw [hw]
  simp only
  have h1 : id ∈ mine ∨ (Fz id ∧ { v.heap id with reader := none } = v.heap id) :=
    hid.imp_right fun h => ⟨h.1, noReader_inert h.2⟩
  have hv' : View Fz (setObj v id { v.heap id with reader := none }) mine hs := hv.set h1 hw noReader_inert
  refine hv.change (φ := fun f => { f with reader := none }) (fun g => rfl) h1 ?_
  have he : ({ (setObj v id { v.heap id with reader := none }).heap id with writer := none } : FileObj) =
      { v.heap id with reader := none } := by
    rw [setObj_heap, ← hw]
  refine hv'.change (φ := fun f => { f with writer := none }) (fun g => rfl) (hid.imp_right fun h => ⟨h.1, ?_⟩) ?_
  · rw [he, setObj_heap]
  · rw [he, setObj_setObj]
    exact fun g hg => ⟨rfl, hg⟩

/-- What `Open` has brought about: nothing, or a new object. -/
inductive Opened (E : Env) (v : World) (mine : List Nat) (name : Str) : Res Nat → World → List Nat → Prop where
  | no {r : Res Nat} (h : openFile E v name = (v, r)) (hr : ∀ id, r ≠ .ok id) : Opened E v mine name r v mine
  | yes {n : Nat} {f : FileObj} (hf : f.writer = none) (hn : v.next ≤ n)
      (h : openFile E v name = ((Mem.alloc v f).1, .ok v.next)) :
      Opened E v mine name (.ok n) (Mem.alloc (bump v n) f).1 (n :: mine)

theorem safe_open (E : Env) (hv : View Fz v mine hs) (name : Str) :
    Safe t (ReadRely t) (Any (ReadGuar t)) (openC E v.here name) (Agree t Fz v mine) fun r g =>
      ∃ x : World × List Nat, Opened E v mine name r x.1 x.2 ∧ Agree t Fz x.1 x.2 g := by
  have no : ∀ {r : Res Nat}, openFile E v name = (v, r) → (∀ id, r ≠ .ok id) → ∀ g, Agree t Fz v mine g →
      ∃ x : World × List Nat, Opened E v mine name r x.1 x.2 ∧ Agree t Fz x.1 x.2 g :=
    fun h hr g hg => ⟨(v, mine), .no h hr, hg⟩
  obtain ⟨m, hm⟩ : ∃ m, m = Mem.openFile E v name := ⟨_, rfl⟩
  have hof := hm
  unfold Mem.openFile Mem.parse at hof
  unfold openC
  revert hof
  cases E.parse v.here name with
  | error e => intro hof; exact no (hm ▸ hof) (by simp)
  | ok pt =>
    simp only
    intro hof
    refine hv.load ?_
    revert hof
    cases hg : AMap.get v.files pt with
    | none => intro hof; exact no (hm ▸ hof) (by simp)
    | some i =>
      simp only
      intro hof
      have hz := hv.stored pt i hg
      refine hv.get (Or.inr hz) ?_
      revert hof
      cases hi : (v.heap i).info with
      | none => intro hof; exact no (hm ▸ hof) (by simp)
      | some d =>
        simp only
        intro hof
        refine hv.get (Or.inr hz) ?_
        refine hv.alloc (f := openedObj (v.heap i) d) rfl fun id hid => ?_
        intro g hg
        exact ⟨(_, _), .yes rfl hid (hm ▸ hof), hg⟩

/-! ### The calls -/

theorem View.snoc (hv : View Fz v mine hs) {id : Nat} (hid : Own Fz v mine id) : View Fz v mine (hs ++ [id]) :=
  ⟨hv.lt, hv.fz, hv.sep, hv.stored, hv.writer, by
    intro a ha
    rcases List.mem_append.mp ha with h | h
    · exact hv.hold a h
    · simp at h; subst h; exact hid⟩

theorem sim_bump {w w' : World} {hs hs' : List Nat} (h : Sim w w' hs hs') {n : Nat} (hn : w'.next ≤ n) :
    Sim w (bump w' n) hs hs' :=
  ⟨h.here, h.files, fun q id hq => ⟨(h.stored q id hq).1, (h.stored q id hq).2.1, Nat.lt_of_lt_of_le (h.stored q id hq).2.2 hn⟩,
    h.len, h.obj, h.shared, h.readable, fun a ha =>
      ⟨Nat.lt_of_lt_of_le (h.readable' a ha).lt hn, (h.readable' a ha).writer, (h.readable' a ha).free⟩⟩

/-- The view, the handles and the answer after a call are those of `x`, and what the goroutine would find running alone is the
same. -/
structure After (E : Env) (Fz : Nat → Prop) (v : World) (hs : List Nat) (c : Client.Call) (mine' : List Nat)
    (x : World × List Nat × Client.Ans) : Prop where
  view : View Fz x.1 mine' x.2.1
  here : x.1.here = v.here
  files : x.1.files = v.files
  sim : ∀ ws hss, Sim ws v hss hs → SimStep (call E ws hss c) x

theorem alloc_inj {w : World} {f f' : FileObj} (h : (Mem.alloc w f).1 = (Mem.alloc w f').1) : f = f' := by
  have := congrArg (fun w' => w'.heap w.next) h
  simpa [Mem.alloc] using this

theorem Opened.here {E : Env} {name : Str} {r : Res Nat} {v' : World} {mine' : List Nat}
    (h : Opened E v mine name r v' mine') : v'.here = v.here ∧ v'.files = v.files := by
  cases h <;> exact ⟨rfl, rfl⟩

theorem Opened.view {E : Env} {name : Str} {r : Res Nat} {v' : World} {mine' : List Nat}
    (h : Opened E v mine name r v' mine') (hv : View Fz v mine hs) :
    View Fz v' mine' hs ∧ ∀ id, r = .ok id → id ∈ mine' := by
  cases h with
  | no h hr => exact ⟨hv, fun id e => absurd e (hr id)⟩
  | yes hf hn h =>
    refine ⟨hv.new hn hf, fun id e => ?_⟩
    injection e with e
    subst e
    exact List.mem_cons_self ..

theorem Opened.sim {E : Env} {name : Str} {r : Res Nat} {v' : World} {mine' : List Nat}
    (h : Opened E v mine name r v' mine') {ws : World} {hss : List Nat} (hsim : Sim ws v hss hs) :
    SimStep (obtained hss (Mem.openFile E ws name)) (obtained hs (v', r)) := by
  rcases sim_openFile E hsim name with ⟨h1, h2, h3⟩ | ⟨f', hf', h1, h2⟩
  · cases h with
    | no h hr =>
      rw [h] at h2
      injection h2 with _ h2
      rw [h1, ← h2]
      exact sim_obtained hsim hr
    | yes hf hn h =>
      rw [h] at h2
      injection h2 with _ h2
      exact absurd h2.symm (h3 _)
  · cases h with
    | no h hr =>
      rw [h] at h2
      injection h2 with _ h2
      exact absurd h2 (hr _)
    | yes hf hn h =>
      rw [h] at h2
      injection h2 with h2 _
      have := alloc_inj h2
      subst this
      rw [h1]
      simp only [obtained, hsim.len]
      exact ⟨(sim_bump hsim hn).allocSnoc hf, rfl⟩

theorem obtainedC_eq (hs : List Nat) (r : Res Nat) (w : World) :
    (match r with
      | .ok id => Code.ret (hs ++ [id], Client.Ans.opened (.ok hs.length))
      | .err e => Code.ret (hs, Client.Ans.opened (.err e))
      | .panic => Code.ret (hs, Client.Ans.opened .panic)) = Code.ret (obtained hs (w, r)).2 := by
  cases r <;> rfl

theorem obtained_world (hs : List Nat) (r : Res Nat) (w : World) : (obtained hs (w, r)).1 = w := by
  cases r <;> rfl

theorem View.obtained {mine' : List Nat} {v' : World} (hv : View Fz v' mine' hs) {r : Res Nat}
    (h : ∀ id, r = .ok id → Own Fz v' mine' id) : View Fz v' mine' (obtained hs (v', r)).2.1 := by
  cases r with
  | ok id => exact hv.snoc (h id rfl)
  | err e => exact hv
  | panic => exact hv

/-- What `File.Open` has brought about. -/
structure OpenedIn (E : Env) (Fz : Nat → Prop) (v : World) (hs : List Nat) (k : Nat) (name : Str) (r : Res Nat)
    (v' : World) (mine' : List Nat) : Prop where
  here : v'.here = v.here
  files : v'.files = v.files
  view : View Fz v' mine' (obtained hs (v', r)).2.1
  sim : ∀ ws hss a, Sim ws v hss hs → hss[k]? = some a →
    SimStep (obtained hss (fileOpen E ws a name)) (obtained hs (v', r))

theorem safe_fileOpen (E : Env) (hv : View Fz v mine hs) {k id : Nat} (hk : hs[k]? = some id) (name : Str) :
    Safe t (ReadRely t) (Any (ReadGuar t)) (fileOpenC E v.here id name) (Agree t Fz v mine) fun r g =>
      ∃ x : World × List Nat, OpenedIn E Fz v hs k name r x.1 x.2 ∧ Agree t Fz x.1 x.2 g := by
  have hown : Own Fz v mine id := hv.hold id (List.mem_of_getElem? hk)
  -- what the goroutine alone does with its handle
  have alone : ∀ {r : Res Nat} {v' : World} {mine' : List Nat}, v'.here = v.here → v'.files = v.files →
      View Fz v' mine' (obtained hs (v', r)).2.1 →
      (∀ ws hss a, Sim ws v hss hs → hss[k]? = some a → ws.heap a = v.heap id →
        SimStep (obtained hss (fileOpen E ws a name)) (obtained hs (v', r))) →
      ∀ g, Agree t Fz v' mine' g → ∃ x : World × List Nat, OpenedIn E Fz v hs k name r x.1 x.2 ∧ Agree t Fz x.1 x.2 g :=
    fun h1 h2 h3 h4 g hg => ⟨(_, _), ⟨h1, h2, h3, fun ws hss a hs1 hs2 => h4 ws hss a hs1 hs2 (hs1.obj k a id hs2 hk).symm⟩, hg⟩
  unfold fileOpenC
  refine hv.get hown.known ?_
  cases hp : E.parse (v.heap id).here name with
  | error e =>
    refine alone rfl rfl hv fun ws hss a h1 h2 h3 => ?_
    simp only [fileOpen, h3, hp]
    exact sim_obtained h1 (by simp)
  | ok pt0 =>
    simp only
    by_cases hpt : pt0 = (v.heap id).path
    · rw [if_pos hpt]
      refine alone rfl rfl (hv.snoc hown) fun ws hss a h1 h2 h3 => ?_
      simp only [fileOpen, h3, hp, if_pos hpt, obtained, h1.len]
      refine ⟨h1.snoc h3.symm ?_ (h1.readable a (List.mem_of_getElem? h2)) (h1.readable' id (List.mem_of_getElem? hk)), rfl⟩
      intro l x y g1 g2
      exact h1.shared l k x a y id g1 h2 g2 hk
    · rw [if_neg hpt]
      by_cases hpk : (v.heap id).pkging = false
      · rw [if_pos hpk]
        refine alone rfl rfl hv fun ws hss a h1 h2 h3 => ?_
        simp only [fileOpen, h3, hp, if_neg hpt, if_pos hpk]
        exact sim_obtained h1 (by simp)
      · rw [if_neg hpk]
        refine (safe_open E hv _).bind fun r => Safe.ex fun x => Safe.of_fact fun ho => ?_
        obtain ⟨v1, mine1⟩ := x
        obtain ⟨hv1, hok⟩ := ho.view hv
        simp only at ho hv1 hok ⊢
        cases ho with
        | no h hr =>
          have other : ∀ ws hss a, Sim ws v hss hs → hss[k]? = some a → ws.heap a = v.heap id →
              SimStep (obtained hss (fileOpen E ws a name)) (obtained hs (v, r)) := by
            intro ws hss a h1 h2 h3
            simp only [fileOpen, h3, hp, if_neg hpt, if_neg hpk]
            rcases sim_openFile E h1 (Path.str ⟨pt0.pkg, GoPath.join2 (v.heap id).path.name pt0.name⟩) with
              ⟨g1, g2, g3⟩ | ⟨f', hf', g1, g2⟩
            · rw [h] at g2
              injection g2 with _ g2
              rw [g1, ← g2]
              cases r with
              | ok n => exact absurd rfl (hr n)
              | err e => exact sim_obtained h1 (by simp)
              | panic => exact sim_obtained h1 (by simp)
            · rw [h] at g2
              injection g2 with _ g2
              exact absurd g2 (hr _)
          cases r with
          | ok n => exact absurd rfl (hr n)
          | err e => exact alone rfl rfl hv other
          | panic => exact alone rfl rfl hv other
        | @yes n f hf hn h =>
          have hfn : (Mem.alloc (bump v n) f).1.heap n = f := by simp [Mem.alloc, bump]
          have other : ∀ ws hss, Sim ws v hss hs →
              Mem.openFile E ws (Path.str ⟨pt0.pkg, GoPath.join2 (v.heap id).path.name pt0.name⟩) =
                ((Mem.alloc ws f).1, .ok ws.next) := by
            intro ws hss h1
            rcases sim_openFile E h1 (Path.str ⟨pt0.pkg, GoPath.join2 (v.heap id).path.name pt0.name⟩) with
              ⟨g1, g2, g3⟩ | ⟨f', hf', g1, g2⟩
            · rw [h] at g2
              injection g2 with _ g2
              exact absurd g2.symm (g3 _)
            · rw [h] at g2
              injection g2 with g2 _
              rw [alloc_inj g2, g1]
          have hwn : ∀ ws : World, (Mem.alloc ws f).1.heap ws.next = f := fun ws => by simp [Mem.alloc]
          refine (safe_fileStat hv1 (Or.inl (List.mem_cons_self ..))).bind fun r => Safe.of_fact fun hr => ?_
          simp only [detailsOf, hfn] at hr
          subst hr
          cases hfi : f.info with
          | none =>
            refine alone rfl rfl hv1 fun ws hss a h1 h2 h3 => ?_
            simp only [fileOpen, h3, hp, if_neg hpt, if_neg hpk, other ws hss h1, hwn, hfi]
            exact sim_obtained ((sim_bump h1 hn).alloc f) (by simp)
          | some d =>
            simp only
            by_cases hd : d.isDir = true
            · rw [if_pos hd]
              refine hv1.get (Or.inl (List.mem_cons_self ..)) ?_
              rw [hfn]
              refine hv1.alloc rfl fun d2 h2n => ?_
              have hv2 := hv1.new h2n (f :=
                { info := some (newFileInfo d), here := f.here,
                  path := ⟨pt0.pkg, GoPath.join2 (v.heap id).path.name pt0.name⟩, parent := (v.heap id).path,
                  pkging := (v.heap id).pkging, data := none, writer := none, reader := none }) rfl
              refine alone rfl rfl (hv2.snoc (Or.inl (List.mem_cons_self ..))) fun ws hss a h1 h2 h3 => ?_
              simp only [fileOpen, h3, hp, if_neg hpt, if_neg hpk, other ws hss h1, hwn, hfi, if_pos hd, obtained, h1.len]
              exact ⟨(sim_bump ((sim_bump h1 hn).alloc f) h2n).allocSnoc rfl, rfl⟩
            · rw [if_neg hd]
              refine alone rfl rfl (hv1.snoc (Or.inl (List.mem_cons_self ..))) fun ws hss a h1 h2 h3 => ?_
              simp only [fileOpen, h3, hp, if_neg hpt, if_neg hpk, other ws hss h1, hwn, hfi, if_neg hd, obtained, h1.len]
              exact ⟨(sim_bump h1 hn).allocSnoc hf, rfl⟩

theorem Agree.same {v' : World} {g : Glob} (h : Agree t Fz v mine g) (e : v' = v) : Agree t Fz v' mine g := e ▸ h

/-- The view after a handle's object has been changed by reading, seeking or closing. -/
theorem View.op (hv : View Fz v mine hs) {id : Nat} (hid : Own Fz v mine id) {f : FileObj} (hf : f.writer = none)
    (hi : Inert (v.heap id) → f = v.heap id) : View Fz (setObj v id f) mine hs :=
  hv.set (hid.imp (fun h => h) fun h => ⟨h.1, hi h.2⟩) hf hi

/-- A call of a goroutine that reads. -/
theorem safe_reads (E : Env) (hv : View Fz v mine hs) (hn : AMap.Nodup v.files) (hnm : ∀ pkg, Named v pkg)
    (c : Client.Call) :
    Safe t (ReadRely t) (Any (ReadGuar t)) (readsC E v.here hs c) (Agree t Fz v mine) fun r g =>
      ∃ x : (World × List Nat × Client.Ans) × List Nat, After E Fz v hs c x.2 x.1 ∧ r = x.1.2 ∧ Agree t Fz x.1.1 x.2 g := by
  -- a call that changes nothing
  have quiet : ∀ {ans : Client.Ans}, call E v hs c = (v, hs, ans) → ∀ g, Agree t Fz v mine g →
      ∃ x : (World × List Nat × Client.Ans) × List Nat, After E Fz v hs c x.2 x.1 ∧ (hs, ans) = x.1.2 ∧ Agree t Fz x.1.1 x.2 g :=
    fun h g hg => ⟨((v, hs, _), mine), ⟨hv, rfl, rfl, fun ws hss hsim => h ▸ sim_call E hsim c⟩, rfl, hg⟩
  -- a call that changes the object of a handle
  have change : ∀ {ans : Client.Ans} {id : Nat} {f : FileObj}, Own Fz v mine id → f.writer = none →
      (Inert (v.heap id) → f = v.heap id) → call E v hs c = (setObj v id f, hs, ans) →
      ∀ g, Agree t Fz (setObj v id f) mine g →
      ∃ x : (World × List Nat × Client.Ans) × List Nat, After E Fz v hs c x.2 x.1 ∧ (hs, ans) = x.1.2 ∧ Agree t Fz x.1.1 x.2 g :=
    fun hid hf hi h g hg =>
      ⟨((_, hs, _), mine), ⟨hv.op hid hf hi, rfl, rfl, fun ws hss hsim => h ▸ sim_call E hsim c⟩, rfl, hg⟩
  -- a call that makes objects
  have make : ∀ {v' : World} {mine' : List Nat} {r : Res Nat}, v'.here = v.here → v'.files = v.files →
      View Fz v' mine' (obtained hs (v', r)).2.1 →
      (∀ ws hss, Sim ws v hss hs → SimStep (call E ws hss c) (obtained hs (v', r))) →
      Safe t (ReadRely t) (Any (ReadGuar t)) (match r with
        | .ok id => Code.ret (hs ++ [id], Client.Ans.opened (.ok hs.length))
        | .err e => Code.ret (hs, Client.Ans.opened (.err e))
        | .panic => Code.ret (hs, Client.Ans.opened .panic)) (Agree t Fz v' mine') fun r g =>
      ∃ x : (World × List Nat × Client.Ans) × List Nat, After E Fz v hs c x.2 x.1 ∧ r = x.1.2 ∧ Agree t Fz x.1.1 x.2 g := by
    intro v' mine' r h1 h2 h3 h4
    rw [obtainedC_eq hs r v']
    have e := obtained_world hs r v'
    intro g hg
    exact ⟨(obtained hs (v', r), mine'), ⟨by rw [e]; exact h3, by rw [e]; exact h1, by rw [e]; exact h2, h4⟩, rfl,
      by rw [e]; exact hg⟩
  cases c with
  | openFile name =>
    refine (safe_open E hv name).bind fun r => Safe.ex fun x => Safe.of_fact fun ho => ?_
    obtain ⟨hv1, hok⟩ := ho.view hv
    exact make ho.here.1 ho.here.2 (hv1.obtained fun id e => Or.inl (hok id e)) fun ws hss hsim => ho.sim hsim
  | openIn k name =>
    simp only [readsC, withHandleC]
    cases hk : hs[k]? with
    | none => exact quiet (by simp only [call, withHandle, hk])
    | some id =>
      simp only
      refine (safe_fileOpen E hv hk name).bind fun r => Safe.ex fun x => Safe.of_fact fun ho => ?_
      refine make ho.here ho.files ho.view fun ws hss hsim => ?_
      obtain ⟨a, ha⟩ : ∃ a, hss[k]? = some a := by
        rcases hsim.other k with ⟨h1, h2⟩ | ⟨a, b, h1, h2⟩
        · rw [hk] at h2; cases h2
        · exact ⟨a, h1⟩
      have := ho.sim ws hss a hsim ha
      simpa only [call, withHandle, ha] using this
  | stat name =>
    refine (safe_stat E hv name).bind fun r => Safe.of_fact fun hr => ?_
    subst hr
    refine quiet ?_
    simp only [call, statDetails]
    rfl
  | fileStat k =>
    simp only [readsC, withHandleC]
    cases hk : hs[k]? with
    | none => exact quiet (by simp only [call, withHandle, hk])
    | some id =>
      simp only
      refine (safe_fileStat hv (Own.known (hv.hold id (List.mem_of_getElem? hk)))).bind fun r => Safe.of_fact fun hr => ?_
      subst hr
      exact quiet (by simp only [call, withHandle, hk])
  | readdir k count =>
    simp only [readsC, withHandleC]
    cases hk : hs[k]? with
    | none => exact quiet (by simp only [call, withHandle, hk])
    | some id =>
      simp only
      refine (safe_readdir E hv hn hnm (Own.known (hv.hold id (List.mem_of_getElem? hk))) count).bind fun r =>
        Safe.of_fact fun hr => ?_
      subst hr
      exact quiet (by simp only [call, withHandle, hk])
  | read k n =>
    simp only [readsC, withHandleC]
    cases hk : hs[k]? with
    | none => exact quiet (by simp only [call, withHandle, hk])
    | some id =>
      simp only
      have hid := hv.hold id (List.mem_of_getElem? hk)
      refine (safe_read hv hid n).bind fun r => Safe.of_fact fun hr => ?_
      subst hr
      exact change (f := (readObj (v.heap id) n).1) hid (by rw [(readObj_fields _ n).2.1]; exact hv.writerOf hid)
        (fun hi => readObj_inert hi n) (by simp only [call, withHandle, hk, Mem.read])
  | seek k off whence =>
    simp only [readsC, withHandleC]
    cases hk : hs[k]? with
    | none => exact quiet (by simp only [call, withHandle, hk])
    | some id =>
      simp only
      have hid := hv.hold id (List.mem_of_getElem? hk)
      refine (safe_seek hv hid off whence).bind fun r => Safe.of_fact fun hr => ?_
      subst hr
      exact change (f := (seekObj (v.heap id) off whence).1) hid
        (by rw [(seekObj_fields _ off whence).2.1]; exact hv.writerOf hid) (fun hi => seekObj_inert hi off whence)
        (by simp only [call, withHandle, hk, Mem.seek])
  | close k =>
    simp only [readsC, withHandleC]
    cases hk : hs[k]? with
    | none => exact quiet (by simp only [call, withHandle, hk])
    | some id =>
      simp only
      have hid := hv.hold id (List.mem_of_getElem? hk)
      refine (safe_close hv hid).bind fun r => Safe.of_fact fun hr => ?_
      subst hr
      have hw := hv.writerOf hid
      simp only [close_noWriter hw]
      exact change hid hw (fun hi => noReader_inert hi) (by simp only [call, withHandle, hk, close_noWriter hw])
  | walk p =>
    refine (safe_walk E hv hn hnm _ _ p).bind fun r => Safe.of_fact fun hr => ?_
    subst hr
    exact quiet (by simp only [call])
  | fileName k =>
    simp only [readsC, withHandleC]
    cases hk : hs[k]? with
    | none => exact quiet (by simp only [call, withHandle, hk])
    | some id =>
      simp only
      refine (safe_fileName hv (Own.known (hv.hold id (List.mem_of_getElem? hk)))).bind fun r => Safe.of_fact fun hr => ?_
      subst hr
      exact quiet (by simp only [call, withHandle, hk])

theorem _root_.Verif.Fine.Code.bind_assoc {α β γ : Type} (c : Code α) (f : α → Code β) (g : β → Code γ) :
    (c.bind f).bind g = c.bind fun a => (f a).bind g := by
  induction c with
  | ret a => rfl
  | acc a k ih => simp only [Code.bind]; congr 1; funext x; exact ih x _
  | range st body k ih1 ih2 => simp only [Code.bind]; congr 1; funext x; exact ih2 x _

/-- A program of a goroutine that reads. -/
theorem safe_prog {α : Type} (E : Env) (p : Client.Prog α) : ∀ {v : World} {mine hs : List Nat} {ws : World} {hss : List Nat}
    (_ : View Fz v mine hs) (_ : AMap.Nodup v.files) (_ : ∀ pkg, Named v pkg) (_ : Sim ws v hss hs),
    Safe t (ReadRely t) (Any (ReadGuar t)) ((ofReads p).code E v.here hs) (Agree t Fz v mine) fun r _ =>
      r = (p.exec E ws hss).2.2 := by
  induction p with
  | ret a => intro v mine hs ws hss _ _ _ _ g hg; rfl
  | step c k ih =>
    intro v mine hs ws hss hv hn hnm hsim
    simp only [ofReads, Prog.code, callC, Code.bind_assoc]
    refine (safe_reads E hv hn hnm c).bind fun r => Safe.ex fun x => Safe.of_fact fun hx => Safe.of_fact fun hr => ?_
    subst hr
    obtain ⟨h1, h2⟩ := hx.sim ws hss hsim
    simp only [Code.bind]
    rw [← hx.here]
    have := ih x.1.2.2 hx.view (by rw [hx.files]; exact hn) (fun pkg => by unfold Named Stored; rw [hx.files]; exact hnm pkg) h1
    rw [h2] at this ⊢
    exact this

end Fine
end Verif
