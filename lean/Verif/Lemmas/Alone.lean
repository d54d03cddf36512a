import Verif.Lemmas.Rely
import Verif.Lemmas.Walk

/-! A goroutine that is not interrupted does what the methods of `Model/Mem.lean` do. -/

namespace Verif
namespace Fine

open Mem Code

/-- Started on `g` and not interrupted, when the goroutine ends with `a`, then `Q a` is true. -/
def Alone {α : Type} (t : Nat) (c : Code α) (g : Glob) (Q : α → Glob → Prop) : Prop :=
  Safe t (fun g g' => g = g') (Any fun _ _ => True) c (fun g' => g' = g) Q

variable {t : Nat}

theorem Alone.ret {α : Type} {a : α} {g : Glob} {Q : α → Glob → Prop} (h : Q a g) : Alone t (.ret a) g Q :=
  fun _ hg => hg ▸ h

theorem Alone.acc {α β : Type} {a : Acc β} {k : β → Code α} {g : Glob} {Q : α → Glob → Prop}
    (h : Alone t (k (a.run t g).2) (a.run t g).1 Q) : Alone t (.acc a k) g Q :=
  Safe.det (a.run t g).2 (fun g' => g' = (a.run t g).1) (fun _ _ h1 h2 => h2 ▸ h1)
    (fun g' hg => by subst hg; exact ⟨trivial, rfl, rfl⟩) h

theorem Alone.bind {α β : Type} {c : Code α} {f : α → Code β} {g : Glob} {Q1 : α → Glob → Prop} {Q : β → Glob → Prop}
    (h : Alone t c g Q1) (hf : ∀ a g', Q1 a g' → Alone t (f a) g' Q) : Alone t (c.bind f) g Q := by
  refine Safe.bind h fun a => ?_
  refine (Safe.ex (ι := { g' // Q1 a g' }) (P := fun x g' => g' = x.1) fun x => hf a x.1 x.2).mono ?_ fun _ _ h => h
  intro g' hg'
  exact ⟨⟨g', hg'⟩, rfl⟩

theorem Alone.mono {α : Type} {c : Code α} {g : Glob} {Q Q1 : α → Glob → Prop} (h : Alone t c g Q)
    (hQ : ∀ a g', Q a g' → Q1 a g') : Alone t c g Q1 := Safe.mono h (fun _ h => h) hQ

/-- The steps of a goroutine that is not interrupted. -/
def runAlone {α : Type} (t : Nat) (picks : List (Option Path)) (s : Glob × Code α) : Glob × Code α :=
  picks.foldl (fun s p => s.2.step t p s.1) s

theorem Alone.result {α : Type} {c : Code α} {g : Glob} {Q : α → Glob → Prop} (h : Alone t c g Q)
    (picks : List (Option Path)) {g' : Glob} {a : α} (hr : runAlone t picks (g, c) = (g', .ret a)) : Q a g' := by
  have key : ∀ (picks : List (Option Path)) (s : Glob × Code α),
      (∃ P, Stable (fun g g' => g = g') P ∧ P s.1 ∧ Safe t (fun g g' => g = g') (Any fun _ _ => True) s.2 P Q) →
      ∃ P, P (runAlone t picks s).1 ∧ Safe t (fun g g' => g = g') (Any fun _ _ => True) (runAlone t picks s).2 P Q := by
    intro picks
    induction picks with
    | nil => rintro s ⟨P, _, h2, h3⟩; exact ⟨P, h2, h3⟩
    | cons p picks ih =>
      rintro s ⟨P, h1, h2, h3⟩
      exact ih _ (h3.step h1 h2 p).2
  obtain ⟨P, h1, h2⟩ := key picks (g, c) ⟨fun g' => g' = g, fun _ _ h1 h2 => h2 ▸ h1, rfl, h⟩
  rw [hr] at h1 h2
  exact h2 _ h1

theorem runAlone_append {α : Type} (p q : List (Option Path)) (s : Glob × Code α) :
    runAlone t (p ++ q) s = runAlone t q (runAlone t p s) := List.foldl_append

/-- First one thing, then the other. -/
theorem runAlone_bind {α β : Type} (f : α → Code β) (picks : List (Option Path)) :
    ∀ (c : Code α) {g g' : Glob} {a : α}, runAlone t picks (g, c) = (g', .ret a) →
      ∃ picks', runAlone t picks' (g, c.bind f) = (g', f a) := by
  induction picks with
  | nil =>
    intro c g g' a h
    injection h with h1 h2
    subst h1; subst h2
    exact ⟨[], rfl⟩
  | cons p picks ih =>
    intro c g g' a h
    cases c with
    | ret b =>
      have : runAlone t picks (g, .ret b) = (g', .ret a) := h
      exact ih (.ret b) this
    | acc x k =>
      have : runAlone t picks ((x.run t g).1, k (x.run t g).2) = (g', .ret a) := h
      obtain ⟨q, hq⟩ := ih _ this
      exact ⟨p :: q, hq⟩
    | range st body k =>
      cases st with
      | none =>
        have : runAlone t picks (g, .range (some (RangeSt.begin g)) body k) = (g', .ret a) := h
        obtain ⟨q, hq⟩ := ih _ this
        exact ⟨p :: q, hq⟩
      | some st =>
        cases p with
        | none =>
          by_cases he : st.MayEnd g
          · have h' : runAlone t picks (g, k st.seen) = (g', .ret a) := by
              simpa only [runAlone, List.foldl_cons, Code.step, if_pos he] using h
            obtain ⟨q, hq⟩ := ih _ h'
            refine ⟨none :: q, ?_⟩
            simp only [runAlone, List.foldl_cons, Code.bind, Code.step, if_pos he]
            exact hq
          · have h' : runAlone t picks (g, .range (some st) body k) = (g', .ret a) := by
              simpa only [runAlone, List.foldl_cons, Code.step, if_neg he] using h
            exact ih _ h'
        | some p =>
          by_cases he : st.MayVisit g p
          · have h' : runAlone t picks (g, (body p).bind fun _ => .range (some { st with seen := st.seen ++ [p] }) body k) =
                (g', .ret a) := by
              simpa only [runAlone, List.foldl_cons, Code.step, if_pos he] using h
            obtain ⟨q, hq⟩ := ih _ h'
            refine ⟨some p :: q, ?_⟩
            simp only [runAlone, List.foldl_cons, Code.bind, Code.step, if_pos he]
            have e : ∀ {γ δ ε : Type} (c : Code γ) (f1 : γ → Code δ) (f2 : δ → Code ε),
                (c.bind f1).bind f2 = c.bind fun x => (f1 x).bind f2 := by
              intro γ δ ε c f1 f2
              induction c with
              | ret a => rfl
              | acc a k ih => simp only [Code.bind, ih]
              | range st body k _ ih => simp only [Code.bind, ih]
            rw [e] at hq
            exact hq
          · have h' : runAlone t picks (g, .range (some st) body k) = (g', .ret a) := by
              simpa only [runAlone, List.foldl_cons, Code.step, if_neg he] using h
            exact ih _ h'

/-- A goroutine that is not interrupted can end: nothing blocks, nothing goes on for ever. -/
theorem finishes {α : Type} (t : Nat) (c : Code α) : ∀ g, ∃ picks g' a, runAlone t picks (g, c) = (g', .ret a) := by
  induction c with
  | ret a => exact fun g => ⟨[], g, a, rfl⟩
  | acc x k ih =>
    intro g
    obtain ⟨picks, g', a, h⟩ := ih (x.run t g).2 (x.run t g).1
    exact ⟨none :: picks, g', a, h⟩
  | range st body k ihb ih =>
    have run : ∀ (todo : List Path) (st : RangeSt) (g : Glob), (∀ p ∈ todo, p ∈ st.start) →
        (∀ p ∈ st.start, p ∈ todo ∨ p ∈ st.seen) →
        ∃ picks g' a, runAlone t picks (g, .range (some st) body k) = (g', .ret a) := by
      intro todo
      induction todo with
      | nil =>
        intro st g _ h2
        have he : st.MayEnd g := fun p hp => Or.inl ((h2 p hp).resolve_left (by simp))
        obtain ⟨picks, g', a, h⟩ := ih st.seen g
        refine ⟨none :: picks, g', a, ?_⟩
        simpa only [runAlone, List.foldl_cons, Code.step, if_pos he] using h
      | cons p todo iht =>
        intro st g h1 h2
        by_cases hs : p ∈ st.seen
        · refine iht st g (fun q hq => h1 q (List.mem_cons_of_mem _ hq)) fun q hq => ?_
          rcases h2 q hq with h | h
          · rcases List.mem_cons.mp h with rfl | h
            · exact Or.inr hs
            · exact Or.inl h
          · exact Or.inr h
        · have hv : st.MayVisit g p := ⟨Or.inl (h1 p (List.mem_cons_self ..)), hs⟩
          obtain ⟨picks, g1, a, h⟩ := ihb p g
          obtain ⟨picks1, h3⟩ := runAlone_bind (fun _ => .range (some { st with seen := st.seen ++ [p] }) body k) picks _ h
          obtain ⟨picks2, g2, b, h4⟩ := iht { st with seen := st.seen ++ [p] } g1
            (fun q hq => h1 q (List.mem_cons_of_mem _ hq)) (fun q hq => by
              rcases h2 q hq with h | h
              · rcases List.mem_cons.mp h with rfl | h
                · exact Or.inr (by simp)
                · exact Or.inl h
              · exact Or.inr (by simp [h]))
          refine ⟨some p :: (picks1 ++ picks2), g2, b, ?_⟩
          have : runAlone t (some p :: (picks1 ++ picks2)) (g, .range (some st) body k) =
              runAlone t (picks1 ++ picks2)
                (g, (body p).bind fun _ => .range (some { st with seen := st.seen ++ [p] }) body k) := by
            simp only [runAlone, List.foldl_cons, Code.step, if_pos hv]
          rw [this, runAlone_append, h3, h4]
    intro g
    cases st with
    | none =>
      obtain ⟨picks, g', a, h⟩ := run _ (RangeSt.begin g) g (fun _ h => h) (fun _ h => Or.inl h)
      exact ⟨none :: picks, g', a, h⟩
    | some st => exact run _ st g (fun _ h => h) (fun _ h => Or.inl h)

/-! ### The methods -/

section
variable {α : Type} {g : Glob} {Q : α → Glob → Prop}

theorem Alone.get {id : Nat} {k : FileObj → Code α} (h : Alone t (k (g.w.heap id)) g Q) : Alone t (.acc (.get id) k) g Q :=
  Alone.acc h

theorem Alone.load {p : Path} {k : Option Nat → Code α} (h : Alone t (k (AMap.get g.w.files p)) g Q) :
    Alone t (.acc (.load p) k) g Q := Alone.acc h

end

theorem upd_upd {α : Type} (f : Nat → α) (i : Nat) (a b : α) : upd (upd f i a) i b = upd f i b := by
  funext j
  by_cases h : j = i
  · subst h; simp
  · simp [upd, h]

theorem upd_same {α : Type} (f : Nat → α) (i : Nat) : upd f i (f i) = f := by
  funext j
  by_cases h : j = i
  · subst h; simp
  · simp [upd, h]

theorem setObj_setObj (w : World) (i : Nat) (a b : FileObj) : setObj (setObj w i a) i b = setObj w i b := by
  simp only [setObj, upd_upd]

theorem setObj_same (w : World) (i : Nat) : setObj w i (w.heap i) = w := by
  simp only [setObj, upd_same]

theorem setObj_heap (w : World) (i : Nat) (a : FileObj) : (setObj w i a).heap i = a := by simp [setObj]

theorem alone_open (E : Env) (g : Glob) (name : Str) :
    Alone t (openC E g.w.here name) g fun r g' => (g'.w, r) = openFile E g.w name := by
  unfold openC openFile Mem.parse
  cases E.parse g.w.here name with
  | error e => exact Alone.ret rfl
  | ok pt =>
    simp only
    refine Alone.load ?_
    cases AMap.get g.w.files pt with
    | none => exact Alone.ret rfl
    | some i =>
      simp only
      refine Alone.get ?_
      cases (g.w.heap i).info with
      | none => exact Alone.ret rfl
      | some d => exact Alone.acc (Alone.acc (Alone.ret rfl))

theorem alone_fileStat (g : Glob) (id : Nat) :
    Alone t (fileStatC id) g fun r g' => g' = g ∧ r = Client.detailsOf g.w id := by
  unfold fileStatC Client.detailsOf
  refine Alone.get ?_
  cases h : (g.w.heap id).info with
  | none => exact Alone.ret ⟨rfl, rfl⟩
  | some d =>
    refine Alone.acc ?_
    simp only [Acc.run, h]
    exact Alone.ret ⟨rfl, rfl⟩

theorem alone_fileName (g : Glob) (id : Nat) :
    Alone t (fileNameC id) g fun r g' => g' = g ∧ r = (g.w.heap id).path.str := by
  unfold fileNameC
  exact Alone.get (Alone.ret ⟨rfl, rfl⟩)

/-- What `Stat` returns, looked at. -/
def statDetails (E : Env) (w : World) (name : Str) : Res Details :=
  match Mem.stat E w name with
  | .ok id => Client.detailsOf w id
  | .err e => .err e
  | .panic => .panic

theorem alone_stat (E : Env) (g : Glob) (name : Str) :
    Alone t (statC E g.w.here name) g fun r g' => g' = g ∧ r = statDetails E g.w name := by
  unfold statC statDetails Mem.stat Mem.parse
  cases E.parse g.w.here name with
  | error e => exact Alone.ret ⟨rfl, rfl⟩
  | ok pt =>
    simp only
    refine Alone.load ?_
    cases AMap.get g.w.files pt with
    | none => exact Alone.ret ⟨rfl, rfl⟩
    | some i =>
      refine (alone_fileStat g i).mono ?_
      rintro a g' ⟨rfl, rfl⟩
      refine ⟨rfl, ?_⟩
      simp only [fileStat, Client.detailsOf]
      cases h : (g'.w.heap i).info with
      | none => rfl
      | some d => simp only [h]

/-- Only the keys `Walk` does not discard matter. -/
theorem walkLoopC_filter {S : Type} (cb : Str → Details → S → S × Option Err) (root : Path) (ks : List Path) :
    ∀ (skip : Str) (s : S), walkLoopC cb root ks skip s =
      walkLoopC cb root (ks.filter fun k => decide (k.pkg = root.pkg) && Str.hasPrefix k.name root.name) skip s := by
  induction ks with
  | nil => intro skip s; rfl
  | cons k ks ih =>
    intro skip s
    rw [List.filter_cons]
    by_cases h1 : k.pkg = root.pkg
    · cases h2 : Str.hasPrefix k.name root.name with
      | false =>
        simp only [h1, decide_true, Bool.and_false, Bool.false_eq_true, if_false]
        rw [← ih]
        simp only [walkLoopC, h1, h2, ne_eq, not_true_eq_false, if_false, if_true]
      | true =>
        simp only [h1, decide_true, Bool.and_true, if_true]
        simp only [walkLoopC, h1, h2, ne_eq, not_true_eq_false, if_false, Bool.true_eq_false, ih]
    · simp only [h1, decide_false, Bool.false_and, Bool.false_eq_true, if_false]
      rw [← ih]
      simp only [walkLoopC, ne_eq, h1, not_false_eq_true, if_true]

/-- Whatever the order in which `Range` has visited the keys, `Walk` considers the same list. -/
theorem cands_of_perm {w : World} (hn : AMap.Nodup w.files) {root : Path} (hnm : Named w root.pkg) {l : List Path}
    (hl : l.Perm (AMap.keys w.files)) :
    ((sortBy Path.str l).filter fun k => decide (k.pkg = root.pkg) && Str.hasPrefix k.name root.name) = cands w root := by
  have hmem : ∀ {m : List Path}, m.Perm (AMap.keys w.files) → ∀ q ∈ (sortBy Path.str m).filter
      (fun k => decide (k.pkg = root.pkg) && Str.hasPrefix k.name root.name), Stored w q ∧ q.pkg = root.pkg := by
    intro m hm q hq
    obtain ⟨h1, h2⟩ := List.mem_filter.mp hq
    rw [mem_sortBy, hm.mem_iff, AMap.mem_keys_iff] at h1
    simp only [Bool.and_eq_true, decide_eq_true_eq] at h2
    exact ⟨h1, h2.1⟩
  refine sorted_perm_unique Path.str ?_ ((sortBy_sorted Path.str l).sublist List.filter_sublist)
    ((sortBy_sorted Path.str _).sublist List.filter_sublist) ?_
  · intro x hx y hy he
    obtain ⟨a1, a2⟩ := hmem hl x hx
    obtain ⟨b1, b2⟩ := hmem hl y hy
    exact str_inj (a2.trans b2.symm) (hnm x a1 a2) (hnm y b1 b2) he
  · exact (((sortBy_perm Path.str l).trans hl).trans (sortBy_perm Path.str _).symm).filter _

/-- `Range` without interruption visits exactly the keys. -/
theorem alone_range {α : Type} (g : Glob) {k : List Path → Code α} {Q : α → Glob → Prop} (hn : AMap.Nodup g.w.files)
    (h : ∀ l, l.Perm (AMap.keys g.w.files) → Alone t (k l) g Q) : Alone t (.range none (fun _ => .ret ()) k) g Q := by
  refine ⟨fun st g' => g' = g ∧ st.start = AMap.keys g.w.files ∧ g.came.drop st.came = [] ∧ g.gone.drop st.gone = [] ∧
      st.seen.Nodup ∧ ∀ p ∈ st.seen, p ∈ st.start,
    fun st p g' => (g' = g ∧ st.start = AMap.keys g.w.files ∧ g.came.drop st.came = [] ∧ g.gone.drop st.gone = [] ∧
      st.seen.Nodup ∧ ∀ p ∈ st.seen, p ∈ st.start) ∧ st.MayVisit g p,
    fun l g' => l.Perm (AMap.keys g.w.files) ∧ g' = g, ?_, ?_, ?_, ?_, ?_, ?_, ?_, ?_⟩
  · intro st g1 g2 h1 h2; exact h2 ▸ h1
  · intro st p g1 g2 h1 h2; exact h2 ▸ h1
  · intro l g1 g2 h1 h2; exact h2 ▸ h1
  · intro g' hg
    subst hg
    exact ⟨rfl, rfl, List.drop_length, List.drop_length, List.nodup_nil, by simp [RangeSt.begin]⟩
  · intro st p g' h1 h2
    have := h1.1
    subst this
    exact ⟨h1, h2⟩
  · rintro st p g' ⟨⟨h1, h2, h3, h4, h5, h6⟩, h7, h8⟩
    refine ⟨h1, h2, h3, h4, ?_, ?_⟩
    · rw [List.nodup_append]
      refine ⟨h5, by simp, ?_⟩
      intro a ha b hb e
      simp at hb
      subst hb; subst e
      exact h8 ha
    · intro q hq
      rcases List.mem_append.mp hq with hq | hq
      · exact h6 q hq
      · simp at hq
        subst hq
        rcases h7 with h7 | h7
        · exact h7
        · rw [h3] at h7; cases h7
  · rintro st g' ⟨h1, h2, h3, h4, h5, h6⟩ he
    refine ⟨?_, h1⟩
    rw [List.perm_ext_iff_of_nodup h5 hn]
    intro q
    constructor
    · intro hq; rw [← h2]; exact h6 q hq
    · intro hq
      rcases he q (h2 ▸ hq) with h | h
      · exact h
      · rw [h1, h4] at h; cases h
  · intro l
    exact Safe.of_fact fun hl => h l hl

/-- Walking with a callback of one's own. -/
theorem alone_walkLoop {S : Type} (cb : Str → Details → S → S × Option Err) (root : Path) (g : Glob) (ks : List Path) :
    ∀ (skip : Str) (s : S), Alone t (walkLoopC cb root ks skip s) g fun r g' =>
      g' = g ∧ r = walkLoop (fun _ => g.w) cb root ks skip s := by
  induction ks with
  | nil => intro skip s; exact Alone.ret ⟨rfl, rfl⟩
  | cons k ks ih =>
    intro skip s
    simp only [walkLoopC, walkLoop]
    by_cases h1 : k.pkg ≠ root.pkg
    · simp only [if_pos h1]; exact ih skip s
    · simp only [if_neg h1]
      by_cases h2 : Str.hasPrefix k.name root.name = false
      · simp only [if_pos h2]; exact ih skip s
      · simp only [if_neg h2]
        by_cases h3 : Str.hasPrefix k.name skip = true
        · simp only [if_pos h3]; exact ih skip s
        · simp only [if_neg h3]
          refine Alone.load ?_
          cases hg : AMap.get g.w.files k with
          | none => exact Alone.ret ⟨rfl, rfl⟩
          | some id =>
            simp only
            refine (alone_fileStat g id).bind ?_
            rintro a g' ⟨rfl, rfl⟩
            unfold Client.detailsOf
            cases (g'.w.heap id).info with
            | none => exact Alone.ret ⟨rfl, rfl⟩
            | some d =>
              simp only
              generalize cb k.str (newFileInfo d) s = m
              obtain ⟨s', e⟩ := m
              cases e with
              | none => exact ih skip _
              | some e => cases e <;> first | exact ih _ _ | exact Alone.ret ⟨rfl, rfl⟩

theorem alone_walk {S : Type} (E : Env) (cb : Str → Details → S → S × Option Err) (s : S) (g : Glob) (p : Str)
    (hn : AMap.Nodup g.w.files) (hnm : ∀ pkg, Named g.w pkg) :
    Alone t (walkC E g.w.here cb s p) g fun r g' => g' = g ∧ r = walk E (fun _ => g.w) cb s p := by
  unfold walkC keysC
  simp only [Code.bind]
  refine alone_range g hn fun l hl => ?_
  cases hp : E.parse g.w.here p with
  | error e =>
    simp only [walk, Mem.parse, hp]
    exact Alone.ret ⟨rfl, rfl⟩
  | ok pt =>
    rw [walk_cands E (fun _ => g.w) cb s hp]
    simp only
    rw [walkLoopC_filter, cands_of_perm hn (hnm pt.pkg) hl]
    exact alone_walkLoop cb pt g _ _ _

theorem alone_readdir (E : Env) (g : Glob) (id : Nat) (count : Int)
    (hn : AMap.Nodup g.w.files) (hnm : ∀ pkg, Named g.w pkg) :
    Alone t (readdirC E g.w.here id count) g fun r g' => g' = g ∧ r = readdir E g.w id count := by
  unfold readdirC readdir
  refine Alone.get ?_
  by_cases hp : (g.w.heap id).pkging = false
  · simp only [if_pos hp]; exact Alone.ret ⟨rfl, rfl⟩
  · simp only [if_neg hp]
    refine (alone_walk E _ _ g _ hn hnm).bind ?_
    rintro a g' ⟨rfl, rfl⟩
    generalize walk E (fun _ => g'.w) (readdirCb E g'.w.here (g'.w.heap id).path.str (g'.w.heap id).parent count) []
      (g'.w.heap id).path.str = m
    obtain ⟨infos, r⟩ := m
    cases r with
    | ok u => exact Alone.ret ⟨rfl, rfl⟩
    | panic => exact Alone.ret ⟨rfl, rfl⟩
    | err e =>
      simp only
      split
      · exact Alone.ret ⟨rfl, rfl⟩
      · split
        · exact Alone.ret ⟨rfl, rfl⟩
        · exact Alone.ret ⟨rfl, rfl⟩

theorem alone_ensure {α : Type} (g : Glob) (id : Nat) {k : FileObj → Code α} {Q : α → Glob → Prop}
    (h : Alone t (k (ensureReader (g.w.heap id))) { g with w := setObj g.w id (ensureReader (g.w.heap id)) } Q) :
    Alone t (ensureReaderC id k) g Q := by
  unfold ensureReaderC
  refine Alone.get ?_
  unfold ensureReader at h
  cases hr : (g.w.heap id).reader with
  | some r =>
    simp only [hr, setObj_same] at h
    simp only [reduceCtorEq, false_and, if_false]
    exact Alone.acc h
  | none =>
    simp only [hr] at h
    simp only [true_and]
    by_cases hb : (g.w.heap id).bytes.length > 0
    · rw [if_pos hb] at h ⊢
      refine Alone.acc (Alone.acc ?_)
      simp only [Acc.run, setObj_heap]
      exact h
    · rw [if_neg hb] at h ⊢
      simp only [setObj_same] at h
      exact Alone.acc h

theorem alone_read (g : Glob) (id n : Nat) :
    Alone t (readC id n) g fun r g' => (g'.w, r) = ((Mem.read g.w id n).1, (Mem.read g.w id n).2) := by
  unfold readC
  refine alone_ensure g id ?_
  simp only [Mem.read, readObj]
  cases (ensureReader (g.w.heap id)).reader with
  | none => exact Alone.ret rfl
  | some r =>
    obtain ⟨s, i⟩ := r
    refine Alone.acc (Alone.ret ?_)
    simp only [Acc.run, setObj_setObj, setObj_heap]

theorem alone_seek (g : Glob) (id : Nat) (off whence : Int) :
    Alone t (seekC id off whence) g fun r g' => (g'.w, r) = ((Mem.seek g.w id off whence).1, (Mem.seek g.w id off whence).2) := by
  unfold seekC
  refine alone_ensure g id ?_
  simp only [Mem.seek, seekObj]
  cases (ensureReader (g.w.heap id)).reader with
  | none => exact Alone.ret rfl
  | some r =>
    obtain ⟨s, i⟩ := r
    refine Alone.acc (Alone.ret ?_)
    simp only [Acc.run, setObj_setObj, setObj_heap]

theorem alone_write (g : Glob) (id : Nat) (b : Str) :
    Alone t (writeC id b) g fun r g' => (g'.w, r) = Mem.write g.w id b :=
  Alone.acc (Alone.acc (Alone.ret rfl))

theorem alone_close (g : Glob) (id : Nat) :
    Alone t (closeC id) g fun r g' => (g'.w, r) = Mem.close g.w id := by
  unfold closeC Mem.close closedC closeObj
  refine Alone.get ?_
  cases hw : (g.w.heap id).writer with
  | none =>
    refine Alone.acc (Alone.acc (Alone.ret ?_))
    simp only [Acc.run, setObj_setObj, setObj_heap, hw]
  | some b =>
    refine Alone.acc (Alone.acc ?_)
    simp only [Acc.run, setObj_heap]
    cases hi : (g.w.heap id).info with
    | none =>
      refine Alone.acc (Alone.acc (Alone.ret ?_))
      simp only [Acc.run, setObj_setObj, setObj_heap, Option.map_none, hw]
    | some d =>
      refine Alone.acc (Alone.acc (Alone.acc (Alone.acc (Alone.acc (Alone.ret ?_)))))
      simp only [Acc.run, setDetails, setObj_setObj, setObj_heap, Option.map_some, hw]
      rfl

theorem alone_fileOpen (E : Env) (g : Glob) (id : Nat) (name : Str) :
    Alone t (fileOpenC E g.w.here id name) g fun r g' => (g'.w, r) = fileOpen E g.w id name := by
  unfold fileOpenC fileOpen
  refine Alone.get ?_
  simp only
  cases E.parse (g.w.heap id).here name with
  | error e => exact Alone.ret rfl
  | ok pt0 =>
    simp only
    by_cases hown : pt0 = (g.w.heap id).path
    · simp only [if_pos hown]; exact Alone.ret rfl
    · simp only [if_neg hown]
      by_cases hp : (g.w.heap id).pkging = false
      · simp only [if_pos hp]; exact Alone.ret rfl
      · simp only [if_neg hp]
        refine (alone_open E g _).bind ?_
        intro a g' ha
        rw [← ha]
        cases a with
        | err e => exact Alone.ret rfl
        | panic => exact Alone.ret rfl
        | ok di =>
          simp only
          refine (alone_fileStat g' di).bind ?_
          rintro a g'' ⟨rfl, rfl⟩
          unfold Client.detailsOf
          cases (g''.w.heap di).info with
          | none => exact Alone.ret rfl
          | some d =>
            simp only
            by_cases hd : d.isDir = true
            · simp only [if_pos hd]
              exact Alone.acc (Alone.acc (Alone.ret rfl))
            · simp only [if_neg hd]
              exact Alone.ret rfl

theorem mkdirAllF_here (E : Env) : ∀ (fuel : Nat) (w : World) (p : Str) (perm : Nat),
    (mkdirAllF E fuel w p perm).1.here = w.here
  | 0, w, p, perm => rfl
  | fuel + 1, w, p, perm => by
    rw [mkdirAllF]
    cases Mem.parse E w p with
    | error e => rfl
    | ok pt =>
      simp only
      by_cases hd : (GoPath.split pt.name).1 ≠ GoPath.rootS
      · simp only [if_pos hd]
        have ih := mkdirAllF_here E fuel w (GoPath.split pt.name).1 perm
        revert ih
        generalize mkdirAllF E fuel w (GoPath.split pt.name).1 perm = m
        obtain ⟨w1, r⟩ := m
        intro ih
        cases r <;> exact ih
      · simp only [if_neg hd]
        rfl

theorem alone_mkdirAllF (E : Env) : ∀ (fuel : Nat) (g : Glob) (p : Str) (perm : Nat),
    Alone t (mkdirAllFC E g.w.here fuel p perm) g fun r g' => (g'.w, r) = mkdirAllF E fuel g.w p perm
  | 0, g, p, perm => Alone.ret rfl
  | fuel + 1, g, p, perm => by
    rw [mkdirAllFC, mkdirAllF]
    unfold Mem.parse
    cases E.parse g.w.here p with
    | error e => exact Alone.ret rfl
    | ok pt =>
      simp only
      have step : ∀ (g' : Glob) (r : Res Unit), g'.w.here = g.w.here → Alone t (match r with
          | .err e => .ret (Res.err e)
          | .panic => .ret Res.panic
          | .ok _ => .acc .now fun t => .acc (.alloc (dirObj g.w.here pt perm t)) fun id =>
              .acc (.store pt id) fun _ => .ret (Res.ok ())) g' fun r' g'' => (g''.w, r') = (match r with
          | .err e => (g'.w, Res.err e)
          | .panic => (g'.w, Res.panic)
          | .ok _ => (store (alloc g'.w (closeObj g'.w.now
              { here := g'.w.here, pkging := true, path := pt,
                info := some { isDir := true, name := (GoPath.split pt.name).2, mode := perm, modTime := g'.w.now, size := 0 },
                data := none, parent := Path.zero, writer := none, reader := none })).1 pt
              (alloc g'.w (closeObj g'.w.now
              { here := g'.w.here, pkging := true, path := pt,
                info := some { isDir := true, name := (GoPath.split pt.name).2, mode := perm, modTime := g'.w.now, size := 0 },
                data := none, parent := Path.zero, writer := none, reader := none })).2, Res.ok ())) := by
        intro g' r hh
        cases r with
        | err e => exact Alone.ret rfl
        | panic => exact Alone.ret rfl
        | ok u =>
          refine Alone.acc (Alone.acc (Alone.acc (Alone.ret ?_)))
          simp only [Acc.run, dirObj, hh]
          rfl
      by_cases hd : (GoPath.split pt.name).1 ≠ GoPath.rootS
      · simp only [if_pos hd]
        refine (alone_mkdirAllF E fuel g (GoPath.split pt.name).1 perm).bind ?_
        intro a g' ha
        rw [← ha]
        refine (step g' a ?_).mono ?_
        · have := congrArg (fun x => x.1.here) ha
          simp only at this
          rw [this]
          exact mkdirAllF_here E fuel g.w _ perm
        · intro r g'' h
          rw [h]
          cases a <;> rfl
      · simp only [if_neg hd]
        refine (step g (.ok ()) rfl).mono ?_
        intro r g'' h
        rw [h]

theorem alone_create (E : Env) (g : Glob) (name : Str) :
    Alone t (createC E g.w.here name) g fun r g' => (g'.w, r) = create E g.w name := by
  unfold createC create mkdirAllC mkdirAll
  refine (alone_mkdirAllF E _ g _ _).bind ?_
  intro a g' ha
  have hh : g'.w.here = g.w.here := by
    have := congrArg (fun x => x.1.here) ha
    simp only at this
    rw [this]
    exact mkdirAllF_here E _ g.w _ _
  rw [← ha]
  have rest : Alone t (match E.parse g.w.here name with
      | .error e => .ret (Res.err e)
      | .ok pt =>
        (infoC pt.pkg).bind fun
          | .err e => .ret (Res.err e)
          | .panic => .ret Res.panic
          | .ok her =>
            (if GoPath.dir pt.name ≠ GoPath.rootS then statC E g.w.here (GoPath.dir pt.name)
              else .ret (Res.ok ⟨[], 0, 0, 0, true⟩)).bind fun
              | .err e => .ret (Res.err e)
              | .panic => .ret Res.panic
              | .ok _ =>
                .acc .now fun t =>
                  .acc (.alloc (createdObj her pt name t)) fun id =>
                    .acc (.store pt id) fun _ => .ret (Res.ok id)) g' fun r g'' => (g''.w, r) = (match parse E g'.w name with
    | .error e => (g'.w, Res.err e)
    | .ok pt =>
      match info g'.w pt.pkg with
      | .err e => (g'.w, Res.err e)
      | .panic => (g'.w, Res.panic)
      | .ok her =>
        let dir := GoPath.dir pt.name
        let checked : Res Unit :=
          if dir ≠ GoPath.rootS then
            match stat E g'.w dir with
            | .ok _ => .ok ()
            | .err e => .err e
            | .panic => .panic
          else .ok ()
        match checked with
        | .err e => (g'.w, Res.err e)
        | .panic => (g'.w, Res.panic)
        | .ok _ =>
          let (w1, id) := alloc g'.w (createdObj her pt name g'.w.now)
          (store w1 pt id, Res.ok id)) := by
    unfold Mem.parse
    rw [hh]
    cases E.parse g.w.here name with
    | error e => exact Alone.ret rfl
    | ok pt =>
      simp only [infoC, Mem.info, Code.bind]
      refine Alone.acc ?_
      simp only [Acc.run]
      cases AMap.get g'.w.infos pt.pkg with
      | none => exact Alone.ret rfl
      | some her =>
        simp only [Code.bind]
        by_cases hd : GoPath.dir pt.name ≠ GoPath.rootS
        · simp only [if_pos hd]
          rw [← hh]
          refine (alone_stat E g' _).bind ?_
          rintro a g'' ⟨rfl, rfl⟩
          unfold statDetails
          cases hs : Mem.stat E g''.w (GoPath.dir pt.name) with
          | err e => exact Alone.ret rfl
          | panic => exact Alone.ret rfl
          | ok i =>
            have : ∃ d, (g''.w.heap i).info = some d := by
              unfold Mem.stat fileStat at hs
              split at hs
              · cases hs
              · split at hs
                · split at hs
                  · cases hs
                  · rename_i d hd
                    injection hs with hs
                    subst hs
                    exact ⟨d, hd⟩
                · cases hs
            obtain ⟨d, hd⟩ := this
            simp only [Client.detailsOf, hd]
            exact Alone.acc (Alone.acc (Alone.acc (Alone.ret rfl)))
        · simp only [if_neg hd]
          exact Alone.acc (Alone.acc (Alone.acc (Alone.ret rfl)))
  cases a with
  | panic => exact Alone.ret rfl
  | err e => exact rest
  | ok u => exact rest

theorem alone_remove (E : Env) (g : Glob) (name : Str) :
    Alone t (removeC E g.w.here name) g fun r g' => (g'.w, r) = remove E g.w name := by
  unfold removeC remove Mem.parse
  cases E.parse g.w.here name with
  | error e => exact Alone.ret rfl
  | ok pt =>
    simp only
    refine Alone.load ?_
    cases AMap.get g.w.files pt with
    | none => exact Alone.ret rfl
    | some i => exact Alone.acc (Alone.ret rfl)

/-- The same Pkger with other files. -/
def withFiles (w : World) (fs : AMap Path Nat) : World := { w with files := fs }

theorem alone_removeAll (E : Env) (g : Glob) (name : Str) :
    Alone t (removeAllC E g.w.here name) g fun r g' => (g'.w, r) = removeAll E g.w name := by
  unfold removeAllC removeAll Mem.parse
  cases E.parse g.w.here name with
  | error e => exact Alone.ret rfl
  | ok pt =>
    simp only
    let J : RangeSt → Glob → Prop := fun st g' =>
      st.start = AMap.keys g.w.files ∧ g.gone.length ≤ st.gone ∧
      (∀ p ∈ g'.gone.drop st.gone, p ∈ st.seen ∧ Str.hasPrefix p.name pt.name = true) ∧
      g'.w = withFiles g.w (g.w.files.filter fun e => !(decide (e.1 ∈ st.seen) && Str.hasPrefix e.1.name pt.name))
    refine ⟨J, fun st p g' => J st g', fun l g' =>
      g'.w = withFiles g.w (g.w.files.filter fun e => !(decide (e.1 ∈ l) && Str.hasPrefix e.1.name pt.name)) ∧
        ∀ p ∈ AMap.keys g.w.files, p ∈ l, ?_, ?_, ?_, ?_, ?_, ?_, ?_, ?_⟩
    · intro st g1 g2 h1 h2; exact h2 ▸ h1
    · intro st p g1 g2 h1 h2; exact h2 ▸ h1
    · intro l g1 g2 h1 h2; exact h2 ▸ h1
    · intro g' hg
      subst hg
      refine ⟨rfl, Nat.le_refl _, ?_, ?_⟩
      · intro p hp
        simp only [Option.getD_none, RangeSt.begin, List.drop_length] at hp
        cases hp
      · show g'.w = withFiles g'.w _
        rw [List.filter_eq_self.mpr (by intro e _; simp [RangeSt.begin])]
        rfl
    · exact fun _ _ _ h _ => h
    · rintro st p
      simp only
      by_cases hp : Str.hasPrefix p.name pt.name = true
      · rw [if_pos hp]
        refine (Safe.ex (ι := { g' // J st g' }) (P := fun x g' => g' = x.1) (c := one (.delete p))
          fun x => ?_).mono (fun g' h => ⟨⟨g', h⟩, rfl⟩) fun _ _ h => h
        obtain ⟨g', h1, h2, h3, h4⟩ := x
        refine Alone.acc (Alone.ret ?_)
        refine ⟨h1, h2, ?_, ?_⟩
        · intro q hq
          have : q ∈ g'.gone.drop st.gone ∨ q = p := by
            simp only [Acc.run] at hq
            rw [List.drop_append] at hq
            rcases List.mem_append.mp hq with hq | hq
            · exact Or.inl hq
            · have := List.mem_of_mem_drop hq
              simp at this
              exact Or.inr this
          rcases this with h | rfl
          · exact ⟨List.mem_append_left _ (h3 q h).1, (h3 q h).2⟩
          · exact ⟨by simp, hp⟩
        · simp only [Acc.run, h4, AMap.erase, withFiles, List.filter_filter]
          congr 1
          refine List.filter_congr ?_
          intro e _
          by_cases he : e.1 = p
          · simp [he, hp]
          · have : e.1 ∈ st.seen ++ [p] ↔ e.1 ∈ st.seen := by simp [he]
            simp [he]
      · rw [if_neg hp]
        rintro g' ⟨h1, h2, h3, h4⟩
        refine ⟨h1, h2, fun q hq => ⟨List.mem_append_left _ (h3 q hq).1, (h3 q hq).2⟩, ?_⟩
        rw [h4]
        unfold withFiles
        congr 1
        refine List.filter_congr ?_
        intro e _
        by_cases he : e.1 = p
        · have hp' : Str.hasPrefix p.name pt.name = false := by simpa using hp
          simp [he, hp']
        · simp [he]
    · rintro st g' ⟨h1, h2, h3, h4⟩ he
      refine ⟨h4, ?_⟩
      intro p hp
      rcases he p (h1 ▸ hp) with h | h
      · exact h
      · exact (h3 p h).1
    · intro l
      rintro g' ⟨h1, h2⟩
      rw [h1]
      unfold withFiles
      congr 2
      refine List.filter_congr ?_
      intro e he
      have : e.1 ∈ l := h2 _ (List.mem_map_of_mem (f := (·.1)) he)
      simp [this]

end Fine
end Verif
