import Verif.Model.Client
import Verif.Lemmas.Handle

/-! Reading programs do not notice where their file objects live, nor each other. -/

namespace Verif
namespace Client

open Mem

/-- A file object that reading, seeking and closing leave as it is: no bytes, no reader, no writer.  Handles of
directories are like this. -/
structure Inert (f : FileObj) : Prop where
  bytes : f.bytes = []
  reader : f.reader = none
  writer : f.writer = none

/-- A handle that a program may read through without changing what is stored. -/
structure Readable (w : World) (id : Nat) : Prop where
  lt : id < w.next
  writer : (w.heap id).writer = none
  free : (∀ q, AMap.get w.files q ≠ some id) ∨ Inert (w.heap id)

/-- Two Pkgers with the same stored files, and lists of handles with the same objects, shared in the same way. -/
structure Sim (w w' : World) (hs hs' : List Nat) : Prop where
  here : w'.here = w.here
  files : w'.files = w.files
  stored : ∀ q id, AMap.get w.files q = some id → w'.heap id = w.heap id ∧ id < w.next ∧ id < w'.next
  len : hs'.length = hs.length
  obj : ∀ (k a b : Nat), hs[k]? = some a → hs'[k]? = some b → w'.heap b = w.heap a
  shared : ∀ (k l a b a' b' : Nat), hs[k]? = some a → hs[l]? = some b → hs'[k]? = some a' → hs'[l]? = some b' →
    (a = b ↔ a' = b')
  readable : ∀ a ∈ hs, Readable w a
  readable' : ∀ a ∈ hs', Readable w' a

theorem Sim.refl {w : World} (hwf : WF w) {hs : List Nat} (h : ∀ a ∈ hs, Readable w a) : Sim w w hs hs where
  here := rfl
  files := rfl
  stored := fun q id hq => ⟨rfl, (hwf.bound q id hq).1, (hwf.bound q id hq).1⟩
  len := rfl
  obj := by intro k a b h1 h2; rw [h1] at h2; injection h2 with h2; rw [h2]
  shared := by
    intro k l a b a' b' h1 h2 h3 h4
    rw [h1] at h3; rw [h2] at h4
    injection h3 with h3; injection h4 with h4
    rw [h3, h4]
  readable := h
  readable' := h

/-- The other list has a handle wherever the one has. -/
theorem Sim.other {w w' : World} {hs hs' : List Nat} (h : Sim w w' hs hs') (k : Nat) :
    (hs[k]? = none ∧ hs'[k]? = none) ∨ ∃ a b, hs[k]? = some a ∧ hs'[k]? = some b := by
  by_cases hk : k < hs.length
  · right
    have hk' : k < hs'.length := by rw [h.len]; exact hk
    exact ⟨hs[k], hs'[k], List.getElem?_eq_getElem hk, List.getElem?_eq_getElem hk'⟩
  · left
    have hk' : ¬ k < hs'.length := by rw [h.len]; exact hk
    exact ⟨List.getElem?_eq_none (by omega), List.getElem?_eq_none (by omega)⟩

theorem readable_alloc {w : World} {id : Nat} (h : Readable w id) (f : FileObj) : Readable (alloc w f).1 id := by
  have hne : id ≠ w.next := Nat.ne_of_lt h.lt
  refine ⟨Nat.lt_succ_of_lt h.lt, ?_, ?_⟩
  · simp only [alloc]; rw [upd_ne _ _ hne]; exact h.writer
  · rcases h.free with h1 | h1
    · exact Or.inl h1
    · right; simp only [alloc]; rw [upd_ne _ _ hne]; exact h1

/-- A new object nobody holds. -/
theorem Sim.alloc {w w' : World} {hs hs' : List Nat} (h : Sim w w' hs hs') (f : FileObj) :
    Sim (alloc w f).1 (alloc w' f).1 hs hs' where
  here := h.here
  files := h.files
  stored := by
    intro q id hq
    obtain ⟨h1, h2, h3⟩ := h.stored q id hq
    refine ⟨?_, Nat.lt_succ_of_lt h2, Nat.lt_succ_of_lt h3⟩
    simp only [Mem.alloc]
    rw [upd_ne _ _ (Nat.ne_of_lt h2), upd_ne _ _ (Nat.ne_of_lt h3), h1]
  len := h.len
  obj := by
    intro k a b h1 h2
    have l1 := (h.readable a (List.mem_of_getElem? h1)).lt
    have l2 := (h.readable' b (List.mem_of_getElem? h2)).lt
    simp only [Mem.alloc]
    rw [upd_ne _ _ (Nat.ne_of_lt l1), upd_ne _ _ (Nat.ne_of_lt l2)]
    exact h.obj k a b h1 h2
  shared := h.shared
  readable := fun a ha => readable_alloc (h.readable a ha) f
  readable' := fun a ha => readable_alloc (h.readable' a ha) f

theorem getElem?_snoc {α : Type} {l : List α} {x y : α} {k : Nat} :
    (l ++ [x])[k]? = some y ↔ l[k]? = some y ∨ (k = l.length ∧ y = x) := by
  rcases Nat.lt_trichotomy k l.length with h | h | h
  · rw [List.getElem?_append_left h]
    constructor
    · exact Or.inl
    · rintro (h1 | ⟨h1, _⟩)
      · exact h1
      · omega
  · subst h
    rw [List.getElem?_append_right (Nat.le_refl _)]
    simp
    exact eq_comm
  · rw [List.getElem?_append_right (by omega), List.getElem?_eq_none (by simp; omega), List.getElem?_eq_none (by omega)]
    constructor
    · intro h; cases h
    · rintro (h1 | ⟨h1, _⟩)
      · cases h1
      · omega

/-- A handle more on both sides. -/
theorem Sim.snoc {w w' : World} {hs hs' : List Nat} (h : Sim w w' hs hs') {a b : Nat} (hab : w'.heap b = w.heap a)
    (hs1 : ∀ (k x y : Nat), hs[k]? = some x → hs'[k]? = some y → (x = a ↔ y = b)) (ha : Readable w a) (hb : Readable w' b) :
    Sim w w' (hs ++ [a]) (hs' ++ [b]) where
  here := h.here
  files := h.files
  stored := h.stored
  len := by simp [h.len]
  obj := by
    intro k x y h1 h2
    rw [getElem?_snoc] at h1 h2
    rcases h1 with h1 | ⟨h1, rfl⟩
    · rcases h2 with h2 | ⟨h2, rfl⟩
      · exact h.obj k x y h1 h2
      · have := List.getElem?_eq_some_iff.mp h1
        obtain ⟨hk, _⟩ := this
        have := h.len
        omega
    · rcases h2 with h2 | ⟨h2, rfl⟩
      · have := List.getElem?_eq_some_iff.mp h2
        obtain ⟨hk, _⟩ := this
        have := h.len
        omega
      · exact hab
  shared := by
    intro k l x y x' y' h1 h2 h3 h4
    have hl := h.len
    have lt : ∀ {m : List Nat} {j z : Nat}, m[j]? = some z → j < m.length := fun hh => (List.getElem?_eq_some_iff.mp hh).1
    rw [getElem?_snoc] at h1 h2 h3 h4
    rcases h1 with h1 | ⟨h1, rfl⟩ <;> rcases h2 with h2 | ⟨h2, rfl⟩ <;> rcases h3 with h3 | ⟨h3, rfl⟩ <;>
      rcases h4 with h4 | ⟨h4, rfl⟩
    any_goals (first
      | (have := lt h1; omega)
      | (have := lt h2; omega)
      | (have := lt h3; omega)
      | (have := lt h4; omega)
      | skip)
    · exact h.shared k l x y x' y' h1 h2 h3 h4
    · exact hs1 k x x' h1 h3
    · rw [eq_comm, hs1 l y y' h2 h4, eq_comm]
    · simp
  readable := by
    intro x hx
    rcases List.mem_append.mp hx with hx | hx
    · exact h.readable x hx
    · simp at hx; subst hx; exact ha
  readable' := by
    intro x hx
    rcases List.mem_append.mp hx with hx | hx
    · exact h.readable' x hx
    · simp at hx; subst hx; exact hb

theorem readable_set {w : World} {id a : Nat} (h : Readable w id) {f : FileObj} (hf : f.writer = none)
    (hi : Inert (w.heap a) → f = w.heap a) : Readable (setObj w a f) id := by
  by_cases he : id = a
  · subst he
    refine ⟨h.lt, by simpa [setObj] using hf, ?_⟩
    rcases h.free with h1 | h1
    · exact Or.inl h1
    · right; simp only [setObj, upd_self]; rw [hi h1]; exact h1
  · refine ⟨h.lt, by simp only [setObj]; rw [upd_ne _ _ he]; exact h.writer, ?_⟩
    rcases h.free with h1 | h1
    · exact Or.inl h1
    · right; simp only [setObj]; rw [upd_ne _ _ he]; exact h1

/-- The object of a handle changes on both sides. -/
theorem Sim.set {w w' : World} {hs hs' : List Nat} (h : Sim w w' hs hs') {k a b : Nat} (ha : hs[k]? = some a)
    (hb : hs'[k]? = some b) {f : FileObj} (hf : f.writer = none) (hi : Inert (w.heap a) → f = w.heap a) :
    Sim (setObj w a f) (setObj w' b f) hs hs' := by
  have hab := h.obj k a b ha hb
  have hi' : Inert (w'.heap b) → f = w'.heap b := by rw [hab]; exact hi
  refine ⟨h.here, h.files, ?_, h.len, ?_, h.shared, fun x hx => readable_set (h.readable x hx) hf hi,
    fun x hx => readable_set (h.readable' x hx) hf hi'⟩
  · intro q id hq
    obtain ⟨h1, h2, h3⟩ := h.stored q id hq
    refine ⟨?_, h2, h3⟩
    have e1 : id = a → f = w.heap id := by
      intro e
      subst e
      rcases (h.readable id (List.mem_of_getElem? ha)).free with h4 | h4
      · exact absurd hq (h4 q)
      · exact hi h4
    have e2 : id = b → f = w.heap id := by
      intro e
      subst e
      rcases (h.readable' id (List.mem_of_getElem? hb)).free with h4 | h4
      · exact absurd (h.files ▸ hq) (h4 q)
      · rw [hi' h4, h1]
    simp only [setObj]
    by_cases c1 : id = a
    · rw [c1, upd_self]
      by_cases c2 : a = b
      · rw [c2, upd_self]
      · rw [upd_ne _ _ c2, ← c1, h1]; exact (e1 c1).symm
    · rw [upd_ne _ _ c1]
      by_cases c2 : id = b
      · rw [← e2 c2, c2, upd_self]
      · rw [upd_ne _ _ c2, h1]
  · intro l x y h1 h2
    have := h.shared l k x a y b h1 ha h2 hb
    simp only [setObj]
    by_cases c : x = a
    · rw [c, this.mp c, upd_self, upd_self]
    · rw [upd_ne _ _ c, upd_ne _ _ (fun e => c (this.mpr e))]
      exact h.obj l x y h1 h2

/-! ### Objects under reading -/

theorem readObj_inert {f : FileObj} (h : Inert f) (n : Nat) : (readObj f n).1 = f := by
  have he : ensureReader f = f := by simp [ensureReader, h.reader, h.bytes]
  unfold readObj
  simp only [he, h.reader]

theorem seekObj_inert {f : FileObj} (h : Inert f) (off whence : Int) : (seekObj f off whence).1 = f := by
  have he : ensureReader f = f := by simp [ensureReader, h.reader, h.bytes]
  unfold seekObj
  simp only [he, h.reader]

theorem closeObj_noWriter {f : FileObj} (now : Int) (h : f.writer = none) : closeObj now f = { f with reader := none } := by
  unfold closeObj
  rw [h]

theorem close_noWriter {w : World} {id : Nat} (h : (w.heap id).writer = none) :
    Mem.close w id = (setObj w id { w.heap id with reader := none }, .ok ()) := by
  unfold Mem.close
  simp only [h, closeObj_noWriter w.now h]

theorem noReader_inert {f : FileObj} (h : Inert f) : { f with reader := none } = f := by
  obtain ⟨_, _, _, _, _, _, rd, _⟩ := f
  have := h.reader
  simp only at this
  subst this
  rfl

/-! ### Opening -/

theorem sim_openFile (E : Env) {w w' : World} {hs hs' : List Nat} (h : Sim w w' hs hs') (name : Str) :
    (Mem.openFile E w name = (w, (Mem.openFile E w name).2) ∧ Mem.openFile E w' name = (w', (Mem.openFile E w name).2) ∧
      ∀ id, (Mem.openFile E w name).2 ≠ .ok id) ∨
    ∃ f, f.writer = none ∧ Mem.openFile E w name = ((alloc w f).1, .ok w.next) ∧
      Mem.openFile E w' name = ((alloc w' f).1, .ok w'.next) := by
  unfold Mem.openFile Mem.parse
  rw [h.here, h.files]
  cases E.parse w.here name with
  | error e => left; simp
  | ok pt =>
    simp only
    cases hg : AMap.get w.files pt with
    | none => left; simp
    | some i =>
      have hh := (h.stored pt i hg).1
      simp only [hh]
      cases hi : (w.heap i).info with
      | none => left; simp
      | some d => exact Or.inr ⟨openedObj (w.heap i) d, rfl, rfl, rfl⟩

theorem readable_new {w : World} (f : FileObj) (hf : f.writer = none) (hb : ∀ q id, AMap.get w.files q = some id → id < w.next) :
    Readable (alloc w f).1 w.next := by
  refine ⟨Nat.lt_succ_self _, by simpa [alloc] using hf, Or.inl ?_⟩
  intro q hq
  have := hb q _ hq
  omega

/-- A new object and a handle of it. -/
theorem Sim.allocSnoc {w w' : World} {hs hs' : List Nat} (h : Sim w w' hs hs') {f : FileObj} (hf : f.writer = none) :
    Sim (Mem.alloc w f).1 (Mem.alloc w' f).1 (hs ++ [w.next]) (hs' ++ [w'.next]) := by
  refine (h.alloc f).snoc (by simp [Mem.alloc]) ?_ (readable_new f hf fun q id hq => (h.stored q id hq).2.1)
    (readable_new f hf fun q id hq => (h.stored q id (h.files ▸ hq)).2.2)
  intro k x y h1 h2
  have l1 := (h.readable x (List.mem_of_getElem? h1)).lt
  have l2 := (h.readable' y (List.mem_of_getElem? h2)).lt
  constructor <;> intro e <;> omega

theorem obtained_err {hs : List Nat} {w : World} {r : Res Nat} (h : ∀ id, r ≠ .ok id) :
    obtained hs (w, r) = (w, hs, .opened r) := by
  cases r with
  | ok id => exact absurd rfl (h id)
  | err e => rfl
  | panic => rfl

/-- The two Pkgers, the two lists of handles and the two answers after a call. -/
structure SimStep (x y : World × List Nat × Ans) : Prop where
  sim : Sim x.1 y.1 x.2.1 y.2.1
  ans : y.2.2 = x.2.2

theorem sim_obtained {w w' : World} {hs hs' : List Nat} (h : Sim w w' hs hs') {r : Res Nat} (hr : ∀ id, r ≠ .ok id) :
    SimStep (obtained hs (w, r)) (obtained hs' (w', r)) := by
  rw [obtained_err hr, obtained_err hr]
  exact ⟨h, rfl⟩

theorem sim_fileOpen (E : Env) {w w' : World} {hs hs' : List Nat} (h : Sim w w' hs hs') {k a b : Nat}
    (ha : hs[k]? = some a) (hb : hs'[k]? = some b) (name : Str) :
    SimStep (obtained hs (fileOpen E w a name)) (obtained hs' (fileOpen E w' b name)) := by
  have hab := h.obj k a b ha hb
  unfold fileOpen
  simp only [hab]
  cases E.parse (w.heap a).here name with
  | error e => exact sim_obtained h (by simp)
  | ok pt0 =>
    simp only
    by_cases hown : pt0 = (w.heap a).path
    · simp only [if_pos hown, obtained, h.len]
      refine ⟨h.snoc hab ?_ (h.readable a (List.mem_of_getElem? ha)) (h.readable' b (List.mem_of_getElem? hb)), rfl⟩
      intro l x y h1 h2
      exact h.shared l k x a y b h1 ha h2 hb
    · simp only [if_neg hown]
      by_cases hp : (w.heap a).pkging = false
      · simp only [if_pos hp]
        exact sim_obtained h (by simp)
      · simp only [if_neg hp]
        rcases sim_openFile E h (Path.str ⟨pt0.pkg, GoPath.join2 (w.heap a).path.name pt0.name⟩) with
          ⟨h1, h2, h3⟩ | ⟨f, hf, h1, h2⟩
        · rw [h1, h2]
          revert h3
          generalize (Mem.openFile E w (Path.str ⟨pt0.pkg, GoPath.join2 (w.heap a).path.name pt0.name⟩)).2 = r
          intro h3
          cases r with
          | ok id => exact absurd rfl (h3 id)
          | err e => exact sim_obtained h (by simp)
          | panic => exact sim_obtained h (by simp)
        · rw [h1, h2]
          have e1 : (alloc w f).1.heap w.next = f := by simp [alloc]
          have e2 : (alloc w' f).1.heap w'.next = f := by simp [alloc]
          simp only [e1, e2]
          cases hfi : f.info with
          | none => exact sim_obtained (h.alloc f) (by simp)
          | some d =>
            simp only
            by_cases hd : d.isDir = true
            · simp only [if_pos hd, obtained, h.len]
              exact ⟨(h.alloc f).allocSnoc rfl, rfl⟩
            · simp only [if_neg hd, obtained, h.len]
              exact ⟨h.allocSnoc hf, rfl⟩

/-! ### Walking -/

theorem sim_walkLoop {S : Type} {w w' : World} (hf : w'.files = w.files)
    (hs : ∀ q id, AMap.get w.files q = some id → w'.heap id = w.heap id)
    (cb : Str → Details → S → S × Option Err) (root : Path) : ∀ (ks : List Path) (skip : Str) (s : S),
    walkLoop (fun _ => w') cb root ks skip s = walkLoop (fun _ => w) cb root ks skip s
  | [], _, _ => rfl
  | k :: ks, skip, s => by
    simp only [walkLoop, hf]
    rw [sim_walkLoop hf hs cb root ks skip s]
    split
    · rfl
    · split
      · rfl
      · split
        · rfl
        · cases hg : AMap.get w.files k with
          | none => rfl
          | some id =>
            simp only [hs k id hg]
            cases (w.heap id).info with
            | none => rfl
            | some d =>
              simp only
              generalize cb k.str (newFileInfo d) s = m
              obtain ⟨s', e⟩ := m
              split
              · exact sim_walkLoop hf hs cb root ks skip _
              · exact sim_walkLoop hf hs cb root ks _ _
              · rfl

theorem sim_walk {S : Type} (E : Env) {w w' : World} {hs hs' : List Nat} (h : Sim w w' hs hs')
    (cb : Str → Details → S → S × Option Err) (s : S) (p : Str) :
    walk E (fun _ => w') cb s p = walk E (fun _ => w) cb s p := by
  unfold walk Mem.parse
  rw [h.here, h.files]
  cases E.parse w.here p with
  | error e => rfl
  | ok pt => exact sim_walkLoop h.files (fun q id hq => (h.stored q id hq).1) cb pt _ _ _

theorem sim_readdir (E : Env) {w w' : World} {hs hs' : List Nat} (h : Sim w w' hs hs') {a b : Nat}
    (hab : w'.heap b = w.heap a) (count : Int) : Mem.readdir E w' b count = Mem.readdir E w a count := by
  unfold Mem.readdir
  simp only [hab, h.here, sim_walk E h]

/-! ### All calls -/

/-- Every call gives the same answer on both sides, and leaves them alike. -/
theorem sim_call (E : Env) {w w' : World} {hs hs' : List Nat} (h : Sim w w' hs hs') (c : Call) :
    SimStep (call E w hs c) (call E w' hs' c) := by
  have handle : ∀ (k : Nat) (f g : Nat → World × List Nat × Ans),
      (∀ a b, hs[k]? = some a → hs'[k]? = some b → SimStep (f a) (g b)) →
      SimStep (withHandle w hs k f) (withHandle w' hs' k g) := by
    intro k f g hfg
    unfold withHandle
    rcases h.other k with ⟨h1, h2⟩ | ⟨a, b, h1, h2⟩
    · rw [h1, h2]; exact ⟨h, rfl⟩
    · rw [h1, h2]; exact hfg a b h1 h2
  cases c with
  | openFile name =>
    simp only [call]
    rcases sim_openFile E h name with ⟨h1, h2, h3⟩ | ⟨f, hf, h1, h2⟩
    · rw [h1, h2]; exact sim_obtained h h3
    · rw [h1, h2]
      simp only [obtained, h.len]
      exact ⟨h.allocSnoc hf, rfl⟩
  | openIn k name => exact handle k _ _ fun a b ha hb => sim_fileOpen E h ha hb name
  | stat name =>
    refine ⟨h, ?_⟩
    simp only [call, Mem.stat, Mem.parse, h.here, h.files]
    cases E.parse w.here name with
    | error e => rfl
    | ok pt =>
      simp only
      cases hg : AMap.get w.files pt with
      | none => rfl
      | some i =>
        simp only [fileStat, (h.stored pt i hg).1]
        cases hi : (w.heap i).info with
        | none => rfl
        | some d => simp only [detailsOf, (h.stored pt i hg).1]
  | fileStat k =>
    refine handle k _ _ fun a b ha hb => ⟨h, ?_⟩
    simp only [detailsOf, h.obj k a b ha hb]
  | readdir k count =>
    refine handle k _ _ fun a b ha hb => ⟨h, ?_⟩
    simp only [sim_readdir E h (h.obj k a b ha hb)]
  | read k n =>
    refine handle k _ _ fun a b ha hb => ?_
    have hw := (h.readable a (List.mem_of_getElem? ha)).writer
    simp only [Mem.read, h.obj k a b ha hb]
    exact ⟨h.set ha hb (by rw [(readObj_fields _ n).2.1]; exact hw) fun hi => readObj_inert hi n, rfl⟩
  | seek k off whence =>
    refine handle k _ _ fun a b ha hb => ?_
    have hw := (h.readable a (List.mem_of_getElem? ha)).writer
    simp only [Mem.seek, h.obj k a b ha hb]
    exact ⟨h.set ha hb (by rw [(seekObj_fields _ off whence).2.1]; exact hw) fun hi => seekObj_inert hi off whence, rfl⟩
  | close k =>
    refine handle k _ _ fun a b ha hb => ?_
    have hw := (h.readable a (List.mem_of_getElem? ha)).writer
    have hw' := (h.readable' b (List.mem_of_getElem? hb)).writer
    simp only [close_noWriter hw, close_noWriter hw', h.obj k a b ha hb]
    exact ⟨h.set ha hb hw fun hi => noReader_inert hi, rfl⟩
  | walk p =>
    refine ⟨h, ?_⟩
    simp only [call, sim_walk E h]
  | fileName k =>
    refine handle k _ _ fun a b ha hb => ⟨h, ?_⟩
    simp only [h.obj k a b ha hb]

/-- Every program gives the same result on both sides. -/
theorem sim_exec {α : Type} (E : Env) (p : Prog α) : ∀ {w w' : World} {hs hs' : List Nat}, Sim w w' hs hs' →
    (p.exec E w' hs').2.2 = (p.exec E w hs).2.2 ∧
      Sim (p.exec E w hs).1 (p.exec E w' hs').1 (p.exec E w hs).2.1 (p.exec E w' hs').2.1 := by
  induction p with
  | ret a => intro w w' hs hs' h; exact ⟨rfl, h⟩
  | step c k ih =>
    intro w w' hs hs' h
    obtain ⟨h1, h2⟩ := sim_call E h c
    simp only [Prog.exec]
    rw [h2]
    exact ih _ h1

/-! ### What a call changes -/

/-- From `w` with handles `hs`, a reading call has led to `w'` and `hs'`: stored files and all objects but those of
the handles are as before; handles are kept, and new ones are new objects or old handles. -/
structure Quiet (w w' : World) (hs hs' : List Nat) : Prop where
  here : w'.here = w.here
  files : w'.files = w.files
  infos : w'.infos = w.infos
  next : w.next ≤ w'.next
  heap : ∀ j, j < w.next → (j ∉ hs ∨ Inert (w.heap j)) → w'.heap j = w.heap j
  hsub : ∀ a ∈ hs', a ∈ hs ∨ (w.next ≤ a ∧ a < w'.next)
  keeps : hs <+: hs'

theorem Quiet.refl (w : World) (hs : List Nat) : Quiet w w hs hs :=
  ⟨rfl, rfl, rfl, Nat.le_refl _, fun _ _ _ => rfl, fun _ h => Or.inl h, List.prefix_rfl⟩

theorem Quiet.alloc (w : World) (hs : List Nat) (f : FileObj) : Quiet w (Mem.alloc w f).1 hs hs :=
  ⟨rfl, rfl, rfl, Nat.le_succ _, fun j hj _ => by simp only [Mem.alloc]; rw [upd_ne _ _ (Nat.ne_of_lt hj)],
    fun _ h => Or.inl h, List.prefix_rfl⟩

theorem Quiet.allocSnoc (w : World) (hs : List Nat) (f : FileObj) :
    Quiet w (Mem.alloc w f).1 hs (hs ++ [w.next]) := by
  refine { Quiet.alloc w hs f with hsub := ?_, keeps := List.prefix_append _ _ }
  intro a ha
  rcases List.mem_append.mp ha with ha | ha
  · exact Or.inl ha
  · simp at ha; subst ha; exact Or.inr ⟨Nat.le_refl _, Nat.lt_succ_self _⟩

theorem Quiet.trans {w w' w'' : World} {hs hs' hs'' : List Nat} (h : Quiet w w' hs hs') (h' : Quiet w' w'' hs' hs'') :
    Quiet w w'' hs hs'' where
  here := h'.here.trans h.here
  files := h'.files.trans h.files
  infos := h'.infos.trans h.infos
  next := Nat.le_trans h.next h'.next
  heap := by
    intro j hj hn
    have e1 := h.heap j hj hn
    rw [h'.heap j (Nat.lt_of_lt_of_le hj h.next), e1]
    rcases hn with hn | hn
    · left
      intro hm
      rcases h.hsub j hm with h1 | h1
      · exact hn h1
      · omega
    · right; rw [e1]; exact hn
  hsub := by
    intro a ha
    have := h.next
    have := h'.next
    rcases h'.hsub a ha with h1 | h1
    · rcases h.hsub a h1 with h2 | h2
      · exact Or.inl h2
      · exact Or.inr ⟨h2.1, by omega⟩
    · exact Or.inr ⟨by omega, h1.2⟩
  keeps := h.keeps.trans h'.keeps

theorem Quiet.set {w : World} {hs : List Nat} {k a : Nat} (ha : hs[k]? = some a) {f : FileObj}
    (hi : Inert (w.heap a) → f = w.heap a) : Quiet w (setObj w a f) hs hs := by
  refine ⟨rfl, rfl, rfl, Nat.le_refl _, ?_, fun _ h => Or.inl h, List.prefix_rfl⟩
  intro j _ hn
  simp only [setObj]
  by_cases hj : j = a
  · subst hj
    rcases hn with hn | hn
    · exact absurd (List.mem_of_getElem? ha) hn
    · rw [upd_self, hi hn]
  · rw [upd_ne _ _ hj]

theorem quiet_obtained_err {w : World} {hs : List Nat} {r : Res Nat} (hr : ∀ id, r ≠ .ok id) :
    Quiet w (obtained hs (w, r)).1 hs (obtained hs (w, r)).2.1 := by
  rw [obtained_err hr]
  exact Quiet.refl w hs

theorem openFile_cases (E : Env) (w : World) (name : Str) :
    (Mem.openFile E w name = (w, (Mem.openFile E w name).2) ∧ ∀ id, (Mem.openFile E w name).2 ≠ .ok id) ∨
    ∃ f, f.writer = none ∧ Mem.openFile E w name = ((alloc w f).1, .ok w.next) := by
  unfold Mem.openFile Mem.parse
  cases E.parse w.here name with
  | error e => left; simp
  | ok pt =>
    simp only
    cases hg : AMap.get w.files pt with
    | none => left; simp
    | some i =>
      simp only
      cases hi : (w.heap i).info with
      | none => left; simp
      | some d => exact Or.inr ⟨openedObj (w.heap i) d, rfl, rfl⟩

theorem quiet_call (E : Env) {w : World} {hs : List Nat} (hr : ∀ a ∈ hs, (w.heap a).writer = none) (c : Call) :
    Quiet w (call E w hs c).1 hs (call E w hs c).2.1 := by
  have handle : ∀ (k : Nat) (f : Nat → World × List Nat × Ans),
      (∀ a, hs[k]? = some a → Quiet w (f a).1 hs (f a).2.1) →
      Quiet w (withHandle w hs k f).1 hs (withHandle w hs k f).2.1 := by
    intro k f hf
    unfold withHandle
    cases hk : hs[k]? with
    | none => exact Quiet.refl w hs
    | some a => exact hf a hk
  cases c with
  | openFile name =>
    simp only [call]
    rcases openFile_cases E w name with ⟨h1, h2⟩ | ⟨f, _, h1⟩
    · rw [h1]; exact quiet_obtained_err h2
    · rw [h1]; exact Quiet.allocSnoc w hs f
  | openIn k name =>
    refine handle k _ fun a ha => ?_
    unfold fileOpen
    simp only
    cases E.parse (w.heap a).here name with
    | error e => exact quiet_obtained_err (by simp)
    | ok pt0 =>
      simp only
      by_cases hown : pt0 = (w.heap a).path
      · simp only [if_pos hown, obtained]
        refine { Quiet.refl w hs with hsub := ?_, keeps := List.prefix_append _ _ }
        intro x hx
        rcases List.mem_append.mp hx with hx | hx
        · exact Or.inl hx
        · simp at hx; subst hx; exact Or.inl (List.mem_of_getElem? ha)
      · simp only [if_neg hown]
        by_cases hp : (w.heap a).pkging = false
        · simp only [if_pos hp]
          exact quiet_obtained_err (by simp)
        · simp only [if_neg hp]
          rcases openFile_cases E w (Path.str ⟨pt0.pkg, GoPath.join2 (w.heap a).path.name pt0.name⟩) with
            ⟨h1, h3⟩ | ⟨f, hf, h1⟩
          · rw [h1]
            revert h3
            generalize (Mem.openFile E w (Path.str ⟨pt0.pkg, GoPath.join2 (w.heap a).path.name pt0.name⟩)).2 = r
            intro h3
            cases r with
            | ok id => exact absurd rfl (h3 id)
            | err e => exact quiet_obtained_err (by simp)
            | panic => exact quiet_obtained_err (by simp)
          · rw [h1]
            have e1 : (alloc w f).1.heap w.next = f := by simp [alloc]
            simp only [e1]
            cases hfi : f.info with
            | none =>
              simp only [obtained]
              exact Quiet.alloc w hs f
            | some d =>
              simp only
              by_cases hd : d.isDir = true
              · simp only [if_pos hd, obtained]
                exact (Quiet.alloc w hs f).trans (Quiet.allocSnoc _ hs _)
              · simp only [if_neg hd, obtained]
                exact Quiet.allocSnoc w hs f
  | stat name => exact Quiet.refl w hs
  | fileStat k => exact handle k _ fun a ha => Quiet.refl w hs
  | readdir k count => exact handle k _ fun a ha => Quiet.refl w hs
  | read k n => exact handle k _ fun a ha => Quiet.set ha fun hi => readObj_inert hi n
  | seek k off whence => exact handle k _ fun a ha => Quiet.set ha fun hi => seekObj_inert hi off whence
  | close k =>
    refine handle k _ fun a ha => ?_
    rw [close_noWriter (hr a (List.mem_of_getElem? ha))]
    exact Quiet.set ha fun hi => noReader_inert hi
  | walk p => exact Quiet.refl w hs
  | fileName k => exact handle k _ fun a ha => Quiet.refl w hs

/-- Somebody else's call. -/
theorem Sim.quiet {ws w w' : World} {hss hs gs gs' : List Nat} (h : Sim ws w hss hs) (hq : Quiet w w' gs gs')
    (hg : ∀ a ∈ gs, Readable w a) (hsep : ∀ a ∈ hs, a ∈ gs → Inert (w.heap a)) : Sim ws w' hss hs := by
  have hheap : ∀ a ∈ hs, w'.heap a = w.heap a := by
    intro a ha
    refine hq.heap a (h.readable' a ha).lt ?_
    by_cases hm : a ∈ gs
    · exact Or.inr (hsep a ha hm)
    · exact Or.inl hm
  refine ⟨hq.here.trans h.here, hq.files.trans h.files, ?_, h.len, ?_, h.shared, h.readable, ?_⟩
  · intro q id hid
    obtain ⟨h1, h2, h3⟩ := h.stored q id hid
    refine ⟨?_, h2, Nat.lt_of_lt_of_le h3 hq.next⟩
    rw [hq.heap id h3, h1]
    by_cases hm : id ∈ gs
    · right
      rcases (hg id hm).free with h4 | h4
      · exact absurd (h.files ▸ hid) (h4 q)
      · exact h4
    · exact Or.inl hm
  · intro k a b h1 h2
    rw [hheap b (List.mem_of_getElem? h2)]
    exact h.obj k a b h1 h2
  · intro a ha
    have hr := h.readable' a ha
    refine ⟨Nat.lt_of_lt_of_le hr.lt hq.next, by rw [hheap a ha]; exact hr.writer, ?_⟩
    rw [hq.files, hheap a ha]
    exact hr.free

end Client
end Verif
