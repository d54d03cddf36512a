import Verif.Lemmas.Rely
import Verif.Lemmas.Mem
import Verif.Spec.Touch

/-! Who may access which file object. -/

namespace Verif
namespace Fine

open Mem Code

variable {C : Path → Nat → Prop} {t u : Nat}

/-- Nobody else writes to the object: goroutine `t` made it, it was there from the beginning, or it is or was the entry of a
path that nobody creates. -/
def Seen (C : Path → Nat → Prop) (t id : Nat) (g : Glob) : Prop :=
  id < g.w.next ∧ (g.owner id = some t ∨ g.owner id = none ∨ ∃ q, (q, id) ∈ g.came ∧ ∀ u, ¬ C q u)

/-- Goroutine `t` made the object, and stored it, if at all, as a file it creates. -/
structure Has (C : Path → Nat → Prop) (t id : Nat) (g : Glob) : Prop where
  lt : id < g.w.next
  own : g.owner id = some t
  mine : ∀ q, (q, id) ∈ g.came → C q t

/-- Goroutine `t` may make the access. -/
def Acc.Permit (C : Path → Nat → Prop) (t : Nat) {β : Type} (a : Acc β) (g : Glob) : Prop :=
  match a.object with
  | some (id, true) => Has C t id g
  | some (id, false) => Seen C t id g
  | none => True

theorem Has.seen {id : Nat} {g : Glob} (h : Has C t id g) : Seen C t id g := ⟨h.lt, Or.inl h.own⟩

/-- Entries come from where they are said to: a path that somebody creates has been stored only by that goroutine. -/
structure RInv (C : Path → Nat → Prop) (g : Glob) : Prop where
  was : ∀ q id, AMap.get g.w.files q = some id → (q, id) ∈ g.came
  lt : ∀ e ∈ g.came, e.2 < g.w.next
  made : ∀ e ∈ g.came, g.owner e.2 = none ∨ ∃ u, g.owner e.2 = some u ∧ ∀ v, C e.1 v → v = u

/-- What goroutine `t` does. -/
structure RStep (C : Path → Nat → Prop) (t : Nat) (g g' : Glob) : Prop where
  next : g.w.next ≤ g'.w.next
  owner : ∀ id, id < g.w.next → g'.owner id = g.owner id
  came : ∀ e ∈ g.came, e ∈ g'.came
  stored : ∀ e ∈ g'.came, e ∈ g.came ∨ g'.owner e.2 = some t
  inv : RInv C g → RInv C g'

/-- What goroutine `t` relies on. -/
structure RRely (C : Path → Nat → Prop) (t : Nat) (g g' : Glob) : Prop where
  next : g.w.next ≤ g'.w.next
  owner : ∀ id, id < g.w.next → g'.owner id = g.owner id
  came : ∀ e ∈ g.came, e ∈ g'.came
  stored : ∀ e ∈ g'.came, e ∈ g.came ∨ g'.owner e.2 ≠ some t
  inv : RInv C g → RInv C g'

/-- What goroutine `t` does, with accesses it may make. -/
def RGuar (C : Path → Nat → Prop) (t : Nat) : Act := fun _ a g g' => a.Permit C t g ∧ RStep C t g g'

theorem RStep.rely {g g' : Glob} (h : t ≠ u) (hg : RStep C u g g') : RRely C t g g' :=
  ⟨hg.next, hg.owner, hg.came, fun e he => (hg.stored e he).imp (fun h => h) fun h1 h2 => by
    rw [h1] at h2; injection h2 with e; exact h e.symm, hg.inv⟩

theorem RRely.ticks {g g' : Glob} (h : Ticks g g') : RRely C t g g' := by
  obtain ⟨now, rfl⟩ := h
  exact ⟨Nat.le_refl _, fun _ _ => rfl, fun _ h => h, fun _ h => Or.inl h, fun h => ⟨h.was, h.lt, h.made⟩⟩

theorem RStep.refl (g : Glob) : RStep C t g g :=
  ⟨Nat.le_refl _, fun _ _ => rfl, fun _ h => h, fun _ h => Or.inl h, fun h => h⟩

theorem Seen.stable (id : Nat) : Stable (RRely C t) (Seen C t id) := by
  rintro g g' ⟨h1, h2⟩ hr
  refine ⟨Nat.lt_of_lt_of_le h1 hr.next, ?_⟩
  rw [hr.owner id h1]
  exact h2.imp (fun h => h) fun h => h.imp (fun h => h) fun ⟨q, h3, h4⟩ => ⟨q, hr.came _ h3, h4⟩

theorem Has.stable (id : Nat) : Stable (RRely C t) (Has C t id) := by
  intro g g' h hr
  have ho : g'.owner id = some t := (hr.owner id h.lt).trans h.own
  exact ⟨Nat.lt_of_lt_of_le h.lt hr.next, ho, fun q hq => (hr.stored _ hq).elim (h.mine q) fun h' => absurd ho h'⟩

/-- The handles of goroutine `t`. -/
structure RHold (C : Path → Nat → Prop) (t : Nat) (hs : List Nat) (g : Glob) : Prop where
  inv : RInv C g
  has : ∀ a ∈ hs, Has C t a g

theorem RHold.stable (hs : List Nat) : Stable (RRely C t) (RHold C t hs) := fun g g' h hr =>
  ⟨hr.inv h.inv, fun a ha => Has.stable a g g' (h.has a ha) hr⟩

theorem RHold.sub {hs hs' : List Nat} {g : Glob} (h : RHold C t hs g) (hsub : ∀ a ∈ hs', a ∈ hs) : RHold C t hs' g :=
  ⟨h.inv, fun a ha => h.has a (hsub a ha)⟩

/-- An object just made. -/
structure RNew (C : Path → Nat → Prop) (t : Nat) (hs : List Nat) (id : Nat) (g : Glob) : Prop where
  hold : RHold C t (id :: hs) g
  new : id ∉ hs
  fresh : ∀ q, (q, id) ∉ g.came

theorem RNew.stable (hs : List Nat) (id : Nat) : Stable (RRely C t) (RNew C t hs id) := by
  intro g g' h hr
  have hid := h.hold.has id (List.mem_cons_self ..)
  exact ⟨RHold.stable _ g g' h.hold hr, h.new, fun q hq =>
    (hr.stored _ hq).elim (h.fresh q) fun h' => h' ((hr.owner id hid.lt).trans hid.own)⟩

abbrev Fair (C : Path → Nat → Prop) (t : Nat) {α : Type} (c : Code α) (P : Glob → Prop) (Q : α → Glob → Prop) : Prop :=
  Safe t (RRely C t) (RGuar C t) c P Q

variable {hs : List Nat} {α β : Type} {Q : α → Glob → Prop}

/-- An access that changes nothing. -/
theorem fair_look {a : Acc β} (ha : ∀ g, (a.run t g).1 = g) {P : Glob → Prop} (hP : Stable (RRely C t) P)
    (hp : ∀ g, P g → a.Permit C t g) {k : β → Code α} (h : ∀ r, Fair C t (k r) P Q) : Fair C t (.acc a k) P Q :=
  ⟨fun _ => P, fun _ => hP, fun g hg => by rw [ha]; exact ⟨⟨hp g hg, RStep.refl g⟩, hg⟩, h⟩

theorem fair_now {k : Int → Code α} (h : ∀ r, Fair C t (k r) (RHold C t hs) Q) :
    Fair C t (.acc .now k) (RHold C t hs) Q := fair_look (a := .now) (fun _ => rfl) (RHold.stable hs) (fun _ _ => by trivial) h

theorem fair_info {p : Str} {k : Option Info → Code α} (h : ∀ r, Fair C t (k r) (RHold C t hs) Q) :
    Fair C t (.acc (.loadInfo p) k) (RHold C t hs) Q := fair_look (a := (.loadInfo p)) (fun _ => rfl) (RHold.stable hs) (fun _ _ => by trivial) h

theorem fair_load {q : Path} {k : Option Nat → Code α} (h : ∀ r, Fair C t (k r) (RHold C t hs) Q) :
    Fair C t (.acc (.load q) k) (RHold C t hs) Q := fair_look (a := (.load q)) (fun _ => rfl) (RHold.stable hs) (fun _ _ => by trivial) h

/-- Looking at one of the goroutine's own objects. -/
theorem fair_get {id : Nat} (hid : id ∈ hs) {k : FileObj → Code α} (h : ∀ f, Fair C t (k f) (RHold C t hs) Q) :
    Fair C t (.acc (.get id) k) (RHold C t hs) Q :=
  fair_look (a := .get id) (fun _ => rfl) (RHold.stable hs) (fun _ hg => (hg.has id hid).seen) h

theorem seen_hold_stable (id : Nat) : Stable (RRely C t) (fun g => Seen C t id g ∧ RHold C t hs g) := fun g g' h hr =>
  ⟨Seen.stable id g g' h.1 hr, RHold.stable hs g g' h.2 hr⟩

/-- Looking at an object seen. -/
theorem fair_see {id : Nat} {k : FileObj → Code α} (h : ∀ f, Fair C t (k f) (fun g => Seen C t id g ∧ RHold C t hs g) Q) :
    Fair C t (.acc (.get id) k) (fun g => Seen C t id g ∧ RHold C t hs g) Q :=
  fair_look (a := .get id) (fun _ => rfl) (seen_hold_stable id) (fun _ hg => hg.1) h

/-- Finding an entry at a path that nobody else creates. -/
theorem fair_find {q : Path} (hq : ∀ v, C q v → v = t) {k : Option Nat → Code α}
    (hn : Fair C t (k none) (RHold C t hs) Q)
    (hy : ∀ id, Fair C t (k (some id)) (fun g => Seen C t id g ∧ RHold C t hs g) Q) :
    Fair C t (.acc (.load q) k) (RHold C t hs) Q := by
  refine ⟨fun r g => (∀ id, r = some id → Seen C t id g) ∧ RHold C t hs g, ?_, ?_, ?_⟩
  · exact fun r g g' h hr => ⟨fun id e => Seen.stable id g g' (h.1 id e) hr, RHold.stable hs g g' h.2 hr⟩
  · intro g hg
    refine ⟨⟨trivial, RStep.refl g⟩, fun id e => ?_, hg⟩
    have hc := hg.inv.was q id e
    refine ⟨hg.inv.lt _ hc, ?_⟩
    rcases hg.inv.made _ hc with h | ⟨u, h1, h2⟩
    · exact Or.inr (Or.inl h)
    · by_cases hu : u = t
      · exact Or.inl (hu ▸ h1)
      · exact Or.inr (Or.inr ⟨q, hc, fun v hv => hu ((h2 v hv).symm.trans (hq v hv))⟩)
  · intro r
    cases r with
    | none => exact hn.mono (fun _ h => h.2) fun _ _ h => h
    | some id => exact (hy id).mono (fun _ h => ⟨h.1 id rfl, h.2⟩) fun _ _ h => h

/-- Writing to one of the goroutine's own objects. -/
theorem fair_set {id : Nat} (hid : id ∈ hs) {a : Acc Unit} (ho : a.object = some (id, true)) {φ : FileObj → FileObj}
    (ha : ∀ g : Glob, (a.run t g).1 = { g with w := setObj g.w id (φ (g.w.heap id)) }) {k : Unit → Code α}
    (h : Fair C t (k ()) (RHold C t hs) Q) : Fair C t (.acc a k) (RHold C t hs) Q := by
  refine Safe.det () _ (RHold.stable hs) ?_ h
  intro g hg
  rw [ha]
  refine ⟨⟨?_, Nat.le_refl _, fun _ _ => rfl, fun _ h => h, fun _ h => Or.inl h, fun h => ⟨h.was, h.lt, h.made⟩⟩, rfl,
    ⟨hg.inv.was, hg.inv.lt, hg.inv.made⟩, fun a ha => ⟨(hg.has a ha).lt, (hg.has a ha).own, (hg.has a ha).mine⟩⟩
  unfold Acc.Permit
  rw [ho]
  exact hg.has id hid

/-- Making an object. -/
theorem fair_alloc {f : FileObj} {k : Nat → Code α} (h : ∀ id, Fair C t (k id) (RNew C t hs id) Q) :
    Fair C t (.acc (.alloc f) k) (RHold C t hs) Q := by
  refine ⟨fun id => RNew C t hs id, fun id => RNew.stable hs id, ?_, h⟩
  intro g hg
  have hown : ∀ a, a < g.w.next → (upd g.owner g.w.next (some t)) a = g.owner a := fun a h => upd_ne _ _ (Nat.ne_of_lt h)
  have hI : RInv C (Acc.run t (.alloc f) g).1 := by
    refine ⟨hg.inv.was, fun e he => Nat.lt_succ_of_lt (hg.inv.lt e he), fun e he => ?_⟩
    have := hg.inv.made e he
    rw [← hown e.2 (hg.inv.lt e he)] at this
    exact this
  refine ⟨⟨trivial, Nat.le_succ _, hown, fun _ h => h, fun _ h => Or.inl h, fun _ => hI⟩, ⟨hI, ?_⟩,
    fun e => Nat.lt_irrefl _ (hg.has _ e).lt, fun q hq => Nat.lt_irrefl _ (hg.inv.lt _ hq)⟩
  intro a ha
  rcases List.mem_cons.mp ha with rfl | ha
  · exact ⟨Nat.lt_succ_self _, upd_self .., fun q hq => absurd (hg.inv.lt _ hq) (Nat.lt_irrefl _)⟩
  · have := hg.has a ha
    exact ⟨Nat.lt_succ_of_lt this.lt, (hown a this.lt).trans this.own, this.mine⟩

theorem store_inv {g : Glob} {id : Nat} {q : Path} (hI : RInv C g) (hid : Has C t id g) (hq : ∀ v, C q v → v = t) :
    RInv C { g with w := Mem.store g.w q id, came := g.came ++ [(q, id)] } := by
  have hcame : ∀ e, e ∈ g.came ++ [(q, id)] → e ∈ g.came ∨ e = (q, id) := by
    intro e he
    rcases List.mem_append.mp he with h | h
    · exact Or.inl h
    · simp at h; exact Or.inr h
  refine ⟨?_, ?_, ?_⟩
  · intro q' a h
    have h : AMap.get (AMap.set g.w.files q id) q' = some a := h
    rw [AMap.get_set] at h
    by_cases he : q' = q
    · rw [if_pos he] at h
      injection h with h
      subst h; subst he
      exact List.mem_append_right _ (List.mem_singleton_self _)
    · rw [if_neg he] at h
      exact List.mem_append_left _ (hI.was q' a h)
  · intro e h
    rcases hcame e h with h | rfl
    · exact hI.lt e h
    · exact hid.lt
  · intro e h
    rcases hcame e h with h | rfl
    · exact hI.made e h
    · exact Or.inr ⟨t, hid.own, hq⟩

theorem store_step {g : Glob} {id : Nat} {q : Path} (hI : RInv C g) (hid : Has C t id g) (hq : ∀ v, C q v → v = t) :
    RStep C t g { g with w := Mem.store g.w q id, came := g.came ++ [(q, id)] } := by
  refine ⟨Nat.le_refl _, fun _ _ => rfl, fun e h => List.mem_append_left _ h, ?_, fun _ => store_inv hI hid hq⟩
  intro e h
  rcases List.mem_append.mp h with h | h
  · exact Or.inl h
  · simp at h
    subst h
    exact Or.inr hid.own

/-- Storing an object that one then forgets. -/
theorem fair_store_drop {id : Nat} {q : Path} (hq : ∀ v, C q v → v = t) {k : Unit → Code α}
    (h : Fair C t (k ()) (RHold C t hs) Q) : Fair C t (.acc (.store q id) k) (RNew C t hs id) Q := by
  refine Safe.det () _ (RHold.stable hs) ?_ h
  intro g hg
  have hid := hg.hold.has id (List.mem_cons_self ..)
  refine ⟨⟨trivial, store_step hg.hold.inv hid hq⟩, rfl, store_inv hg.hold.inv hid hq, ?_⟩
  intro a ha
  have hh := hg.hold.has a (List.mem_cons_of_mem _ ha)
  refine ⟨hh.lt, hh.own, fun q' e => ?_⟩
  rcases List.mem_append.mp e with e | e
  · exact hh.mine q' e
  · simp at e
    exact absurd (e.2 ▸ ha) hg.new

/-- Storing an object as a file that the goroutine creates. -/
theorem fair_store_keep {id : Nat} {q : Path} (hq : ∀ v, C q v → v = t) (hC : C q t) {k : Unit → Code α}
    (h : Fair C t (k ()) (RHold C t (id :: hs)) Q) : Fair C t (.acc (.store q id) k) (RNew C t hs id) Q := by
  refine Safe.det () _ (RHold.stable _) ?_ h
  intro g hg
  have hid := hg.hold.has id (List.mem_cons_self ..)
  refine ⟨⟨trivial, store_step hg.hold.inv hid hq⟩, rfl, store_inv hg.hold.inv hid hq, ?_⟩
  intro a ha
  have hh := hg.hold.has a ha
  refine ⟨hh.lt, hh.own, fun q' e => ?_⟩
  rcases List.mem_append.mp e with e | e
  · exact hh.mine q' e
  · simp at e
    rw [e.1]
    exact hC

theorem fair_delete {q : Path} {k : Unit → Code α} (h : Fair C t (k ()) (RHold C t hs) Q) :
    Fair C t (.acc (.delete q) k) (RHold C t hs) Q := by
  refine Safe.det () _ (RHold.stable hs) ?_ h
  intro g hg
  have hI : RInv C (Acc.run t (.delete q) g).1 := by
    refine ⟨fun q' a h => hg.inv.was q' a ?_, hg.inv.lt, hg.inv.made⟩
    have h : AMap.get (AMap.erase g.w.files q) q' = some a := h
    rw [AMap.get_erase] at h
    by_cases he : q' = q
    · rw [if_pos he] at h; cases h
    · rw [if_neg he] at h; exact h
  exact ⟨⟨trivial, Nat.le_refl _, fun _ _ => rfl, fun _ h => h, fun _ h => Or.inl h, fun _ => hI⟩, rfl, hI,
    fun a ha => ⟨(hg.has a ha).lt, (hg.has a ha).own, (hg.has a ha).mine⟩⟩

/-! ### The methods -/

/-- After a call that may have returned a handle. -/
def RGot (C : Path → Nat → Prop) (t : Nat) (hs : List Nat) : Res Nat → Glob → Prop
  | .ok id, g => RHold C t (id :: hs) g
  | .err _, g => RHold C t hs g
  | .panic, g => RHold C t hs g

theorem fair_open (E : Env) (here : Info) (name : Str) (hl : ∀ q, E.parse here name = .ok q → ∀ v, C q v → v = t) :
    Fair C t (openC E here name) (RHold C t hs) (RGot C t hs) := by
  unfold openC
  cases hp : E.parse here name with
  | error e => exact fun g h => h
  | ok pt =>
    refine fair_find (hl pt hp) (fun g h => h) fun i => ?_
    refine fair_see fun f => ?_
    cases f.info with
    | none => exact fun g h => h.2
    | some d =>
      refine fair_see fun f' => ?_
      have last : ∀ f0, Fair C t (acc (.alloc f0) fun id => ret (Res.ok id)) (RHold C t hs) (RGot C t hs) := fun f0 =>
        fair_alloc fun id g h => h.hold
      exact (last _).mono (fun _ h => h.2) fun _ _ h => h

theorem fair_seeStat (id : Nat) :
    Fair C t (fileStatC id) (fun g => Seen C t id g ∧ RHold C t hs g) (fun _ => RHold C t hs) := by
  unfold fileStatC
  refine fair_see fun f => ?_
  cases f.info with
  | none => exact fun g h => h.2
  | some d =>
    refine fair_see fun f' => ?_
    cases f'.info with
    | none => exact fun g h => h.2
    | some d' => exact fun g h => h.2

theorem fair_fileStat {id : Nat} (hid : id ∈ hs) : Fair C t (fileStatC id) (RHold C t hs) (fun _ => RHold C t hs) :=
  (fair_seeStat id).mono (fun _ h => ⟨(h.has id hid).seen, h⟩) fun _ _ h => h

theorem fair_fileName {id : Nat} (hid : id ∈ hs) : Fair C t (fileNameC id) (RHold C t hs) (fun _ => RHold C t hs) := by
  have : Fair C t (fileNameC id) (fun g => Seen C t id g ∧ RHold C t hs g) (fun _ => RHold C t hs) := by
    unfold fileNameC
    exact fair_see fun f g h => h.2
  exact this.mono (fun _ h => ⟨(h.has id hid).seen, h⟩) fun _ _ h => h

theorem fair_stat (E : Env) (here : Info) (name : Str) (hl : ∀ q, E.parse here name = .ok q → ∀ v, C q v → v = t) :
    Fair C t (statC E here name) (RHold C t hs) (fun _ => RHold C t hs) := by
  unfold statC
  cases hp : E.parse here name with
  | error e => exact fun g h => h
  | ok pt => exact fair_find (hl pt hp) (fun g h => h) fun i => fair_seeStat i

theorem fair_walkLoop {T : Type} (cb : Str → Details → T → T × Option Err) (root : Path)
    (hl : ∀ q, q.pkg = root.pkg → Str.hasPrefix q.name root.name = true → ∀ v, C q v → v = t) (ks : List Path) :
    ∀ (skip : Str) (s : T), Fair C t (walkLoopC cb root ks skip s) (RHold C t hs) (fun _ => RHold C t hs) := by
  induction ks with
  | nil => exact fun skip s g h => h
  | cons k ks ih =>
    intro skip s
    simp only [walkLoopC]
    by_cases h1 : k.pkg ≠ root.pkg
    · rw [if_pos h1]; exact ih _ _
    · rw [if_neg h1]
      by_cases h2 : Str.hasPrefix k.name root.name = false
      · rw [if_pos h2]; exact ih _ _
      · rw [if_neg h2]
        by_cases h3 : Str.hasPrefix k.name skip = true
        · rw [if_pos h3]; exact ih _ _
        · rw [if_neg h3]
          refine fair_find (hl k (Classical.byContradiction fun e => h1 e) (by simpa using h2)) (fun g h => h) fun id => ?_
          refine (fair_seeStat id).bind fun r => ?_
          cases r with
          | err e => exact fun g h => h
          | panic => exact fun g h => h
          | ok d =>
            simp only
            generalize cb k.str (newFileInfo d) s = m
            obtain ⟨s', e⟩ := m
            cases e with
            | none => exact ih _ _
            | some e => cases e <;> first | exact ih _ _ | exact fun g h => h

theorem fair_range {body : Path → Code Unit} {k : List Path → Code α}
    (hb : ∀ q, Fair C t (body q) (RHold C t hs) (fun _ => RHold C t hs)) (hk : ∀ l, Fair C t (k l) (RHold C t hs) Q) :
    Fair C t (.range none body k) (RHold C t hs) Q :=
  ⟨fun _ => RHold C t hs, fun _ _ => RHold C t hs, fun _ => RHold C t hs, fun _ => RHold.stable hs,
    fun _ _ => RHold.stable hs, fun _ => RHold.stable hs, fun _ h => h, fun _ _ _ h _ => h, fun _ q => hb q,
    fun _ _ h _ => h, hk⟩

theorem fair_walk {T : Type} (E : Env) (here : Info) (cb : Str → Details → T → T × Option Err) (s : T) (name : Str)
    (hl : ∀ root, E.parse here name = .ok root → ∀ q, q.pkg = root.pkg → Str.hasPrefix q.name root.name = true →
      ∀ v, C q v → v = t) :
    Fair C t (walkC E here cb s name) (RHold C t hs) (fun _ => RHold C t hs) := by
  unfold walkC keysC
  simp only [Code.bind]
  refine fair_range (fun q g h => h) fun l => ?_
  cases hp : E.parse here name with
  | error e => exact fun g h => h
  | ok pt => exact fair_walkLoop cb pt (hl pt hp) _ _ _

theorem fair_readdir (E : Env) (here : Info) {id : Nat} (hid : id ∈ hs) (count : Int) (hl : ∀ q v, C q v → v = t) :
    Fair C t (readdirC E here id count) (RHold C t hs) (fun _ => RHold C t hs) := by
  unfold readdirC
  refine fair_get hid fun f => ?_
  by_cases hp : f.pkging = false
  · rw [if_pos hp]; exact fun g h => h
  · rw [if_neg hp]
    refine (fair_walk E here _ _ _ fun _ _ q _ _ => hl q).bind fun r => ?_
    obtain ⟨infos, r⟩ := r
    cases r with
    | ok _ => exact fun g h => h
    | panic => exact fun g h => h
    | err e =>
      simp only
      by_cases h1 : e.isPathError
      · rw [if_pos h1]; exact fun g h => h
      · rw [if_neg h1]
        by_cases h2 : e ≠ .eof
        · rw [if_pos h2]; exact fun g h => h
        · rw [if_neg h2]; exact fun g h => h

theorem fair_ensure {id : Nat} (hid : id ∈ hs) {k : FileObj → Code α} (h : ∀ f, Fair C t (k f) (RHold C t hs) Q) :
    Fair C t (ensureReaderC id k) (RHold C t hs) Q := by
  unfold ensureReaderC
  refine fair_get hid fun f => ?_
  by_cases hc : f.reader = none ∧ f.bytes.length > 0
  · rw [if_pos hc]
    exact fair_set hid rfl (φ := fun f' => { f' with reader := some (f.bytes, 0) }) (fun _ => rfl) (fair_get hid h)
  · rw [if_neg hc]
    exact fair_get hid h

theorem fair_read {id : Nat} (hid : id ∈ hs) (n : Nat) :
    Fair C t (readC id n) (RHold C t hs) (fun _ => RHold C t hs) := by
  unfold readC
  refine fair_ensure hid fun f => ?_
  cases f.reader with
  | none => exact fun g h => h
  | some r =>
    obtain ⟨s, i⟩ := r
    exact fair_set hid rfl (φ := fun f' => { f' with reader := some (s, (readerRead s i n).1) }) (fun _ => rfl) fun g h => h

theorem fair_seek {id : Nat} (hid : id ∈ hs) (off whence : Int) :
    Fair C t (seekC id off whence) (RHold C t hs) (fun _ => RHold C t hs) := by
  unfold seekC
  refine fair_ensure hid fun f => ?_
  cases f.reader with
  | none => exact fun g h => h
  | some r =>
    obtain ⟨s, i⟩ := r
    exact fair_set hid rfl (φ := fun f' => { f' with reader := some (s, (readerSeek s i off whence).1) }) (fun _ => rfl)
      fun g h => h

theorem fair_write {id : Nat} (hid : id ∈ hs) (b : Str) :
    Fair C t (writeC id b) (RHold C t hs) (fun _ => RHold C t hs) := by
  unfold writeC
  exact fair_get hid fun f => fair_set hid rfl (φ := fun f' => { f' with writer := some (f.writer.getD [] ++ b) })
    (fun _ => rfl) fun g h => h

theorem fair_closed {id : Nat} (hid : id ∈ hs) (a : β) :
    Fair C t (closedC id a) (RHold C t hs) (fun _ => RHold C t hs) :=
  fair_set hid rfl (φ := fun f' => { f' with reader := none }) (fun _ => rfl)
    (fair_set hid rfl (φ := fun f' => { f' with writer := none }) (fun _ => rfl) fun g h => h)

theorem fair_close {id : Nat} (hid : id ∈ hs) : Fair C t (closeC id) (RHold C t hs) (fun _ => RHold C t hs) := by
  unfold closeC
  refine fair_get hid fun f => ?_
  cases f.writer with
  | none => exact fair_closed hid _
  | some b =>
    refine fair_set hid rfl (φ := fun f' => { f' with data := bufBytes b }) (fun _ => rfl) ?_
    refine fair_get hid fun f' => ?_
    cases f'.info with
    | none => exact fair_closed hid _
    | some d =>
      refine fair_set hid rfl (φ := fun f' => { f' with info := f'.info.map fun d => { d with size := b.length } })
        (fun _ => rfl) ?_
      refine fair_now fun now => ?_
      exact fair_set hid rfl (φ := fun f' => { f' with info := f'.info.map fun d => { d with modTime := now } })
        (fun _ => rfl) (fair_closed hid _)

theorem fair_fileOpen (E : Env) (here : Info) {id : Nat} (hid : id ∈ hs) (name : Str) (hl : ∀ q v, C q v → v = t) :
    Fair C t (fileOpenC E here id name) (RHold C t hs) (RGot C t hs) := by
  unfold fileOpenC
  refine fair_get hid fun f => ?_
  cases E.parse f.here name with
  | error e => exact fun g h => h
  | ok pt0 =>
    simp only
    by_cases h1 : pt0 = f.path
    · rw [if_pos h1]
      refine fun g h => h.sub fun a ha => ?_
      rcases List.mem_cons.mp ha with rfl | ha
      · exact hid
      · exact ha
    · rw [if_neg h1]
      by_cases h2 : f.pkging = false
      · rw [if_pos h2]; exact fun g h => h
      · rw [if_neg h2]
        refine (fair_open E here _ fun q _ => hl q).bind fun r => ?_
        cases r with
        | err e => exact fun g h => h
        | panic => exact fun g h => h
        | ok di =>
          simp only
          have drop : ∀ g, RHold C t (di :: hs) g → RHold C t hs g := fun g h => h.sub fun a ha => List.mem_cons_of_mem _ ha
          refine (fair_fileStat (List.mem_cons_self ..)).bind fun r => ?_
          cases r with
          | err e => exact fun g h => drop g h
          | panic => exact fun g h => drop g h
          | ok d =>
            simp only
            by_cases h3 : d.isDir = true
            · rw [if_pos h3]
              refine fair_get (List.mem_cons_self ..) fun fd => fair_alloc fun d2 g h => h.hold.sub fun a ha => ?_
              rcases List.mem_cons.mp ha with rfl | ha
              · exact List.mem_cons_self ..
              · exact List.mem_cons_of_mem _ (List.mem_cons_of_mem _ ha)
            · rw [if_neg h3]; exact fun g h => h

theorem fair_mkdirAllF (E : Env) (here : Info) : ∀ (fuel : Nat) (s : Str) (perm : Nat),
    (∀ q, Makes E here s q → ∀ v, C q v → v = t) →
    Fair C t (mkdirAllFC E here fuel s perm) (RHold C t hs) (fun _ => RHold C t hs)
  | 0, s, perm, _ => fun g h => h
  | fuel + 1, s, perm, hK => by
    rw [mkdirAllFC]
    cases hp : E.parse here s with
    | error e => exact fun g h => h
    | ok pt =>
      simp only
      have last : Fair C t (acc .now fun t => acc (.alloc (dirObj here pt perm t)) fun id =>
          acc (.store pt id) fun _ => ret (Res.ok ())) (RHold C t hs) (fun _ => RHold C t hs) :=
        fair_now fun now => fair_alloc fun id => fair_store_drop (hK pt (.self hp)) fun g h => h
      by_cases hd : (GoPath.split pt.name).1 ≠ GoPath.rootS
      · rw [if_pos hd]
        refine (fair_mkdirAllF E here fuel _ perm fun q hq => hK q (.above hp hd hq)).bind fun r => ?_
        cases r with
        | err e => exact fun g h => h
        | panic => exact fun g h => h
        | ok _ => exact last
      · rw [if_neg hd]; exact last

theorem fair_create (E : Env) (here : Info) (name : Str)
    (hs1 : ∀ q, (Fine.Call.create name).Stores E here q → ∀ v, C q v → v = t)
    (hl : ∀ q, (Fine.Call.create name).Looks E here q → ∀ v, C q v → v = t)
    (hc : ∀ q, (Fine.Call.create name).Creates E here q → C q t) :
    Fair C t (createC E here name) (RHold C t hs) (RGot C t hs) := by
  unfold createC mkdirAllC
  have rest : Fair C t (match E.parse here name with
      | .error e => ret (.err e)
      | .ok pt =>
        (infoC pt.pkg).bind fun
          | .err e => ret (.err e)
          | .panic => ret .panic
          | .ok her =>
            (if GoPath.dir pt.name ≠ GoPath.rootS then statC E here (GoPath.dir pt.name)
              else ret (.ok ⟨[], 0, 0, 0, true⟩)).bind fun
              | .err e => ret (.err e)
              | .panic => ret .panic
              | .ok _ =>
                acc .now fun t =>
                  acc (.alloc (createdObj her pt name t)) fun id =>
                    acc (.store pt id) fun _ => ret (.ok id)) (RHold C t hs) (RGot C t hs) := by
    cases hp : E.parse here name with
    | error e => exact fun g h => h
    | ok pt =>
      simp only [infoC, Code.bind]
      refine fair_info fun r => ?_
      cases r with
      | none => exact fun g h => h
      | some her =>
        simp only [Code.bind]
        have last : Fair C t (acc .now fun t => acc (.alloc (createdObj her pt name t)) fun id =>
            acc (.store pt id) fun _ => ret (Res.ok id)) (RHold C t hs) (RGot C t hs) :=
          fair_now fun now => fair_alloc fun id => fair_store_keep (hs1 pt (Or.inr hp)) (hc pt hp) fun g h => h
        by_cases hd : GoPath.dir pt.name ≠ GoPath.rootS
        · rw [if_pos hd]
          refine (fair_stat E here _ fun q hq => hl q ⟨pt, hp, hq⟩).bind fun r => ?_
          cases r with
          | err e => exact fun g h => h
          | panic => exact fun g h => h
          | ok _ => exact last
        · rw [if_neg hd]; exact last
  refine (fair_mkdirAllF E here _ _ _ fun q hq => hs1 q (Or.inl hq)).bind fun r => ?_
  cases r with
  | panic => exact fun g h => h
  | err e => exact rest
  | ok _ => exact rest

theorem fair_remove (E : Env) (here : Info) (name : Str) :
    Fair C t (removeC E here name) (RHold C t hs) (fun _ => RHold C t hs) := by
  unfold removeC
  cases E.parse here name with
  | error e => exact fun g h => h
  | ok pt =>
    refine fair_load fun r => ?_
    cases r with
    | none => exact fun g h => h
    | some i => exact fair_delete fun g h => h

theorem fair_removeAll (E : Env) (here : Info) (name : Str) :
    Fair C t (removeAllC E here name) (RHold C t hs) (fun _ => RHold C t hs) := by
  unfold removeAllC
  cases E.parse here name with
  | error e => exact fun g h => h
  | ok pt =>
    refine fair_range (fun q => ?_) fun l g h => h
    by_cases hq : Str.hasPrefix q.name pt.name = true
    · rw [if_pos hq]; exact fair_delete fun g h => h
    · rw [if_neg hq]; exact fun g h => h

/-! ### Calls and programs -/

/-- Goroutine `t` keeps away from the files that others create, and creates those that it is said to create. -/
def Apart (E : Env) (here : Info) (C : Path → Nat → Prop) (t : Nat) (c : Call) : Prop :=
  (∀ q, c.Stores E here q → ∀ v, C q v → v = t) ∧ (∀ q, c.Looks E here q → ∀ v, C q v → v = t) ∧
    ∀ q, c.Creates E here q → C q t

theorem fair_obtained {c : Code (Res Nat)} (h : Fair C t c (RHold C t hs) (RGot C t hs)) :
    Fair C t (obtainedC hs c) (RHold C t hs) (fun r => RHold C t r.1) := by
  refine h.bind fun r => ?_
  cases r with
  | ok id =>
    refine fun g h => h.sub fun a ha => ?_
    rcases List.mem_append.mp ha with ha | ha
    · exact List.mem_cons_of_mem _ ha
    · simp at ha; subst ha; exact List.mem_cons_self ..
  | err e => exact fun g h => h
  | panic => exact fun g h => h

theorem fair_reads (E : Env) (here : Info) (c : Client.Call)
    (hl : ∀ q, (Fine.Call.reads c).Looks E here q → ∀ v, C q v → v = t) :
    Fair C t (readsC E here hs c) (RHold C t hs) (fun r => RHold C t r.1) := by
  have handle : ∀ (k : Nat) (f : Nat → Code (List Nat × Client.Ans)),
      (∀ id ∈ hs, Fair C t (f id) (RHold C t hs) (fun r => RHold C t r.1)) →
      Fair C t (withHandleC hs k f) (RHold C t hs) (fun r => RHold C t r.1) := by
    intro k f h
    unfold withHandleC
    cases hk : hs[k]? with
    | none => exact fun g h => h
    | some id => exact h id (List.mem_of_getElem? hk)
  cases c with
  | openFile name => exact fair_obtained (fair_open E here name hl)
  | openIn k name => exact handle k _ fun id hid => fair_obtained (fair_fileOpen E here hid name fun q => hl q trivial)
  | stat name => exact (fair_stat E here name hl).bind fun r g h => h
  | fileStat k => exact handle k _ fun id hid => (fair_fileStat hid).bind fun r g h => h
  | readdir k count =>
    exact handle k _ fun id hid => (fair_readdir E here hid count fun q => hl q trivial).bind fun r g h => h
  | read k n => exact handle k _ fun id hid => (fair_read hid n).bind fun r g h => h
  | seek k off whence => exact handle k _ fun id hid => (fair_seek hid off whence).bind fun r g h => h
  | close k => exact handle k _ fun id hid => (fair_close hid).bind fun r g h => h
  | walk s =>
    exact (fair_walk E here _ _ s fun root hr q h1 h2 => hl q ⟨root, hr, h1, h2⟩).bind fun r g h => h
  | fileName k => exact handle k _ fun id hid => (fair_fileName hid).bind fun r g h => h

theorem fair_call (E : Env) (here : Info) {c : Call} (hc : Apart E here C t c) :
    Fair C t (callC E here hs c) (RHold C t hs) (fun r => RHold C t r.1) := by
  obtain ⟨h1, h2, h3⟩ := hc
  cases c with
  | reads c => exact (fair_reads E here c h2).bind fun r g h => h
  | create name => exact (fair_obtained (fair_create E here name h1 h2 h3)).bind fun r g h => h
  | write k b =>
    simp only [callC]
    cases hk : hs[k]? with
    | none => exact fun g h => h
    | some id => exact (fair_write (List.mem_of_getElem? hk) b).bind fun r g h => h
  | mkdirAll s perm => exact (fair_mkdirAllF E here _ s perm h1).bind fun r g h => h
  | remove name => exact (fair_remove E here name).bind fun r g h => h
  | removeAll name => exact (fair_removeAll E here name).bind fun r g h => h

theorem fair_prog (E : Env) (here : Info) {α : Type} : ∀ (c : Prog α) (hs : List Nat), c.All (Apart E here C t) →
    Fair C t (c.code E here hs) (RHold C t hs) (fun _ _ => True)
  | .ret a, hs, _ => fun g h => trivial
  | .step c k, hs, h => (fair_call E here h.1).bind fun r => fair_prog E here (k r.2) r.1 (h.2 r.2)

/-- Goroutines that make only accesses they may make do not race. -/
theorem no_race {α : Type} {Q : Nat → α → Glob → Prop} {s : Sys α}
    (h : SysSafe (fun t => RRely C t) (fun t => RGuar C t) Q s) {t u : Nat} (htu : t ≠ u) : ¬ s.Races t u := by
  have may : ∀ {v id : Nat} {b : Bool}, (s.code v).next = some (id, b) →
      (b = true → Has C v id s.g) ∧ (b = false → Seen C v id s.g) := by
    intro v id b hn
    obtain ⟨P, _, h2, h3⟩ := h.each v
    cases hc : s.code v with
    | ret a => rw [hc] at hn; cases hn
    | range st body k => rw [hc] at hn; cases hn
    | acc a k =>
      rw [hc] at hn h3
      obtain ⟨P', _, h4, _⟩ := h3
      have := (h4 s.g h2).1.1
      unfold Acc.Permit at this
      have hn : a.object = some (id, b) := hn
      rw [hn] at this
      cases b with
      | true => exact ⟨fun _ => this, fun e => (by cases e)⟩
      | false => exact ⟨fun e => (by cases e), fun _ => this⟩
  have key : ∀ {v v' id : Nat} {b : Bool}, v ≠ v' → (s.code v).next = some (id, true) → (s.code v').next = some (id, b) → False := by
    intro v v' id b hv h1 h2
    have hw := (may h1).1 rfl
    have no : s.g.owner id ≠ some v' := by
      rw [hw.own]; intro e; injection e with e; exact hv e
    cases b with
    | true => exact no ((may h2).1 rfl).own
    | false =>
      rcases ((may h2).2 rfl).2 with h3 | h3 | ⟨q, h3, h4⟩
      · exact no h3
      · rw [hw.own] at h3; cases h3
      · exact h4 v (hw.mine q h3)
  rintro ⟨id, a, b, h1, h2, h3⟩
  rcases h3 with h3 | h3
  · subst h3; exact key htu h1 h2
  · subst h3; exact key htu.symm h2 h1

end Fine
end Verif
