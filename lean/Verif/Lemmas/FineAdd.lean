import Verif.Lemmas.Rely
import Verif.Lemmas.Mem
import Verif.Spec.Observe
import Verif.Spec.Touch

/-! Goroutines that only add entries: `Create` and `MkdirAll`. -/

namespace Verif
namespace Fine

open Mem Code

/-- What `MkdirAll` returns; it does not depend on what is there. -/
def mkRes (E : Env) (here : Info) : Nat → Str → Res Unit
  | 0, _ => .panic
  | fuel + 1, s =>
    match E.parse here s with
    | .error e => .err e
    | .ok pt => if (GoPath.split pt.name).1 ≠ GoPath.rootS then mkRes E here fuel (GoPath.split pt.name).1 else .ok ()

/-- What `MkdirAll` adds. -/
def Made (E : Env) (here : Info) (fuel : Nat) (s : Str) (q : Path) : Prop := mkRes E here fuel s = .ok () ∧ Makes E here s q

/-- What `Create` adds in any case. -/
def Roots (E : Env) (here : Info) (q : Path) : Prop := Made E here (GoPath.rootS.length + 2) GoPath.rootS q

/-- `Create` fails with `r` whatever there is; or makes a file, if what it needs is there. -/
inductive Plan where
  | fails (r : Res Nat)
  | goes (pt : Path) (need : Option Path)

/-- What `Create` is going to do. -/
def plan (E : Env) (here : Info) (infos : AMap Str Info) (name : Str) : Plan :=
  match mkRes E here (GoPath.rootS.length + 2) GoPath.rootS with
  | .panic => .fails .panic
  | _ =>
    match E.parse here name with
    | .error e => .fails (.err e)
    | .ok pt =>
      match AMap.get infos pt.pkg with
      | none => .fails (.err (.noSuchPackage pt.pkg))
      | some _ =>
        if GoPath.dir pt.name ≠ GoPath.rootS then
          match E.parse here (GoPath.dir pt.name) with
          | .error e => .fails (.err e)
          | .ok q => .goes pt (some q)
        else .goes pt none

variable {w : World} {t u : Nat}

/-- Nothing has been taken away since `w`, and everything has details. -/
structure Grown (w : World) (g : Glob) : Prop where
  infos : g.w.infos = w.infos
  was : ∀ q id, AMap.get g.w.files q = some id → (q, id) ∈ g.came
  stays : ∀ e ∈ g.came, ∃ id, AMap.get g.w.files e.1 = some id
  lt : ∀ e ∈ g.came, e.2 < g.w.next
  info : ∀ e ∈ g.came, (g.w.heap e.2).info ≠ none
  base : ∀ e ∈ w.files, e ∈ g.came
  from_ : ∀ e ∈ g.came, e ∈ w.files ∨ ∃ u, g.owner e.2 = some u

/-- What goroutine `t` does: it makes objects and stores them. -/
structure GStep (w : World) (t : Nat) (g g' : Glob) : Prop where
  next : g.w.next ≤ g'.w.next
  owner : ∀ id, id < g.w.next → g'.owner id = g.owner id
  heap : ∀ id, id < g.w.next → g'.w.heap id = g.w.heap id
  came : ∃ l, g'.came = g.came ++ l ∧ ∀ e ∈ l, g'.owner e.2 = some t
  inv : Grown w g → Grown w g'

/-- What goroutine `t` relies on. -/
structure GRely (w : World) (t : Nat) (g g' : Glob) : Prop where
  next : g.w.next ≤ g'.w.next
  owner : ∀ id, id < g.w.next → g'.owner id = g.owner id
  heap : ∀ id, id < g.w.next → g'.w.heap id = g.w.heap id
  came : ∃ l, g'.came = g.came ++ l ∧ ∀ e ∈ l, g'.owner e.2 ≠ some t
  inv : Grown w g → Grown w g'

theorem GStep.rely {g g' : Glob} (h : t ≠ u) (hg : GStep w u g g') : GRely w t g g' := by
  obtain ⟨l, h1, h2⟩ := hg.came
  exact ⟨hg.next, hg.owner, hg.heap, ⟨l, h1, fun e he h3 => by rw [h2 e he] at h3; injection h3 with h3; exact h h3.symm⟩, hg.inv⟩

theorem GRely.refl (g : Glob) : GRely w t g g :=
  ⟨Nat.le_refl _, fun _ _ => rfl, fun _ _ => rfl, ⟨[], by simp, fun e he => (by cases he)⟩, fun h => h⟩

theorem GStep.refl (g : Glob) : GStep w t g g :=
  ⟨Nat.le_refl _, fun _ _ => rfl, fun _ _ => rfl, ⟨[], by simp, fun e he => (by cases he)⟩, fun h => h⟩

theorem GRely.ticks {g g' : Glob} (h : Ticks g g') : GRely w t g g' := by
  obtain ⟨now, rfl⟩ := h
  exact ⟨Nat.le_refl _, fun _ _ => rfl, fun _ _ => rfl, ⟨[], by simp, fun e he => (by cases he)⟩,
    fun h => ⟨h.infos, h.was, h.stays, h.lt, h.info, h.base, h.from_⟩⟩

/-- Goroutine `t` has added `L`. -/
structure Added (w : World) (t : Nat) (L : Path → Prop) (g : Glob) : Prop where
  grown : Grown w g
  only : ∀ e ∈ g.came, g.owner e.2 = some t → L e.1
  all : ∀ q, L q → ∃ id, (q, id) ∈ g.came

theorem Added.stable (L : Path → Prop) : Stable (GRely w t) (Added w t L) := by
  intro g g' h hr
  obtain ⟨l, h1, h2⟩ := hr.came
  refine ⟨hr.inv h.grown, fun e he ho => ?_, fun q hq => ?_⟩
  · rw [h1] at he
    rcases List.mem_append.mp he with he | he
    · rw [hr.owner e.2 (h.grown.lt e he)] at ho
      exact h.only e he ho
    · exact absurd ho (h2 e he)
  · obtain ⟨id, hid⟩ := h.all q hq
    exact ⟨id, by rw [h1]; exact List.mem_append_left _ hid⟩

theorem Added.congr {L L' : Path → Prop} (h : ∀ q, L q ↔ L' q) {g : Glob} (ha : Added w t L g) : Added w t L' g :=
  ⟨ha.grown, fun e h1 h2 => (h _).mp (ha.only e h1 h2), fun q hq => ha.all q ((h q).mpr hq)⟩

/-- An object just made, not stored yet. -/
structure Fresh (w : World) (t : Nat) (L : Path → Prop) (id : Nat) (g : Glob) : Prop where
  added : Added w t L g
  lt : id < g.w.next
  own : g.owner id = some t
  info : (g.w.heap id).info ≠ none

theorem Fresh.stable (L : Path → Prop) (id : Nat) : Stable (GRely w t) (Fresh w t L id) := fun g g' h hr =>
  ⟨Added.stable L g g' h.added hr, Nat.lt_of_lt_of_le h.lt hr.next, (hr.owner id h.lt).trans h.own,
    by rw [hr.heap id h.lt]; exact h.info⟩

/-- The needed path came before goroutine `t` added anything but `L`. -/
def Seat (t : Nat) (L : Path → Prop) (need : Option Path) (g : Glob) : Prop :=
  ∃ n, n ≤ g.came.length ∧ (∀ q, need = some q → ∃ e ∈ g.came.take n, e.1 = q) ∧
    ∀ e ∈ g.came.take n, g.owner e.2 = some t → L e.1

theorem Seat.stable {L L' : Path → Prop} {need : Option Path} :
    Stable (GRely w t) (fun g => Added w t L g ∧ Seat t L' need g) := by
  rintro g g' ⟨ha, n, h1, h2, h3⟩ hr
  obtain ⟨l, h4, _⟩ := hr.came
  have ht : g'.came.take n = g.came.take n := by rw [h4, List.take_append_of_le_length h1]
  refine ⟨Added.stable L g g' ha hr, n, by rw [h4, List.length_append]; omega, ?_, ?_⟩
  · rw [ht]; exact h2
  · rw [ht]
    intro e he ho
    rw [hr.owner e.2 (ha.grown.lt e (List.mem_of_mem_take he))] at ho
    exact h3 e he ho

abbrev Adding (w : World) (t : Nat) {α : Type} (c : Code α) (P : Glob → Prop) (Q : α → Glob → Prop) : Prop :=
  Safe t (GRely w t) (Any (GStep w t)) c P Q

variable {α β : Type} {Q : α → Glob → Prop} {L : Path → Prop}

/-- An access that changes nothing. -/
theorem adding_look {a : Acc β} (ha : ∀ g, (a.run t g).1 = g) {P : Glob → Prop} (hP : Stable (GRely w t) P)
    {k : β → Code α} (h : ∀ r, Adding w t (k r) P Q) : Adding w t (.acc a k) P Q :=
  ⟨fun _ => P, fun _ => hP, fun g hg => by rw [ha]; exact ⟨GStep.refl g, hg⟩, h⟩

/-- Making an object, while knowing `F`. -/
theorem adding_alloc {f : FileObj} (hf : f.info ≠ none) {F : Glob → Prop} (hF : Stable (GRely w t) F)
    (hFs : ∀ g g', F g → GStep w t g g' → F g') {k : Nat → Code α}
    (h : ∀ id, Adding w t (k id) (fun g => Fresh w t L id g ∧ F g) Q) :
    Adding w t (.acc (.alloc f) k) (fun g => Added w t L g ∧ F g) Q := by
  refine ⟨fun id g => Fresh w t L id g ∧ F g, fun id g g' h hr => ⟨Fresh.stable L id g g' h.1 hr, hF g g' h.2 hr⟩, ?_, h⟩
  rintro g ⟨hg, hfg⟩
  have hne : ∀ a, a < g.w.next → a ≠ g.w.next := fun a h => Nat.ne_of_lt h
  have hheap : ∀ a, a < g.w.next → (upd g.w.heap g.w.next f) a = g.w.heap a := fun a h => upd_ne _ _ (hne a h)
  have hown : ∀ a, a < g.w.next → (upd g.owner g.w.next (some t)) a = g.owner a := fun a h => upd_ne _ _ (hne a h)
  have hI : Grown w (Acc.run t (.alloc f) g).1 := by
    refine ⟨hg.grown.infos, hg.grown.was, hg.grown.stays, fun e he => Nat.lt_succ_of_lt (hg.grown.lt e he), fun e he => ?_,
      hg.grown.base, fun e he => ?_⟩
    · show (upd g.w.heap g.w.next f e.2).info ≠ none
      rw [hheap e.2 (hg.grown.lt e he)]
      exact hg.grown.info e he
    · refine (hg.grown.from_ e he).imp (fun h => h) ?_
      rintro ⟨u, hu⟩
      exact ⟨u, (hown e.2 (hg.grown.lt e he)).trans hu⟩
  have hG : GStep w t g (Acc.run t (.alloc f) g).1 :=
    ⟨Nat.le_succ _, hown, hheap, ⟨[], by simp [Acc.run], fun e he => (by cases he)⟩, fun _ => hI⟩
  refine ⟨hG, ⟨⟨hI, fun e he ho => ?_, hg.all⟩, Nat.lt_succ_self _, upd_self .., ?_⟩, hFs _ _ hfg hG⟩
  · have ho : upd g.owner g.w.next (some t) e.2 = some t := ho
    rw [hown e.2 (hg.grown.lt e he)] at ho
    exact hg.only e he ho
  · show (upd g.w.heap g.w.next f g.w.next).info ≠ none
    rw [upd_self]
    exact hf

theorem adding_store {id : Nat} {q : Path} {k : Unit → Code α} {F P : Glob → Prop} (hP : Stable (GRely w t) P)
    (hPs : ∀ g, Fresh w t L id g → F g → Added w t (fun p => L p ∨ p = q) (Acc.run t (.store q id) g).1 →
      P (Acc.run t (.store q id) g).1)
    (h : Adding w t (k ()) P Q) :
    Adding w t (.acc (.store q id) k) (fun g => Fresh w t L id g ∧ F g) Q := by
  refine Safe.det () _ hP ?_ h
  rintro g ⟨hg, hfg⟩
  have hcame : ∀ e, e ∈ g.came ++ [(q, id)] → e ∈ g.came ∨ e = (q, id) := by
    intro e he
    rcases List.mem_append.mp he with h | h
    · exact Or.inl h
    · simp at h; exact Or.inr h
  have hI : Grown w (Acc.run t (.store q id) g).1 := by
    refine ⟨hg.added.grown.infos, ?_, ?_, ?_, ?_, fun e he => List.mem_append_left _ (hg.added.grown.base e he), ?_⟩
    · intro q' a h
      have h : AMap.get (AMap.set g.w.files q id) q' = some a := h
      rw [AMap.get_set] at h
      by_cases he : q' = q
      · rw [if_pos he] at h
        injection h with h
        subst h; subst he
        exact List.mem_append_right _ (List.mem_singleton_self _)
      · rw [if_neg he] at h
        exact List.mem_append_left _ (hg.added.grown.was q' a h)
    · intro e h
      show ∃ a, AMap.get (AMap.set g.w.files q id) e.1 = some a
      rw [AMap.get_set]
      by_cases he : e.1 = q
      · exact ⟨id, by rw [if_pos he]⟩
      · rw [if_neg he]
        rcases hcame e h with h | rfl
        · exact hg.added.grown.stays e h
        · exact absurd rfl he
    · intro e h
      rcases hcame e h with h | rfl
      · exact hg.added.grown.lt e h
      · exact hg.lt
    · intro e h
      rcases hcame e h with h | rfl
      · exact hg.added.grown.info e h
      · exact hg.info
    · intro e h
      rcases hcame e h with h | rfl
      · exact hg.added.grown.from_ e h
      · exact Or.inr ⟨t, hg.own⟩
  refine ⟨⟨Nat.le_refl _, fun _ _ => rfl, fun _ _ => rfl, ⟨[(q, id)], rfl, fun e he => ?_⟩, fun _ => hI⟩, rfl,
    hPs g hg hfg ⟨hI, ?_, ?_⟩⟩
  · simp at he; subst he; exact hg.own
  · intro e h ho
    rcases hcame e h with h | rfl
    · exact Or.inl (hg.added.only e h ho)
    · exact Or.inr rfl
  · rintro p (hp | rfl)
    · obtain ⟨a, ha⟩ := hg.added.all p hp
      exact ⟨a, List.mem_append_left _ ha⟩
    · exact ⟨id, List.mem_append_right _ (List.mem_singleton_self _)⟩

/-! ### The methods -/

theorem makes_iff {E : Env} {here : Info} {s : Str} {pt q : Path} (hp : E.parse here s = .ok pt) :
    Makes E here s q ↔ q = pt ∨ ((GoPath.split pt.name).1 ≠ GoPath.rootS ∧ Makes E here (GoPath.split pt.name).1 q) := by
  constructor
  · intro h
    cases h with
    | self h => rw [hp] at h; injection h with h; exact Or.inl h.symm
    | above h hd h' =>
      rw [hp] at h
      injection h with h
      subst h
      exact Or.inr ⟨hd, h'⟩
  · rintro (rfl | ⟨h1, h2⟩)
    · exact .self hp
    · exact .above hp h1 h2

theorem adding_mkdirAllF (E : Env) (here : Info) : ∀ (fuel : Nat) (s : Str) (perm : Nat) (L : Path → Prop),
    Adding w t (mkdirAllFC E here fuel s perm) (Added w t L)
      (fun r g => r = mkRes E here fuel s ∧ Added w t (fun q => L q ∨ Made E here fuel s q) g)
  | 0, s, perm, L => fun g h => ⟨rfl, h.congr fun q => ⟨Or.inl, fun h => h.elim (fun h => h) fun h => (by cases h.1)⟩⟩
  | fuel + 1, s, perm, L => by
    rw [mkdirAllFC]
    cases hp : E.parse here s with
    | error e =>
      have hr : mkRes E here (fuel + 1) s = .err e := by rw [mkRes, hp]
      refine fun g h => ⟨hr.symm, h.congr fun q => ⟨Or.inl, fun h => h.elim (fun h => h) fun h => ?_⟩⟩
      rw [Made, hr] at h
      cases h.1
    | ok pt =>
      simp only
      have last : ∀ (L' : Path → Prop), mkRes E here (fuel + 1) s = .ok () →
          (∀ q, (L' q ∨ q = pt) ↔ L q ∨ Made E here (fuel + 1) s q) →
          Adding w t (acc .now fun t => acc (.alloc (dirObj here pt perm t)) fun id =>
            acc (.store pt id) fun _ => ret (Res.ok ())) (Added w t L')
          (fun r g => r = mkRes E here (fuel + 1) s ∧ Added w t (fun q => L q ∨ Made E here (fuel + 1) s q) g) := by
        intro L' hr hL
        refine adding_look (fun _ => rfl) (Added.stable L') fun now => ?_
        refine (adding_alloc (L := L') (F := fun _ => True) ?_ (fun _ _ _ _ => trivial) (fun _ _ _ _ => trivial) fun id => ?_).mono
          (fun g h => ⟨h, trivial⟩) fun _ _ h => h
        · unfold dirObj closeObj
          simp
        · exact adding_store (Added.stable _) (fun g _ _ h => h) fun g h => ⟨hr.symm, h.congr hL⟩
      by_cases hd : (GoPath.split pt.name).1 ≠ GoPath.rootS
      · rw [if_pos hd]
        have hr : mkRes E here (fuel + 1) s = mkRes E here fuel (GoPath.split pt.name).1 := by
          rw [mkRes, hp]; simp only; rw [if_pos hd]
        refine (adding_mkdirAllF E here fuel _ perm L).bind fun r => Safe.of_fact fun hr' => ?_
        cases r with
        | err e =>
          rw [hr, ← hr']
          refine fun g h => ⟨rfl, h.congr fun q => or_congr_right ?_⟩
          rw [Made, Made, hr, ← hr']
          exact ⟨fun h => (by cases h.1), fun h => (by cases h.1)⟩
        | panic =>
          rw [hr, ← hr']
          refine fun g h => ⟨rfl, h.congr fun q => or_congr_right ?_⟩
          rw [Made, Made, hr, ← hr']
          exact ⟨fun h => (by cases h.1), fun h => (by cases h.1)⟩
        | ok _ =>
          refine last _ (hr.trans hr'.symm) fun q => ?_
          rw [Made, Made, hr, ← hr', makes_iff hp]
          simp only [true_and]
          constructor
          · rintro ((h | h) | h)
            · exact Or.inl h
            · exact Or.inr (Or.inr ⟨hd, h⟩)
            · exact Or.inr (Or.inl h)
          · rintro (h | h | h)
            · exact Or.inl (Or.inl h)
            · exact Or.inr h
            · exact Or.inl (Or.inr h.2)
      · rw [if_neg hd]
        have hr : mkRes E here (fuel + 1) s = .ok () := by rw [mkRes, hp]; simp only; rw [if_neg hd]
        refine last L hr fun q => ?_
        rw [Made, hr, makes_iff hp]
        simp only [true_and]
        exact or_congr_right ⟨Or.inl, fun h => h.elim (fun h => h) fun h => absurd h.1 hd⟩

/-- What has happened when `Create` has ended with `r`. -/
def Created (E : Env) (here : Info) (w : World) (t : Nat) (name : Str) (r : Res Nat) (g : Glob) : Prop :=
  match plan E here w.infos name with
  | .fails r0 => r = r0 ∧ Added w t (Roots E here) g
  | .goes pt need =>
    (∃ id, r = .ok id ∧ Added w t (fun q => Roots E here q ∨ q = pt) g ∧ Seat t (Roots E here) need g) ∨
    (∃ q, need = some q ∧ r = .err .couldNotStat ∧ Added w t (Roots E here) g ∧ ¬ Stored w q ∧ ¬ Roots E here q)

theorem adding_create (E : Env) (here : Info) (name : Str) :
    Adding w t (createC E here name) (Added w t fun _ => False) (Created E here w t name) := by
  unfold createC mkdirAllC
  have hcong : ∀ {g}, Added w t (fun q => False ∨ Made E here (GoPath.rootS.length + 2) GoPath.rootS q) g →
      Added w t (Roots E here) g := fun h => h.congr fun q => ⟨fun h => h.elim (fun h => h.elim) fun h => h, Or.inr⟩
  have rest : mkRes E here (GoPath.rootS.length + 2) GoPath.rootS ≠ .panic →
      Adding w t (match E.parse here name with
      | .error e => ret (.err e)
      | .ok pt =>
        (infoC pt.pkg).bind fun
          | .err e => ret (.err e)
          | .panic => ret .panic
          | .ok her =>
            (if GoPath.dir pt.name ≠ GoPath.rootS then statC E here (GoPath.dir pt.name)
              else ret (.ok ⟨[], 0, 0, 0, true⟩)).bind fun
              | .err e => ret (.err e)
              | .panic => ret .panic
              | .ok _ =>
                acc .now fun t =>
                  acc (.alloc (createdObj her pt name t)) fun id =>
                    acc (.store pt id) fun _ => ret (.ok id)) (Added w t (Roots E here)) (Created E here w t name) := by
    intro hnp
    have hpl : plan E here w.infos name = match E.parse here name with
        | .error e => .fails (.err e)
        | .ok pt =>
          match AMap.get w.infos pt.pkg with
          | none => .fails (.err (.noSuchPackage pt.pkg))
          | some _ =>
            if GoPath.dir pt.name ≠ GoPath.rootS then
              match E.parse here (GoPath.dir pt.name) with
              | .error e => .fails (.err e)
              | .ok q => .goes pt (some q)
            else .goes pt none := by
      unfold plan
      cases h : mkRes E here (GoPath.rootS.length + 2) GoPath.rootS with
      | panic => exact absurd h hnp
      | ok _ => rfl
      | err e => rfl
    cases hp : E.parse here name with
    | error e =>
      rw [hp] at hpl
      intro g h
      unfold Created
      rw [hpl]
      exact ⟨rfl, h⟩
    | ok pt =>
      rw [hp] at hpl
      simp only [infoC, Code.bind] at hpl ⊢
      refine ⟨fun r g => r = AMap.get w.infos pt.pkg ∧ Added w t (Roots E here) g,
        fun r g g' h hr => ⟨h.1, Added.stable _ g g' h.2 hr⟩,
        fun g hg => ⟨GStep.refl g, by rw [← hg.grown.infos]; rfl, hg⟩, fun r => Safe.of_fact fun hr => ?_⟩
      rw [← hr] at hpl
      cases r with
      | none =>
        intro g h
        unfold Created
        rw [hpl]
        exact ⟨rfl, h⟩
      | some her =>
        simp only [Code.bind] at hpl ⊢
        have last : ∀ need : Option Path, plan E here w.infos name = .goes pt need →
            Adding w t (acc .now fun t => acc (.alloc (createdObj her pt name t)) fun id =>
            acc (.store pt id) fun _ => ret (Res.ok id))
            (fun g => Added w t (Roots E here) g ∧ ∀ q, need = some q → ∃ e ∈ g.came, e.1 = q) (Created E here w t name) := by
          intro need hneed
          have hst : Stable (GRely w t) (fun g => ∀ q, need = some q → ∃ e ∈ g.came, e.1 = q) := by
            intro g g' h hr q hq
            obtain ⟨l, h1, _⟩ := hr.came
            obtain ⟨e, he, hq⟩ := h q hq
            exact ⟨e, by rw [h1]; exact List.mem_append_left _ he, hq⟩
          have hst' : ∀ g g' : Glob, (∀ q, need = some q → ∃ e ∈ g.came, e.1 = q) → GStep w t g g' →
              ∀ q, need = some q → ∃ e ∈ g'.came, e.1 = q := by
            intro g g' h hr q hq
            obtain ⟨l, h1, _⟩ := hr.came
            obtain ⟨e, he, hq⟩ := h q hq
            exact ⟨e, by rw [h1]; exact List.mem_append_left _ he, hq⟩
          refine adding_look (fun _ => rfl) (fun g g' h hr => ⟨Added.stable _ g g' h.1 hr, hst g g' h.2 hr⟩) fun now => ?_
          refine adding_alloc (by simp [createdObj]) hst hst' fun id => ?_
          refine adding_store (P := fun g => Added w t (fun q => Roots E here q ∨ q = pt) g ∧ Seat t (Roots E here) need g)
            Seat.stable (fun g hf hn ha => ⟨ha, g.came.length, ?_, ?_, ?_⟩) fun g h => ?_
          · show g.came.length ≤ (g.came ++ [(pt, id)]).length
            simp
          · show ∀ q, need = some q → ∃ e ∈ (g.came ++ [(pt, id)]).take g.came.length, e.1 = q
            rw [List.take_left]
            exact hn
          · show ∀ e ∈ (g.came ++ [(pt, id)]).take g.came.length, g.owner e.2 = some t → _
            rw [List.take_left]
            exact hf.added.only
          · unfold Created
            rw [hneed]
            exact Or.inl ⟨id, rfl, h⟩
        by_cases hd : GoPath.dir pt.name ≠ GoPath.rootS
        · rw [if_pos hd] at hpl ⊢
          unfold statC
          cases hq : E.parse here (GoPath.dir pt.name) with
          | error e =>
            rw [hq] at hpl
            intro g h
            unfold Created
            rw [hpl]
            exact ⟨rfl, h⟩
          | ok q =>
            rw [hq] at hpl
            simp only [fileStatC, Code.bind]
            refine ⟨fun r g => (r = none → ¬ Stored w q ∧ ¬ Roots E here q) ∧ (∀ id, r = some id → (q, id) ∈ g.came) ∧
              Added w t (Roots E here) g, fun r g g' h hr => ⟨h.1, fun id hid => ?_, Added.stable _ g g' h.2.2 hr⟩,
              fun g hg => ⟨GStep.refl g, fun hn => ⟨fun hs => ?_, fun hs => ?_⟩, fun id hid => hg.grown.was q id hid, hg⟩, fun r => ?_⟩
            · obtain ⟨l, h1, _⟩ := hr.came
              rw [h1]
              exact List.mem_append_left _ (h.2.1 id hid)
            · obtain ⟨id, hid⟩ := hs
              obtain ⟨a, ha⟩ := hg.grown.stays _ (hg.grown.base _ (AMap.get_mem hid))
              have hn : AMap.get g.w.files q = none := hn
              rw [hn] at ha
              cases ha
            · obtain ⟨id, hid⟩ := hg.all q hs
              obtain ⟨a, ha⟩ := hg.grown.stays _ hid
              have hn : AMap.get g.w.files q = none := hn
              rw [hn] at ha
              cases ha
            · cases r with
              | none =>
                intro g h
                unfold Created
                rw [hpl]
                exact Or.inr ⟨q, rfl, rfl, h.2.2, h.1 rfl⟩
              | some i =>
                simp only [Code.bind]
                let P : Glob → Prop := fun g => (q, i) ∈ g.came ∧ Added w t (Roots E here) g
                have hP : Stable (GRely w t) P := by
                  intro g g' h hr
                  obtain ⟨l, h1, _⟩ := hr.came
                  exact ⟨by rw [h1]; exact List.mem_append_left _ h.1, Added.stable _ g g' h.2 hr⟩
                have look : ∀ {k : FileObj → Code (Res Nat)}, (∀ f, f.info ≠ none → Adding w t (k f) P (Created E here w t name)) →
                    Adding w t (.acc (.get i) k) P (Created E here w t name) := by
                  intro k hk
                  refine ⟨fun f g => f.info ≠ none ∧ P g, fun f g g' h hr => ⟨h.1, hP g g' h.2 hr⟩,
                    fun g hg => ⟨GStep.refl g, hg.2.grown.info _ hg.1, hg⟩, fun f => Safe.of_fact fun hf => hk f hf⟩
                refine (look fun f hf => ?_).mono (fun g h => ⟨h.2.1 i rfl, h.2.2⟩) fun _ _ h => h
                cases hfi : f.info with
                | none => exact absurd hfi hf
                | some d =>
                  simp only [Code.bind]
                  refine look fun f' hf' => ?_
                  cases hfi' : f'.info with
                  | none => exact absurd hfi' hf'
                  | some d' =>
                    simp only [Code.bind]
                    refine (last (some q) hpl).mono (fun g h => ⟨h.2, fun q' e => ?_⟩) fun _ _ h => h
                    injection e with e
                    exact ⟨_, h.1, e⟩
        · rw [if_neg hd] at hpl ⊢
          exact (last none hpl).mono (fun g h => ⟨h, fun q e => (by cases e)⟩) fun _ _ h => h
  refine (adding_mkdirAllF E here _ _ _ _).bind fun r => Safe.of_fact fun hr => ?_
  cases r with
  | panic =>
    intro g h
    unfold Created
    have : plan E here w.infos name = .fails .panic := by unfold plan; rw [← hr]
    rw [this]
    exact ⟨rfl, hcong h⟩
  | err e => exact (rest (by rw [← hr]; simp)).mono (fun g h => hcong h) fun _ _ h => h
  | ok _ => exact (rest (by rw [← hr]; simp)).mono (fun g h => hcong h) fun _ _ h => h

end Fine
end Verif
