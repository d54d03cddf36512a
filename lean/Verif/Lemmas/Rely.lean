import Verif.Model.Fine

/-!
Reasoning about goroutines that are interrupted anywhere: each one relies on what the others may do (`R`) and
guarantees what it does itself (`G`).
-/

namespace Verif
namespace Fine

open Mem Code

/-- What may have been done between two moments. -/
abbrev Rel := Glob → Glob → Prop

/-- What an access may do. -/
abbrev Act := (β : Type) → Acc β → Rel

/-- Any access may do what `G` permits. -/
def Any (G : Rel) : Act := fun _ _ => G

/-- What `R` permits keeps `P` true. -/
def Stable (R : Rel) (P : Glob → Prop) : Prop := ∀ g g', P g → R g g' → P g'

/-- Started when `P` is true, with others doing only what `R` permits, goroutine `t` does only what `G` permits, and when
it ends with `a`, then `Q a` is true. -/
def Safe (t : Nat) (R : Rel) (G : Act) : {α : Type} → Code α → (Glob → Prop) → (α → Glob → Prop) → Prop
  | _, .ret a, P, Q => ∀ g, P g → Q a g
  | _, .acc (β := β) a k, P, Q =>
    ∃ P' : β → Glob → Prop, (∀ r, Stable R (P' r)) ∧
      (∀ g, P g → G β a g (a.run t g).1 ∧ P' (a.run t g).2 (a.run t g).1) ∧
      ∀ r, Safe t R G (k r) (P' r) Q
  | _, .range st body k, P, Q =>
    ∃ (J : RangeSt → Glob → Prop) (V : RangeSt → Path → Glob → Prop) (P' : List Path → Glob → Prop),
      (∀ st, Stable R (J st)) ∧ (∀ st p, Stable R (V st p)) ∧ (∀ l, Stable R (P' l)) ∧
      (∀ g, P g → J (st.getD (RangeSt.begin g)) g) ∧
      (∀ st p g, J st g → st.MayVisit g p → V st p g) ∧
      (∀ st p, Safe t R G (body p) (V st p) (fun _ => J { st with seen := st.seen ++ [p] })) ∧
      (∀ st g, J st g → st.MayEnd g → P' st.seen g) ∧
      ∀ l, Safe t R G (k l) (P' l) Q

variable {t : Nat} {R : Rel} {G : Act}

/-- A stronger assumption, a weaker conclusion. -/
theorem Safe.mono {α : Type} {c : Code α} {P P1 : Glob → Prop} {Q Q1 : α → Glob → Prop} (h : Safe t R G c P Q)
    (hP : ∀ g, P1 g → P g) (hQ : ∀ a g, Q a g → Q1 a g) : Safe t R G c P1 Q1 := by
  induction c generalizing P P1 with
  | ret a => exact fun g hg => hQ a g (h g (hP g hg))
  | acc a k ih =>
    obtain ⟨P', h1, h2, h3⟩ := h
    exact ⟨P', h1, fun g hg => h2 g (hP g hg), fun r => ih r (h3 r) (fun _ h => h) hQ⟩
  | range st body k _ ih =>
    obtain ⟨J, V, P', h1, h2, h3, h4, h5, h6, h7, h8⟩ := h
    exact ⟨J, V, P', h1, h2, h3, fun g hg => h4 g (hP g hg), h5, h6, h7, fun l => ih l (h8 l) (fun _ h => h) hQ⟩

/-- More may be done by itself, less by the others. -/
theorem Safe.rel {α : Type} {c : Code α} {R1 : Rel} {G1 : Act} {P : Glob → Prop} {Q : α → Glob → Prop} (h : Safe t R G c P Q)
    (hR : ∀ g g', R1 g g' → R g g') (hG : ∀ β a g g', G β a g g' → G1 β a g g') : Safe t R1 G1 c P Q := by
  have hs : ∀ {P : Glob → Prop}, Stable R P → Stable R1 P := fun h g g' hg hr => h g g' hg (hR g g' hr)
  induction c generalizing P with
  | ret a => exact h
  | acc a k ih =>
    obtain ⟨P', h1, h2, h3⟩ := h
    exact ⟨P', fun r => hs (h1 r), fun g hg => ⟨hG _ _ _ _ (h2 g hg).1, (h2 g hg).2⟩, fun r => ih r (h3 r)⟩
  | range st body k ihb ih =>
    obtain ⟨J, V, P', h1, h2, h3, h4, h5, h6, h7, h8⟩ := h
    exact ⟨J, V, P', fun st => hs (h1 st), fun st p => hs (h2 st p), fun l => hs (h3 l), h4, h5,
      fun st p => ihb p (h6 st p), h7, fun l => ih l (h8 l)⟩

/-- One thing after the other. -/
theorem Safe.bind {α β : Type} {c : Code α} {f : α → Code β} {P : Glob → Prop} {Q1 : α → Glob → Prop}
    {Q : β → Glob → Prop} (h : Safe t R G c P Q1) (hf : ∀ a, Safe t R G (f a) (Q1 a) Q) :
    Safe t R G (c.bind f) P Q := by
  induction c generalizing P with
  | ret a => exact (hf a).mono (fun g hg => h g hg) (fun _ _ h => h)
  | acc a k ih =>
    obtain ⟨P', h1, h2, h3⟩ := h
    exact ⟨P', h1, h2, fun r => ih r (h3 r) hf⟩
  | range st body k _ ih =>
    obtain ⟨J, V, P', h1, h2, h3, h4, h5, h6, h7, h8⟩ := h
    exact ⟨J, V, P', h1, h2, h3, h4, h5, h6, h7, fun l => ih l (h8 l) hf⟩

/-- What never happens. -/
theorem Safe.never {α : Type} (c : Code α) (Q : α → Glob → Prop) : Safe t R G c (fun _ => False) Q := by
  have hf : Stable R (fun _ => False) := fun _ _ h _ => h
  induction c with
  | ret a => exact fun g h => h.elim
  | acc a k ih => exact ⟨fun _ _ => False, fun _ => hf, fun g h => h.elim, fun r => ih r Q⟩
  | range st body k ihb ih =>
    exact ⟨fun _ _ => False, fun _ _ _ => False, fun _ _ => False, fun _ => hf, fun _ _ => hf, fun _ => hf,
      fun g h => h.elim, fun _ _ _ h => h.elim, fun _ p => ihb p _, fun _ _ h => h.elim, fun l => ih l Q⟩

/-- One of several situations. -/
theorem Safe.ex {ι : Type} {α : Type} {c : Code α} {P : ι → Glob → Prop} {Q : α → Glob → Prop}
    (h : ∀ x, Safe t R G c (P x) Q) : Safe t R G c (fun g => ∃ x, P x g) Q := by
  have hs : ∀ {F : ι → Glob → Prop}, (∀ x, Stable R (F x)) → Stable R (fun g => ∃ x, F x g) := by
    intro F hF g g' ⟨x, hx⟩ hr
    exact ⟨x, hF x g g' hx hr⟩
  induction c generalizing P with
  | ret a => exact fun g ⟨x, hx⟩ => h x g hx
  | acc a k ih =>
    have h' : ∀ x, ∃ P' : _ → Glob → Prop, (∀ r, Stable R (P' r)) ∧
      (∀ g, P x g → G _ a g (a.run t g).1 ∧ P' (a.run t g).2 (a.run t g).1) ∧ ∀ r, Safe t R G (k r) (P' r) Q := h
    refine ⟨fun r g => ∃ x, (h' x).choose r g, fun r => hs fun x => (h' x).choose_spec.1 r, ?_, ?_⟩
    · rintro g ⟨x, hx⟩
      have := (h' x).choose_spec.2.1 g hx
      exact ⟨this.1, x, this.2⟩
    · intro r
      exact ih r fun x => (h' x).choose_spec.2.2 r
  | range st body k ihb ih =>
    have h' : ∀ x, ∃ (J : RangeSt → Glob → Prop) (V : RangeSt → Path → Glob → Prop) (P' : List Path → Glob → Prop),
      (∀ st, Stable R (J st)) ∧ (∀ st p, Stable R (V st p)) ∧ (∀ l, Stable R (P' l)) ∧
      (∀ g, P x g → J (st.getD (RangeSt.begin g)) g) ∧
      (∀ st p g, J st g → st.MayVisit g p → V st p g) ∧
      (∀ st p, Safe t R G (body p) (V st p) (fun _ => J { st with seen := st.seen ++ [p] })) ∧
      (∀ st g, J st g → st.MayEnd g → P' st.seen g) ∧
      ∀ l, Safe t R G (k l) (P' l) Q := h
    refine ⟨fun st g => ∃ x, (h' x).choose st g, fun st p g => ∃ x, (h' x).choose_spec.choose st p g,
      fun l g => ∃ x, (h' x).choose_spec.choose_spec.choose l g, ?_, ?_, ?_, ?_, ?_, ?_, ?_, ?_⟩
    · exact fun st => hs fun x => (h' x).choose_spec.choose_spec.choose_spec.1 st
    · exact fun st p => hs fun x => (h' x).choose_spec.choose_spec.choose_spec.2.1 st p
    · exact fun l => hs fun x => (h' x).choose_spec.choose_spec.choose_spec.2.2.1 l
    · rintro g ⟨x, hx⟩
      exact ⟨x, (h' x).choose_spec.choose_spec.choose_spec.2.2.2.1 g hx⟩
    · rintro st p g ⟨x, hx⟩ hv
      exact ⟨x, (h' x).choose_spec.choose_spec.choose_spec.2.2.2.2.1 st p g hx hv⟩
    · intro st p
      exact ihb p fun x => ((h' x).choose_spec.choose_spec.choose_spec.2.2.2.2.2.1 st p).mono (fun _ h => h)
        fun _ g hg => ⟨x, hg⟩
    · rintro st g ⟨x, hx⟩ hv
      exact ⟨x, (h' x).choose_spec.choose_spec.choose_spec.2.2.2.2.2.2.1 st g hx hv⟩
    · intro l
      exact ih l fun x => (h' x).choose_spec.choose_spec.choose_spec.2.2.2.2.2.2.2 l

/-- A situation that goes with a fact. -/
theorem Safe.of_fact {α : Type} {c : Code α} {p : Prop} {P : Glob → Prop} {Q : α → Glob → Prop}
    (h : p → Safe t R G c P Q) : Safe t R G c (fun g => p ∧ P g) Q := by
  by_cases hp : p
  · exact (h hp).mono (fun _ h => h.2) fun _ _ h => h
  · exact (Safe.never c Q).mono (fun _ h => hp h.1) fun _ _ h => h

/-- Two descriptions together. -/
theorem Safe.and {α : Type} {c : Code α} {G2 : Act} {P1 P2 : Glob → Prop} {Q1 Q2 : α → Glob → Prop}
    (h1 : Safe t R G c P1 Q1) (h2 : Safe t R G2 c P2 Q2) :
    Safe t R G c (fun g => P1 g ∧ P2 g) (fun a g => Q1 a g ∧ Q2 a g) := by
  have hs : ∀ {A B : Glob → Prop}, Stable R A → Stable R B → Stable R (fun g => A g ∧ B g) :=
    fun hA hB g g' h hr => ⟨hA g g' h.1 hr, hB g g' h.2 hr⟩
  induction c generalizing P1 P2 with
  | ret a => exact fun g h => ⟨h1 g h.1, h2 g h.2⟩
  | acc a k ih =>
    obtain ⟨A, a1, a2, a3⟩ := h1
    obtain ⟨B, b1, b2, b3⟩ := h2
    exact ⟨fun r g => A r g ∧ B r g, fun r => hs (a1 r) (b1 r),
      fun g h => ⟨(a2 g h.1).1, (a2 g h.1).2, (b2 g h.2).2⟩, fun r => ih r (a3 r) (b3 r)⟩
  | range st body k ihb ih =>
    obtain ⟨J, V, A, a1, a2, a3, a4, a5, a6, a7, a8⟩ := h1
    obtain ⟨J', V', A', b1, b2, b3, b4, b5, b6, b7, b8⟩ := h2
    exact ⟨fun st g => J st g ∧ J' st g, fun st p g => V st p g ∧ V' st p g, fun l g => A l g ∧ A' l g,
      fun st => hs (a1 st) (b1 st), fun st p => hs (a2 st p) (b2 st p), fun l => hs (a3 l) (b3 l),
      fun g h => ⟨a4 g h.1, b4 g h.2⟩, fun st p g h hv => ⟨a5 st p g h.1 hv, b5 st p g h.2 hv⟩,
      fun st p => ihb p (a6 st p) (b6 st p), fun st g h he => ⟨a7 st g h.1 he, b7 st g h.2 he⟩,
      fun l => ih l (a8 l) (b8 l)⟩

/-- What no access changes and the others keep. -/
theorem Safe.keep {α : Type} (c : Code α) {F : Glob → Prop} (hst : Stable R F)
    (ha : ∀ (β : Type) (a : Acc β) (g : Glob), F g → F (a.run t g).1) :
    Safe t R (Any fun _ _ => True) c F (fun _ => F) := by
  induction c with
  | ret a => exact fun g h => h
  | acc a k ih => exact ⟨fun _ => F, fun _ => hst, fun g h => ⟨trivial, ha _ a g h⟩, ih⟩
  | range st body k ihb ih =>
    exact ⟨fun _ => F, fun _ _ => F, fun _ => F, fun _ => hst, fun _ _ => hst, fun _ => hst, fun _ h => h,
      fun _ _ _ h _ => h, fun _ p => ihb p, fun _ _ h _ => h, ih⟩

/-- Every result the code may end with satisfies `φ`. -/
def Code.Ends {α : Type} (φ : α → Prop) : Code α → Prop
  | .ret a => φ a
  | .acc _ k => ∀ r, (k r).Ends φ
  | .range _ _ k => ∀ l, (k l).Ends φ

theorem Safe.ends {α : Type} {φ : α → Prop} : ∀ {c : Code α}, c.Ends φ →
    Safe t R (Any fun _ _ => True) c (fun _ => True) (fun a _ => φ a) := by
  have hT : Stable R (fun _ => True) := fun _ _ _ _ => trivial
  have any : ∀ c : Code Unit, Safe t R (Any fun _ _ => True) c (fun _ => True) (fun _ _ => True) := fun c =>
    Safe.keep c hT fun _ _ _ _ => trivial
  intro c
  induction c with
  | ret a => exact fun h g _ => h
  | acc a k ih => exact fun h => ⟨fun _ _ => True, fun _ => hT, fun g _ => ⟨trivial, trivial⟩, fun r => ih r (h r)⟩
  | range st body k ihb ih =>
    exact fun h => ⟨fun _ _ => True, fun _ _ _ => True, fun _ _ => True, fun _ => hT, fun _ _ => hT, fun _ => hT,
      fun _ _ => trivial, fun _ _ _ _ _ => trivial, fun _ p => any (body p), fun _ _ _ _ => trivial,
      fun l => ih l (h l)⟩

/-- An access with a known answer. -/
theorem Safe.det {α β : Type} {a : Acc β} {k : β → Code α} {P : Glob → Prop} {Q : α → Glob → Prop} (r : β)
    (P' : Glob → Prop) (hst : Stable R P')
    (ha : ∀ g, P g → G β a g (a.run t g).1 ∧ (a.run t g).2 = r ∧ P' (a.run t g).1)
    (hk : Safe t R G (k r) P' Q) : Safe t R G (.acc a k) P Q := by
  refine ⟨fun r' g => r' = r ∧ P' g, ?_, fun g hg => ⟨(ha g hg).1, (ha g hg).2⟩, ?_⟩
  · rintro r' g g' ⟨h1, h2⟩ h3
    exact ⟨h1, hst g g' h2 h3⟩
  · intro r'
    exact Safe.of_fact fun h => h ▸ hk

/-- A step of the goroutine: what it does is guaranteed, and it is as safe as before. -/
theorem Safe.step {α : Type} {c : Code α} {P : Glob → Prop} {Q : α → Glob → Prop} (h : Safe t R G c P Q)
    (hst : Stable R P) {g : Glob} (hg : P g) (pick : Option Path) :
    ((∃ β a, G β a g (c.step t pick g).1) ∨ (c.step t pick g).1 = g) ∧
      ∃ P', Stable R P' ∧ P' (c.step t pick g).1 ∧ Safe t R G (c.step t pick g).2 P' Q := by
  cases c with
  | ret a => exact ⟨Or.inr rfl, P, hst, hg, h⟩
  | acc a k =>
    obtain ⟨P', h1, h2, h3⟩ := h
    exact ⟨Or.inl ⟨_, a, (h2 g hg).1⟩, P' _, h1 _, (h2 g hg).2, h3 _⟩
  | range st body k =>
    have h0 := h
    obtain ⟨J, V, P', h1, h2, h3, h4, h5, h6, h7, h8⟩ := h
    cases st with
    | none =>
      refine ⟨Or.inr rfl, J (RangeSt.begin g), h1 _, h4 g hg, ?_⟩
      exact ⟨J, V, P', h1, h2, h3, fun g' hg' => hg', h5, h6, h7, h8⟩
    | some st =>
      cases pick with
      | some p =>
        simp only [Code.step]
        by_cases hv : st.MayVisit g p
        · simp only [if_pos hv]
          refine ⟨Or.inr trivial, V st p, h2 st p, h5 st p g (h4 g hg) hv, ?_⟩
          exact (h6 st p).bind fun _ => ⟨J, V, P', h1, h2, h3, fun g' hg' => hg', h5, h6, h7, h8⟩
        · simp only [if_neg hv]
          exact ⟨Or.inr trivial, P, hst, hg, h0⟩
      | none =>
        simp only [Code.step]
        by_cases hv : st.MayEnd g
        · simp only [if_pos hv]
          exact ⟨Or.inr trivial, P' st.seen, h3 _, h7 st g (h4 g hg) hv, h8 _⟩
        · simp only [if_neg hv]
          exact ⟨Or.inr trivial, P, hst, hg, h0⟩

/-- The clock moves. -/
def Ticks : Rel := fun g g' => ∃ now, g' = { g with w := { g.w with now := now } }

/-- Everything the goroutines do is guaranteed by one of them, or is the clock moving. -/
structure SysSafe {α : Type} (R : Nat → Rel) (G : Nat → Act) (Q : Nat → α → Glob → Prop) (s : Sys α) : Prop where
  each : ∀ t, ∃ P, Stable (R t) P ∧ P s.g ∧ Safe t (R t) (G t) (s.code t) P (Q t)

theorem SysSafe.step {α : Type} {R : Nat → Rel} {G : Nat → Act} {Q : Nat → α → Glob → Prop} {s : Sys α} (h : SysSafe R G Q s)
    (hRG : ∀ t u, t ≠ u → ∀ β a g g', G u β a g g' → R t g g') (htick : ∀ t g g', Ticks g g' → R t g g') (e : Event) :
    SysSafe R G Q (s.step e) := by
  constructor
  intro t
  obtain ⟨P, h1, h2, h3⟩ := h.each t
  cases e with
  | tick now =>
    exact ⟨P, h1, h1 _ _ h2 (htick t _ _ ⟨now, rfl⟩), h3⟩
  | go u pick =>
    by_cases hu : t = u
    · subst hu
      obtain ⟨_, P', h5, h6, h7⟩ := h3.step h1 h2 pick
      refine ⟨P', h5, h6, ?_⟩
      simp only [Sys.step, if_true]
      exact h7
    · obtain ⟨P1, h4, h5, h6⟩ := h.each u
      obtain ⟨h7, _⟩ := h6.step h4 h5 pick
      refine ⟨P, h1, ?_, ?_⟩
      · simp only [Sys.step]
        rcases h7 with ⟨β, a, h7⟩ | h7
        · exact h1 _ _ h2 (hRG t u hu β a _ _ h7)
        · rw [h7]; exact h2
      · simp only [Sys.step, if_neg hu]
        exact h3

theorem SysSafe.run {α : Type} {R : Nat → Rel} {G : Nat → Act} {Q : Nat → α → Glob → Prop}
    (hRG : ∀ t u, t ≠ u → ∀ β a g g', G u β a g g' → R t g g') (htick : ∀ t g g', Ticks g g' → R t g g') (es : List Event) :
    ∀ {s : Sys α}, SysSafe R G Q s → SysSafe R G Q (s.run es) := by
  induction es with
  | nil => intro s h; exact h
  | cons e es ih => intro s h; exact ih (h.step hRG htick e)

/-- What an ended goroutine has brought about. -/
theorem SysSafe.ended {α : Type} {R : Nat → Rel} {G : Nat → Act} {Q : Nat → α → Glob → Prop} {s : Sys α} (h : SysSafe R G Q s)
    {t : Nat} {a : α} (ha : s.code t = .ret a) : Q t a s.g := by
  obtain ⟨P, _, h2, h3⟩ := h.each t
  rw [ha] at h3
  exact h3 _ h2

/-- What everybody preserves is preserved. -/
theorem SysSafe.keeps {α : Type} {R : Nat → Rel} {G : Nat → Act} {Q : Nat → α → Glob → Prop}
    (hRG : ∀ t u, t ≠ u → ∀ β a g g', G u β a g g' → R t g g') (htick : ∀ t g g', Ticks g g' → R t g g')
    {I : Glob → Prop} (hG : ∀ t β a g g', I g → G t β a g g' → I g') (hT : ∀ g g', I g → Ticks g g' → I g') (es : List Event) :
    ∀ {s : Sys α}, SysSafe R G Q s → I s.g → I (s.run es).g := by
  induction es with
  | nil => intro s _ h; exact h
  | cons e es ih =>
    intro s h hI
    refine ih (h.step hRG htick e) ?_
    cases e with
    | tick now => exact hT _ _ hI ⟨now, rfl⟩
    | go t pick =>
      obtain ⟨P, h1, h2, h3⟩ := h.each t
      rcases (h3.step h1 h2 pick).1 with ⟨β, a, h4⟩ | h4
      · exact hG t β a _ _ hI h4
      · simp only [Sys.step]; rw [h4]; exact hI

/-! ### Who made what does not matter -/

/-- The same but for who made what. -/
structure SameBut (g g' : Glob) : Prop where
  w : g'.w = g.w
  came : g'.came = g.came
  gone : g'.gone = g.gone

theorem SameBut.acc {t : Nat} {g g' : Glob} (h : SameBut g g') {β : Type} (a : Acc β) :
    SameBut (a.run t g).1 (a.run t g').1 ∧ (a.run t g').2 = (a.run t g).2 := by
  obtain ⟨w, c, d, o⟩ := g
  obtain ⟨w', c', d', o'⟩ := g'
  obtain ⟨h1, h2, h3⟩ := h
  simp only at h1 h2 h3
  subst h1; subst h2; subst h3
  cases a <;> exact ⟨⟨rfl, rfl, rfl⟩, rfl⟩

theorem SameBut.step {t : Nat} {g g' : Glob} (h : SameBut g g') {α : Type} (c : Code α) (pick : Option Path) :
    SameBut (c.step t pick g).1 (c.step t pick g').1 ∧ (c.step t pick g').2 = (c.step t pick g).2 := by
  cases c with
  | ret a => exact ⟨h, rfl⟩
  | acc a k =>
    obtain ⟨h1, h2⟩ := h.acc (t := t) a
    refine ⟨h1, ?_⟩
    simp only [Code.step, h2]
  | range st body k =>
    obtain ⟨w, c, d, o⟩ := g
    obtain ⟨w', c', d', o'⟩ := g'
    obtain ⟨h1, h2, h3⟩ := h
    simp only at h1 h2 h3
    subst h1; subst h2; subst h3
    cases st with
    | none => exact ⟨⟨rfl, rfl, rfl⟩, rfl⟩
    | some st =>
      cases pick with
      | none =>
        by_cases he : st.MayEnd ⟨w', c', d', o⟩
        · have he' : st.MayEnd ⟨w', c', d', o'⟩ := he
          simp only [Code.step, if_pos he, if_pos he']
          exact ⟨⟨rfl, rfl, rfl⟩, trivial⟩
        · have he' : ¬ st.MayEnd ⟨w', c', d', o'⟩ := he
          simp only [Code.step, if_neg he, if_neg he']
          exact ⟨⟨rfl, rfl, rfl⟩, trivial⟩
      | some p =>
        by_cases he : st.MayVisit ⟨w', c', d', o⟩ p
        · have he' : st.MayVisit ⟨w', c', d', o'⟩ p := he
          simp only [Code.step, if_pos he, if_pos he']
          exact ⟨⟨rfl, rfl, rfl⟩, trivial⟩
        · have he' : ¬ st.MayVisit ⟨w', c', d', o'⟩ p := he
          simp only [Code.step, if_neg he, if_neg he']
          exact ⟨⟨rfl, rfl, rfl⟩, trivial⟩

theorem SameBut.run {α : Type} (es : List Event) : ∀ {s s' : Sys α}, SameBut s.g s'.g → s'.code = s.code →
    SameBut (s.run es).g (s'.run es).g ∧ (s'.run es).code = (s.run es).code := by
  induction es with
  | nil => intro s s' h1 h2; exact ⟨h1, h2⟩
  | cons e es ih =>
    intro s s' h1 h2
    cases e with
    | tick now =>
      refine ih (s := s.step (.tick now)) (s' := s'.step (.tick now)) ⟨?_, h1.came, h1.gone⟩ h2
      simp only [Sys.step, h1.w]
    | go t pick =>
      obtain ⟨h3, h4⟩ := h1.step (t := t) (s.code t) pick
      refine ih (s := s.step (.go t pick)) (s' := s'.step (.go t pick)) ?_ ?_
      · simp only [Sys.step, h2]; exact h3
      · funext u
        simp only [Sys.step, h2, h4]

end Fine
end Verif
