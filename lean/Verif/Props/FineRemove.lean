import Verif.Lemmas.FineRemove
import Verif.Props.FineWalk

/-! C94, C95: goroutines that remove files, and whether calls are atomic. -/

namespace Verif
namespace Props

open Mem Fine FineWriters

namespace FineRemove

variable {α : Type}

theorem gone_begin {E : Env} {w : World} {ps : Nat → Prog α} (q : Path) : Gone q (begin E w ps).g := fun h => (by cases h)

/-- If the program of `t` makes sure that `q` is not there when it ends and nobody else stores it, it is not there. -/
theorem removed (E : Env) {w : World} {ps : Nat → Prog α} {t : Nat} {q : Path} {X : α → Prop}
    (ht : Safe t (NoMore q) (Any (NoMore q)) ((ps t).code E w.here []) (Gone q) (fun r g => X r ∧ Absent q g))
    (hoth : ∀ u, u ≠ t → (ps u).All fun c => ¬ c.Stores E w.here q) (es : List Event) {r : α}
    (hret : ((begin E w ps).run es).code t = .ret r) : X r ∧ ¬ Stored ((begin E w ps).run es).g.w q := by
  have hs : SysSafe (fun _ => NoMore q) (fun _ => Any (NoMore q)) (fun u r g => u = t → X r ∧ Absent q g) (begin E w ps) := by
    constructor
    intro u
    by_cases hu : u = t
    · subst hu
      exact ⟨Gone q, Gone.stable q, gone_begin q, ht.mono (fun _ h => h) fun _ _ h _ => h⟩
    · refine ⟨Gone q, Gone.stable q, gone_begin q, ?_⟩
      have hw : ((ps u).code E w.here []).Within (fun p => p ≠ q) (fun _ => True) :=
        within_prog E w.here (ps u) [] ((hoth u hu).mono fun c hc => ⟨fun p hp e => hc (e ▸ hp), fun _ _ => trivial⟩)
      exact (within_safe (fun h => h rfl) (Gone.stable q) hw).mono (fun _ h => h) fun _ _ _ e => absurd e hu
  have h := (SysSafe.run (R := fun _ => NoMore q) (G := fun _ => Any (NoMore q)) (fun _ _ _ _ _ _ _ h => h) (fun _ _ _ h => NoMore.ticks h)
    es hs).ended hret rfl
  refine ⟨h.1, ?_⟩
  rintro ⟨id, hid⟩
  rw [h.2.1] at hid
  cases hid

end FineRemove

open FineRemove

/-- **C94** (`RemoveAll`).  One goroutine calls `RemoveAll(name)` and goes on with `k`; the others do what they like, everybody
interrupted anywhere.  When it has ended, no path whose name begins with the one removed is there, unless somebody may have
stored it anew; `RemoveAll` reports no error. -/
theorem C94_removeAll {α : Type} (E : Env) {i : Info} {w : World} (hr : Reached E i w) (ps : Nat → Fine.Prog α) {t : Nat} {name : Str}
    {pt : Path} {k : Fine.Ans → Fine.Prog α} (hp : E.parse i name = .ok pt) (ht : ps t = .step (.removeAll name) k) {q : Path}
    (hq : Str.hasPrefix q.name pt.name = true) (hk : ∀ a, (k a).All fun c => ¬ c.Stores E i q)
    (hoth : ∀ u, u ≠ t → (ps u).All fun c => ¬ c.Stores E i q) (es : List Event) {r : α}
    (hret : ((begin E w ps).run es).code t = .ret r) :
    ¬ Stored ((begin E w ps).run es).g.w q ∧ ∀ fin : Fine.Ans → α, (k = fun a => .ret (fin a)) → r = fin (.did (.ok ())) := by
  have hk' : ∀ a hs, ((k a).code E i hs).Within (fun p => p ≠ q) (fun _ => True) := fun a hs =>
    within_prog E i (k a) hs ((hk a).mono fun c hc => ⟨fun p hp e => hc (e ▸ hp), fun _ _ => trivial⟩)
  have first : Safe t (NoMore q) (Any (NoMore q)) (callC E i [] (.removeAll name)) (Gone q)
      (fun x g => x.2 = .did (.ok ()) ∧ Absent q g) :=
    (removeAll_safe E i hp hq).bind fun r g h => ⟨by rw [h.1], h.2⟩
  have key : ∀ X : α → Prop, (∀ hs, Safe t (NoMore q) (Any (NoMore q)) ((k (.did (.ok ()))).code E i hs) (Absent q)
      (fun r g => X r ∧ Absent q g)) → X r ∧ ¬ Stored ((begin E w ps).run es).g.w q := by
    intro X hX
    refine removed E ?_ (by rw [hr.here]; exact hoth) es hret
    rw [ht, hr.here]
    refine first.bind fun x => Safe.of_fact fun hx => ?_
    rw [hx]
    exact hX _
  refine ⟨(key (fun _ => True) fun hs => (within_safe (fun h => h rfl) (Absent.stable q) (hk' _ hs)).mono (fun _ h => h)
    fun _ _ h => ⟨trivial, h⟩).2, ?_⟩
  rintro fin rfl
  exact (key (fun r => r = fin (.did (.ok ()))) fun hs g h => ⟨rfl, h⟩).1

/-- **C94** (`Remove`).  The same for `Remove(name)` and the path named. -/
theorem C94_remove {α : Type} (E : Env) {i : Info} {w : World} (hr : Reached E i w) (ps : Nat → Fine.Prog α) {t : Nat} {name : Str}
    {q : Path} {fin : Fine.Ans → α} (hp : E.parse i name = .ok q) (ht : ps t = .step (.remove name) fun a => .ret (fin a))
    (hoth : ∀ u, u ≠ t → (ps u).All fun c => ¬ c.Stores E i q) (es : List Event) {r : α}
    (hret : ((begin E w ps).run es).code t = .ret r) :
    ¬ Stored ((begin E w ps).run es).g.w q ∧ (r = fin (.did (.ok ())) ∨ r = fin (.did (.err (.pathError .noSuchFile)))) := by
  refine And.symm (removed E (X := fun r => r = fin (.did (.ok ())) ∨ r = fin (.did (.err (.pathError .noSuchFile)))) ?_
    (by rw [hr.here]; exact hoth) es hret)
  rw [ht, hr.here]
  refine Safe.bind (Q1 := fun x g => (x.2 = .did (.ok ()) ∨ x.2 = .did (.err (.pathError .noSuchFile))) ∧ Absent q g)
    ((remove_safe E i hp).bind fun r g h => ⟨?_, h.2⟩) fun x g h => ⟨?_, h.2⟩
  · exact h.1.imp (fun h => by rw [h]) fun h => by rw [h]
  · exact h.1.imp (fun h => by rw [h]) fun h => by rw [h]

/-- **C94** (the rest stays).  What nobody stores or deletes stays as it is, with the same file object, at every moment. -/
theorem C94_rest {α : Type} (E : Env) {i : Info} {w : World} (hr : Reached E i w) (ps : Nat → Fine.Prog α) {q : Path}
    (h : ∀ u, (ps u).All fun c => ¬ c.Stores E i q ∧ ¬ c.Deletes E i q) (es : List Event) :
    AMap.get ((begin E w ps).run es).g.w.files q = AMap.get w.files q := by
  let R : Rel := fun g g' => AMap.get g'.w.files q = AMap.get g.w.files q
  let P : Glob → Prop := fun g => AMap.get g.w.files q = AMap.get w.files q
  have hst : Stable R P := fun g g' h1 h2 => h2.trans h1
  have acc : ∀ {β : Type} (t : Nat) (a : Acc β) (g : Glob), ¬ a.Stores q → ¬ a.Deletes q → R g (a.run t g).1 := by
    intro β t a g h1 h2
    cases a with
    | store k id => exact AMap.get_set_ne _ _ fun e => h1 e.symm
    | delete k => exact AMap.get_erase_ne _ fun e => h2 e.symm
    | _ => rfl
  have safe : ∀ (t : Nat) {β : Type} {c : Code β}, c.Within (fun p => p ≠ q) (fun p => p ≠ q) →
      Safe t R (Any R) c P (fun _ => P) := by
    intro t β c hc
    induction c with
    | ret a => exact fun g hg => hg
    | acc a k ih =>
      refine ⟨fun _ => P, fun _ => hst, fun g hg => ?_, fun r => ih r (hc.2.2 r)⟩
      have := acc t a g (fun h => hc.1 q h rfl) fun h => hc.2.1 q h rfl
      exact ⟨this, hst g _ hg this⟩
    | range st body k ihb ih =>
      exact ⟨fun _ => P, fun _ _ => P, fun _ => P, fun _ => hst, fun _ _ => hst, fun _ => hst, fun _ h => h,
        fun _ _ _ h _ => h, fun _ p => ihb p (hc.1 p), fun _ _ h _ => h, fun l => ih l (hc.2 l)⟩
  have hs : SysSafe (fun _ => R) (fun _ => Any R) (fun _ (_ : α) _ => True) (begin E w ps) := by
    constructor
    intro u
    refine ⟨P, hst, rfl, (safe u ?_).mono (fun _ h => h) fun _ _ _ => trivial⟩
    show ((ps u).code E w.here []).Within _ _
    rw [hr.here]
    exact within_prog E i (ps u) [] ((h u).mono fun c hc => ⟨fun p hp e => hc.1 (e ▸ hp), fun p hp e => hc.2 (e ▸ hp)⟩)
  exact SysSafe.keeps (R := fun _ => R) (G := fun _ => Any R) (fun _ _ _ _ _ _ _ h => h)
    (fun _ g g' h => by obtain ⟨now, rfl⟩ := h; exact rfl) (I := P) (fun _ _ _ g g' h1 h2 => hst g g' h1 h2)
    (fun g g' h1 h2 => by obtain ⟨now, rfl⟩ := h2; exact h1) es hs rfl

/-- Where there are `/d`, `/d/a` and `/e`. -/
def rmOps : List Op := [.mkdirAll (b! "/d") 0o755, .create (b! "/d/a"), .create (b! "/e")]

/-- One goroutine removes `/d`, another creates the file named. -/
def rmProgs (name : Str) : Nat → Fine.Prog Fine.Ans := fun u =>
  if u = 0 then .step (.removeAll (b! "/d")) fun a => .ret a
  else if u = 1 then .step (.create name) fun a => .ret a
  else .ret (.wrote 0)

theorem rmOps_reached : Reached Demo.env Demo.info (Demo.after rmOps) :=
  Reached.ofNew 1000 rmOps (by intro o ho; simp [rmOps] at ho; rcases ho with rfl | rfl | rfl <;> trivial)

/-- The hypotheses of `C94_removeAll` are met for `/d/a`, while another goroutine creates `/f`. -/
example : Demo.env.parse Demo.info (b! "/d") = .ok ⟨b! "app", b! "/d"⟩ ∧ Str.hasPrefix (b! "/d/a") (b! "/d") = true ∧
    (AMap.get (Demo.after rmOps).files ⟨b! "app", b! "/d/a"⟩).isSome = true ∧
    ∀ u, u ≠ 0 → (rmProgs (b! "/f") u).All fun c => ¬ c.Stores Demo.env Demo.info ⟨b! "app", b! "/d/a"⟩ := by
  refine ⟨by decide +kernel, by decide, by decide +kernel, ?_⟩
  have pr : Demo.env.parse Demo.info GoPath.rootS = .ok ⟨b! "app", b! "/"⟩ := by decide +kernel
  have pf : Demo.env.parse Demo.info (b! "/f") = .ok ⟨b! "app", b! "/f"⟩ := by decide +kernel
  intro u hu
  unfold rmProgs
  rw [if_neg hu]
  split
  · refine ⟨?_, fun _ => trivial⟩
    rintro (h | h)
    · rcases makes_of _ _ pr h with e | ⟨hd, _⟩
      · revert e; decide
      · exact hd (by decide)
    · rw [pf] at h; revert h; decide
  · trivial

/-! ### Are calls atomic? -/

/-- The call changes which paths there are. -/
def Changes : Fine.Call → Prop
  | .create _ => True
  | .mkdirAll _ _ => True
  | .remove _ => True
  | .removeAll _ => True
  | _ => False

/-- Two goroutines with one call each. -/
def pair (c d : Fine.Call) : Nat → Fine.Prog Fine.Ans := fun u =>
  if u = 0 then .step c fun a => .ret a else if u = 1 then .step d fun a => .ret a else .ret (.wrote 0)

/-- First `c`, then `d`: the answers, and whether `q` is there in the end. -/
def inTurn (E : Env) (w : World) (c d : Fine.Call) (a b : Fine.Ans) (q : Path) (there : Prop) : Prop :=
  (whole E w [] c).2.2 = a ∧ (whole E (whole E w [] c).1 [] d).2.2 = b ∧ (Stored (whole E (whole E w [] c).1 [] d).1 q ↔ there)

/-- **C95**, in full: two calls made at the same time answer, and leave behind, what they would one after the other. -/
def C95_statement (E : Env) : Prop :=
  ∀ (i : Info) (w : World) (c d : Fine.Call) (es : List Event) (a b : Fine.Ans), Reached E i w → Changes c → Changes d →
    ((begin E w (pair c d)).run es).code 0 = .ret a → ((begin E w (pair c d)).run es).code 1 = .ret b →
    ∀ q, inTurn E w c d a b q (Stored ((begin E w (pair c d)).run es).g.w q) ∨
      inTurn E w d c b a q (Stored ((begin E w (pair c d)).run es).g.w q)

/-- Both look whether the file is there, then both delete it. -/
def twiceEvents : List Event := [.go 0 none, .go 1 none, .go 0 none, .go 1 none]

/-- **C95 is false in full**: two goroutines remove the same file, and both are told that they have. -/
theorem C95_refuted : ¬ C95_statement Demo.env := by
  intro h
  have r0 : result (((begin Demo.env (Demo.after rmOps) (pair (.remove (b! "/e")) (.remove (b! "/e")))).run twiceEvents).code 0) =
      some (.did (.ok ())) := by decide +kernel
  have r1 : result (((begin Demo.env (Demo.after rmOps) (pair (.remove (b! "/e")) (.remove (b! "/e")))).run twiceEvents).code 1) =
      some (.did (.ok ())) := by decide +kernel
  have s : (whole Demo.env (whole Demo.env (Demo.after rmOps) [] (.remove (b! "/e"))).1 [] (.remove (b! "/e"))).2.2 ≠ .did (.ok ()) := by
    decide +kernel
  rcases h Demo.info (Demo.after rmOps) (.remove (b! "/e")) (.remove (b! "/e")) twiceEvents _ _ rmOps_reached trivial trivial
    (result_eq r0) (result_eq r1) ⟨b! "app", b! "/e"⟩ with h | h
  · exact s h.2.1
  · exact s h.2.1

/-- `Create` has seen the directory when `RemoveAll` removes it. -/
def orphanEvents : List Event :=
  List.replicate 8 (.go 1 none) ++ [.go 0 none] ++
  [b! "/d", b! "/d/a", b! "/", b! "/e"].flatMap (fun n => .go 0 (some ⟨b! "app", n⟩) ::
    (if Str.hasPrefix n (b! "/d") then [.go 0 none] else [])) ++ [.go 0 none] ++ List.replicate 3 (.go 1 none)

/-- **C95 is false in full**, for files and their directories too: `Create` below a directory and `RemoveAll` of the directory both
succeed, and the file is there without its directory. -/
theorem C95_orphan_refuted :
    (result (((begin Demo.env (Demo.after rmOps) (rmProgs (b! "/d/f"))).run orphanEvents).code 0) = some (.did (.ok ())) ∧
      result (((begin Demo.env (Demo.after rmOps) (rmProgs (b! "/d/f"))).run orphanEvents).code 1) = some (.reads (.opened (.ok 0))) ∧
      (AMap.get ((begin Demo.env (Demo.after rmOps) (rmProgs (b! "/d/f"))).run orphanEvents).g.w.files ⟨b! "app", b! "/d/f"⟩).isSome = true ∧
      (AMap.get ((begin Demo.env (Demo.after rmOps) (rmProgs (b! "/d/f"))).run orphanEvents).g.w.files ⟨b! "app", b! "/d"⟩).isSome = false) ∧
    ¬ C95_statement Demo.env := by
  have r0 : result (((begin Demo.env (Demo.after rmOps) (rmProgs (b! "/d/f"))).run orphanEvents).code 0) = some (.did (.ok ())) := by
    decide +kernel
  have r1 : result (((begin Demo.env (Demo.after rmOps) (rmProgs (b! "/d/f"))).run orphanEvents).code 1) =
      some (.reads (.opened (.ok 0))) := by decide +kernel
  have f : (AMap.get ((begin Demo.env (Demo.after rmOps) (rmProgs (b! "/d/f"))).run orphanEvents).g.w.files
      ⟨b! "app", b! "/d/f"⟩).isSome = true := by decide +kernel
  refine ⟨⟨r0, r1, f, by decide +kernel⟩, fun h => ?_⟩
  have s : (AMap.get (whole Demo.env (whole Demo.env (Demo.after rmOps) [] (.create (b! "/d/f"))).1 [] (.removeAll (b! "/d"))).1.files
      ⟨b! "app", b! "/d/f"⟩).isSome = false := by decide +kernel
  have s' : (whole Demo.env (whole Demo.env (Demo.after rmOps) [] (.removeAll (b! "/d"))).1 [] (.create (b! "/d/f"))).2.2 ≠
      .reads (.opened (.ok 0)) := by decide +kernel
  rcases h Demo.info (Demo.after rmOps) (.removeAll (b! "/d")) (.create (b! "/d/f")) orphanEvents _ _ rmOps_reached trivial trivial
    (result_eq r0) (result_eq r1) ⟨b! "app", b! "/d/f"⟩ with h | h
  · exact s' h.2.1
  · obtain ⟨id, hid⟩ := h.2.2.mpr (Option.isSome_iff_exists.mp f)
    rw [hid] at s
    cases s

end Props
end Verif
