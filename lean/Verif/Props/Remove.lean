import Verif.Lemmas.Handle
import Verif.Spec.Tree
import Verif.Spec.Demo

/-! C13, C14: removal. -/

namespace Verif
namespace Props

open Mem Spec

/-- **C13.** A successful `Remove` makes `Stat` and `Open` fail for the name and for every other name of
the same path, leaves what `Stat` and `Open` show of every other path, and leaves every file object (and
so every handle) alone. -/
theorem C13_remove_exactly (E : Env) {w w1 : World} {name : Str}
    (hr : remove E w name = (w1, .ok ())) :
    ∃ pt, E.parse w.here name = .ok pt ∧
      (∀ other, E.parse w.here other = .ok pt →
        (∃ e, statView E w1 other = .err e) ∧ (∃ e, openView E w1 other = .err e)) ∧
      (∀ other, E.parse w.here other ≠ .ok pt → SameAt E w w1 other) ∧
      w1.heap = w.heap ∧ w1.here = w.here := by
  unfold remove parse at hr
  cases hp : E.parse w.here name with
  | error e => simp [hp] at hr
  | ok pt =>
    rw [hp] at hr
    simp only at hr
    cases hg : AMap.get w.files pt with
    | none => simp [hg] at hr
    | some id =>
      simp only [hg, Prod.mk.injEq, and_true] at hr
      refine ⟨pt, rfl, ?_, ?_, by rw [← hr], by rw [← hr]⟩
      · intro other ho
        constructor
        · refine ⟨.couldNotStat, ?_⟩
          rw [statView_eq, ← hr]
          simp [ho, lookup]
        · refine ⟨.notExist, ?_⟩
          rw [openView_eq, ← hr]
          simp [ho, lookup]
      · intro other ho
        apply sameAt_of_lookup (by rw [← hr])
        intro q hq
        have hne : q ≠ pt := by rintro rfl; exact ho hq
        rw [← hr]
        simp [lookup, AMap.get_erase_ne _ hne]

/-- **C13** (missing). `Remove` of a path that is not stored, or of a name that does not parse, returns an
error and changes nothing at all. -/
theorem C13_remove_missing (E : Env) (w : World) (name : Str)
    (h : ∀ pt, E.parse w.here name = .ok pt → ¬ Stored w pt) :
    ∃ e, remove E w name = (w, .err e) := by
  unfold remove parse
  cases hp : E.parse w.here name with
  | error e => exact ⟨e, rfl⟩
  | ok pt =>
    have := h pt hp
    unfold Stored at this
    cases hg : AMap.get w.files pt with
    | none => exact ⟨.pathError .noSuchFile, by simp only [hg]⟩
    | some id => exact absurd ⟨id, hg⟩ this

example :
    let w := Demo.after [.create (b! "/a"), .create (b! "/ab"), .write 3 (b! "x"), .close 3]
    (remove Demo.env w (b! "/a")).2 = .ok () ∧
    Demo.env.parse w.here (b! "/a") = .ok ⟨b! "app", b! "/a"⟩ ∧
    Demo.env.parse w.here (b! "/ab") ≠ .ok ⟨b! "app", b! "/a"⟩ ∧
    openView Demo.env (remove Demo.env w (b! "/a")).1 (b! "/ab") =
      .ok (⟨b! "ab", 1, 0o644, 1000, false⟩, b! "x") ∧
    (remove Demo.env w (b! "/nope")).2 = .err (.pathError .noSuchFile) := by decide +kernel

/-- The statement of **C14**: `RemoveAll` deletes the named tree and nothing else. -/
def C14_statement (E : Env) : Prop :=
  ∀ (i : Info) (t : Int) (ops : List Op) (name : Str) (pt : Path), (∀ o ∈ ops, o.HostOk) →
    E.parse i name = .ok pt →
    (removeAll E (run E (new i t) ops) name).2 = .ok () ∧
    ∀ q, (InTree pt q → lookup (removeAll E (run E (new i t) ops) name).1 q = none) ∧
      (¬ InTree pt q →
        lookup (removeAll E (run E (new i t) ops) name).1 q = lookup (run E (new i t) ops) q)

theorem not_inTree_foobar : ¬ InTree ⟨b! "app", b! "/foo"⟩ ⟨b! "app", b! "/foobar"⟩ := by
  rintro ⟨_, cs, ds, hg, h1, h2⟩
  have h1 : b! "/foo" = GoPath.mk cs := h1
  have h2 : b! "/foobar" = GoPath.mk (cs ++ ds) := h2
  have e1 : cs = [b! "foo"] := by
    have := congrArg GoPath.elems h1
    rw [GoPath.elems_mk (GoPath.good_append.mp hg).1] at this
    rw [← this]; decide +kernel
  have e2 : cs ++ ds = [b! "foobar"] := by
    have := congrArg GoPath.elems h2
    rw [GoPath.elems_mk hg] at this
    rw [← this]; decide +kernel
  subst e1
  simp at e2

/-- **C14 is false**: `RemoveAll("/foo")` also deletes `/foobar`. -/
theorem C14_removeAll_refuted : ¬ C14_statement Demo.env := by
  intro h
  have := (h Demo.info 1000 [.create (b! "/foobar")] (b! "/foo") ⟨b! "app", b! "/foo"⟩
    (by intro o ho; simp at ho; subst ho; trivial) (by decide +kernel)).2 ⟨b! "app", b! "/foobar"⟩
  have h2 := this.2 not_inTree_foobar
  revert h2
  decide +kernel

/-- **C14** (the other violation): entries of other packages are deleted too. -/
theorem C14_other_package_refuted :
    ∃ (ops : List Op) (q : Path), (∀ o ∈ ops, o.HostOk) ∧ q.pkg ≠ b! "app" ∧
      Stored (run Demo.env (new Demo.info 1000) ops) q ∧
      Demo.env.parse Demo.info (b! "/foo") = .ok ⟨b! "app", b! "/foo"⟩ ∧
      ¬ Stored (removeAll Demo.env (run Demo.env (new Demo.info 1000) ops) (b! "/foo")).1 q := by
  refine ⟨[.mkdirAll (b! "lib:/foo") 0o755], ⟨b! "lib", b! "/foo"⟩, ?_, by decide +kernel, ?_,
    by decide +kernel, ?_⟩
  · intro o ho; simp at ho; subst ho; trivial
  · refine ⟨0, ?_⟩
    decide +kernel
  · rintro ⟨id, hid⟩
    have hn : AMap.get (removeAll Demo.env (run Demo.env (new Demo.info 1000)
      [.mkdirAll (b! "lib:/foo") 0o755]) (b! "/foo")).1.files ⟨b! "lib", b! "/foo"⟩ = none := by
      decide +kernel
    rw [hn] at hid
    cases hid

/-- **C14** (what holds). `RemoveAll` of a name that parses never fails, even if nothing is there; the
whole named tree is gone afterwards; every path whose name does not start with the same characters is
untouched; if no stored path of another package and no stored sibling shares those characters, nothing
outside the tree is touched; and no file object (handle) changes. -/
theorem C14_removeAll_partial (E : Env) (w : World) (name : Str) (pt : Path)
    (hp : E.parse w.here name = .ok pt) :
    (removeAll E w name).2 = .ok () ∧
    (removeAll E w name).1.heap = w.heap ∧
    (∀ q, InTree pt q → lookup (removeAll E w name).1 q = none) ∧
    (∀ q, ¬ pt.name <+: q.name → lookup (removeAll E w name).1 q = lookup w q) ∧
    ((∀ q, Stored w q → pt.name <+: q.name → InTree pt q) →
      ∀ q, ¬ InTree pt q → lookup (removeAll E w name).1 q = lookup w q) := by
  have hw : (removeAll E w name) =
      ({ w with files := w.files.filter fun e => !Str.hasPrefix e.1.name pt.name }, .ok ()) := by
    simp [removeAll, parse, hp]
  have hget : ∀ q, AMap.get (removeAll E w name).1.files q =
      if pt.name <+: q.name then none else AMap.get w.files q := by
    intro q
    rw [hw]
    simp only
    rw [AMap.get_filter w.files (fun k => !Str.hasPrefix k.name pt.name)]
    by_cases h : pt.name <+: q.name
    · simp [h, (Str.hasPrefix_iff q.name pt.name).mpr h]
    · simp [h, (Str.hasPrefix_false_iff q.name pt.name).mpr h]
  have hheap : (removeAll E w name).1.heap = w.heap := by rw [hw]
  refine ⟨by rw [hw], hheap, ?_, ?_, ?_⟩
  · intro q hq
    simp [lookup, hget, hq.2.prefix]
  · intro q hq
    simp [lookup, hget, hq, hheap]
  · intro hall q hq
    by_cases hpre : pt.name <+: q.name
    · have : ¬ Stored w q := fun he => hq (hall q he hpre)
      have hn : AMap.get w.files q = none := by
        cases hg : AMap.get w.files q with
        | none => rfl
        | some id => exact absurd ⟨id, hg⟩ this
      simp [lookup, hget, hpre, hn]
    · simp [lookup, hget, hpre, hheap]

example :
    let w := Demo.after [.mkdirAll (b! "/foo/bar") 0o755, .create (b! "/foo/bar/x"), .create (b! "/keep")]
    Demo.env.parse w.here (b! "/foo") = .ok ⟨b! "app", b! "/foo"⟩ ∧
    InTree ⟨b! "app", b! "/foo"⟩ ⟨b! "app", b! "/foo/bar/x"⟩ ∧
    ¬ (b! "/foo" <+: b! "/keep") ∧
    (keys (removeAll Demo.env w (b! "/foo")).1.files).map Path.str = [b! "app:/", b! "app:/keep"] := by
  refine ⟨by decide +kernel, ⟨rfl, [b! "foo"], [b! "bar", b! "x"], by decide, by decide, by decide⟩,
    by decide, by decide +kernel⟩

end Props
end Verif
