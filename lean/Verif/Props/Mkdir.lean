import Verif.Lemmas.Mkdir
import Verif.Spec.Demo
import Verif.Spec.Reach

/-! C15, C16: `MkdirAll`. -/

namespace Verif
namespace Props

open Mem Spec

/-- The statement of **C15**: after a successful `MkdirAll(p)`, `p` and each of its ancestors can be
`Stat`-ed and are directories. -/
def C15_statement (E : Env) : Prop :=
  ∀ (i : Info) (t : Int) (ops : List Op) (p : Str) (perm : Nat) (pt : Path), (∀ o ∈ ops, o.HostOk) →
    E.parse i p = .ok pt → (mkdirAll E (run E (new i t) ops) p perm).2 = .ok () →
    ∀ q name, InTree q pt → E.parse i name = .ok q →
      ∃ d, statView E (mkdirAll E (run E (new i t) ops) p perm).1 name = .ok d ∧ d.isDir = true

/-- **C15 is false**: for a path of another package the ancestors are made in the wrong package. -/
theorem C15_qualified_refuted : ¬ C15_statement Demo.env := by
  intro h
  obtain ⟨d, hd, _⟩ := h Demo.info 1000 [] (b! "lib:/a/b") 0o755 ⟨b! "lib", b! "/a/b"⟩ (by simp)
    (by decide +kernel) (by decide +kernel) ⟨b! "lib", b! "/a"⟩ (b! "lib:/a")
    ⟨rfl, [b! "a"], [b! "b"], by decide, by decide, by decide⟩ (by decide +kernel)
  have hn : statView Demo.env (mkdirAll Demo.env (run Demo.env (new Demo.info 1000) []) (b! "lib:/a/b") 0o755).1
      (b! "lib:/a") = .err .couldNotStat := by decide +kernel
  rw [hn] at hd
  cases hd

/-- **C15** (the other violation): the root directory is not made. -/
theorem C15_root_refuted :
    Demo.env.parse Demo.info (b! "/a") = .ok ⟨b! "app", b! "/a"⟩ ∧
    InTree ⟨b! "app", b! "/"⟩ ⟨b! "app", b! "/a"⟩ ∧
    (mkdirAll Demo.env Demo.w0 (b! "/a") 0o755).2 = .ok () ∧
    statView Demo.env (mkdirAll Demo.env Demo.w0 (b! "/a") 0o755).1 (b! "/") = .err .couldNotStat := by
  refine ⟨by decide +kernel, ⟨rfl, [], [b! "a"], by decide, by decide, by decide⟩, by decide +kernel,
    by decide +kernel⟩

/-- **C15** (what holds). For every ordinary name of the own module (it may contain `..`, `.` and double
slashes) and in every reachable state, `MkdirAll` succeeds, and afterwards every name of `p`, or of an
ancestor other than the root, is `Stat`-ed as a directory with the requested mode, the last element of its path as name
(none for the root), size 0, and the time of the call. -/
theorem C15_mkdirAll_chain_partial (E : Env) {i : Info} {w : World} (hr : Reached E i w)
    (hl : ParseLaws E i) {p : Str} (hp : Ordinary i p) (perm : Nat) :
    (mkdirAll E w p perm).2 = .ok () ∧
    ∀ q name, InTree q ⟨i.module.path, GoPath.clean p⟩ → q.name ≠ GoPath.rootS ∨ GoPath.clean p = GoPath.rootS →
      E.parse i name = .ok q →
      ∃ d, statView E (mkdirAll E w p perm).1 name = .ok d ∧ d.isDir = true ∧
        d.mode = perm ∧ (∀ cs, GoPath.Good cs → q.name = GoPath.mk cs → d.name = cs.getLast?.getD []) ∧ d.size = 0 ∧
        d.modTime = w.now := by
  have hi := hr.inv
  have hh := hr.here
  subst hh
  have hspec := mkdirAll_spec hl hi.wf hp perm
  refine ⟨hspec.1, ?_⟩
  intro q name hq hroot hname
  obtain ⟨hpkg, cs, ds, hg, h1, h2⟩ := hq
  rw [hp.clean] at h2 hroot
  have hcs : GoPath.rootedElems p = cs ++ ds := GoPath.mk_injective (GoPath.good_rootedElems p) hg h2
  have hgc := (GoPath.good_append.mp hg).1
  obtain ⟨f, hf, hinfo, _⟩ := hspec.2.1 cs (by rw [hcs]; exact List.prefix_append _ _) (by
    rcases hroot with h | h
    · left; intro hc; subst hc; exact h (by rw [h1]; rfl)
    · right; exact (GoPath.mk_eq_root (GoPath.good_rootedElems p)).mp h)
  have hqe : q = ⟨w.here.module.path, GoPath.mk cs⟩ := by
    cases q; simp only at hpkg h1; subst hpkg; subst h1; rfl
  refine ⟨dirDetails cs perm w.now, ?_, rfl, rfl, ?_, rfl, rfl⟩
  · rw [statView_eq, here_mkdirAll, hname, hqe]
    simp only [hf, hinfo]
  · intro cs' hg' hn
    rw [h1] at hn
    rw [← GoPath.mk_injective hgc hg' hn]
    rfl

example : Ordinary Demo.info (b! "/a//b/../c/d/") ∧
    GoPath.clean (b! "/a//b/../c/d/") = b! "/a/c/d" ∧
    InTree ⟨b! "app", b! "/a"⟩ ⟨b! "app", b! "/a/c/d"⟩ ∧
    (keys (mkdirAll Demo.env Demo.w0 (b! "/a//b/../c/d/") 0o755).1.files).map Path.str =
      [b! "app:/a", b! "app:/a/c", b! "app:/a/c/d"] := by
  refine ⟨by decide +kernel, by decide +kernel,
    ⟨rfl, [b! "a"], [b! "c", b! "d"], by decide, by decide, by decide⟩, by decide +kernel⟩

/-- The statement of **C16**: `MkdirAll` leaves existing entries alone. -/
def C16_statement (E : Env) : Prop :=
  ∀ (i : Info) (t : Int) (ops : List Op) (p : Str) (perm : Nat) (name : Str) (d : Details),
    (∀ o ∈ ops, o.HostOk) → statView E (run E (new i t) ops) name = .ok d →
    statView E (mkdirAll E (run E (new i t) ops) p perm).1 name = .ok d

/-- **C16 is false**: `MkdirAll("/d/e")` replaces the regular file `/d` by a directory, losing its
content. -/
theorem C16_file_replaced_refuted : ¬ C16_statement Demo.env := by
  intro h
  have := h Demo.info 1000 [.create (b! "/d"), .write 1 (b! "data"), .close 1] (b! "/d/e") 0o700 (b! "/d")
    ⟨b! "d", 4, 0o644, 1000, false⟩
    (by intro o ho; simp at ho; rcases ho with rfl | rfl | rfl <;> trivial) (by decide +kernel)
  revert this
  decide +kernel

/-- **C16** (the other violation): the mode and modification time of existing directories are reset. -/
theorem C16_mode_reset_refuted :
    let w := Demo.after [.mkdirAll (b! "/d") 0o700, .tick 2000]
    statView Demo.env w (b! "/d") = .ok ⟨b! "d", 0, 0o700, 1000, true⟩ ∧
    statView Demo.env (mkdirAll Demo.env w (b! "/d/e") 0o777).1 (b! "/d") =
      .ok ⟨b! "d", 0, 0o777, 2000, true⟩ := by decide +kernel

/-- **C16** (what holds). In every reachable state: `MkdirAll` never deletes an entry; it changes no
existing file object, so open handles are unaffected; and every name whose path is neither `p` nor an
ancestor of `p` in the own module looks the same before and after. -/
theorem C16_mkdirAll_frame_partial (E : Env) {i : Info} {w : World} (hr : Reached E i w)
    (hl : ParseLaws E i) {p : Str} (hp : Ordinary i p) (perm : Nat) :
    (∀ q, Stored w q → Stored (mkdirAll E w p perm).1 q) ∧
    (∀ id, id < w.next →
      (mkdirAll E w p perm).1.heap id = w.heap id) ∧
    (∀ name, (∀ q, E.parse i name = .ok q → ¬ InTree q ⟨i.module.path, GoPath.clean p⟩) →
      SameAt E w (mkdirAll E w p perm).1 name) := by
  have hi := hr.inv
  have hh := hr.here
  subst hh
  have hspec := mkdirAll_spec hl hi.wf hp perm
  have hchain : ∀ q, Chain E w.here p q → InTree q ⟨w.here.module.path, GoPath.clean p⟩ := by
    intro q hq
    obtain ⟨as, h1, _, rfl⟩ := hspec.2.2 q hq
    obtain ⟨ds, hds⟩ := h1
    refine ⟨rfl, as, ds, ?_, rfl, ?_⟩
    · rw [hds]; exact GoPath.good_rootedElems p
    · rw [hds]; exact hp.clean
  refine ⟨?_, ?_, ?_⟩
  · intro q hq
    by_cases hc : Chain E w.here p q
    · obtain ⟨as, h1, h2, rfl⟩ := hspec.2.2 q hc
      obtain ⟨f, hf, _⟩ := hspec.2.1 as h1 h2
      exact stored_iff_lookup.mpr ⟨f, hf⟩
    · unfold Stored
      rw [get_mkdirAll E perm hc]
      exact hq
  · exact fun id hid => (ext_prims (prims_mkdirAll E w p perm)).heap id hid
  · intro name hname
    apply sameAt_of_lookup (here_mkdirAll E w p perm)
    intro q hq
    exact lookup_mkdirAll E hi.wf perm (fun hc => hname q hq (hchain q hc))

example :
    let w := Demo.after [.create (b! "/keep"), .write 1 (b! "k"), .close 1]
    Demo.env.parse Demo.info (b! "/keep") = .ok ⟨b! "app", b! "/keep"⟩ ∧
    GoPath.clean (b! "/x/y") = b! "/x/y" ∧ ¬ (b! "/keep" <+: b! "/x/y") ∧
    openView Demo.env (mkdirAll Demo.env w (b! "/x/y") 0o755).1 (b! "/keep") =
      .ok (⟨b! "keep", 1, 0o644, 1000, false⟩, b! "k") := by decide +kernel

end Props
end Verif
