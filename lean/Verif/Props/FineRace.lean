import Verif.Lemmas.FineRace
import Verif.Props.FineRemove

/-! C96: data races between goroutines that share an in-memory Pkger. -/

namespace Verif
namespace Props

open Mem Fine FineWriters

namespace FineRace

variable {α : Type}

theorem rhold_begin {E : Env} {w : World} (hwf : WF w) {ps : Nat → Prog α} {C : Path → Nat → Prop} (t : Nat) :
    RHold C t [] (begin E w ps).g := by
  have hget : ∀ e ∈ w.files, AMap.get w.files e.1 = some e.2 := fun e he => AMap.get_of_mem hwf.nodup he
  exact ⟨⟨fun q id h => AMap.get_mem h, fun e he => (hwf.bound _ _ (hget e he)).1, fun e _ => Or.inl rfl⟩,
    fun a ha => (by cases ha)⟩

end FineRace

open FineRace

/-- **C96** in full: goroutines that share nothing but the Pkger never access the same file object at the same time with one
of them writing. -/
def C96_statement (E : Env) : Prop :=
  ∀ (i : Info) (w : World) (ps : Nat → Fine.Prog (List Fine.Ans)), Reached E i w → ∀ (es : List Event) (t u : Nat), t ≠ u →
    ¬ ((begin E w ps).run es).Races t u

/-- The first goroutine is in `Close`, about to put the bytes in place; the second in `Open`, about to look at them. -/
def raceEvents : List Event := List.replicate 12 (.go 0 none) ++ List.replicate 2 (.go 1 none)

/-- **C96 is false in full**: opening a file races with closing it after writing. -/
theorem C96_refuted : ¬ C96_statement Demo.env := by
  intro h
  refine h Demo.info Demo.w0 sizeProgs (Reached.ofNew 1000 [] (by simp)) raceEvents 0 1 (by decide) ⟨1, true, false, ?_, ?_, Or.inl rfl⟩
  · decide +kernel
  · decide +kernel

/-- **C96** (separate files).  `C q t` says that goroutine `t` may create the file `q`.  If everybody creates only what it may,
and neither looks at nor stores what somebody else may create, there are no races, whatever else the goroutines do: they
read, walk, make directories and remove as they like. -/
theorem C96_separate_partial {α : Type} (E : Env) {i : Info} {w : World} (hr : Reached E i w) (ps : Nat → Fine.Prog α)
    (C : Path → Nat → Prop)
    (h : ∀ t, (ps t).All fun c => (∀ q, c.Creates E i q → C q t) ∧
      ∀ q, c.Stores E i q ∨ c.Looks E i q → ∀ v, C q v → v = t)
    (es : List Event) {t u : Nat} (htu : t ≠ u) : ¬ ((begin E w ps).run es).Races t u := by
  have hs : SysSafe (fun t => RRely C t) (fun t => RGuar C t) (fun _ (_ : α) _ => True) (begin E w ps) := by
    constructor
    intro v
    refine ⟨RHold C v [], RHold.stable [], rhold_begin hr.inv.wf v, ?_⟩
    show Safe v _ _ ((ps v).code E w.here []) _ _
    rw [hr.here]
    exact fair_prog E i (ps v) [] ((h v).mono fun c hc =>
      ⟨fun q hq => hc.2 q (Or.inl hq), fun q hq => hc.2 q (Or.inr hq), hc.1⟩)
  exact no_race (SysSafe.run (R := fun t => RRely C t) (G := fun t => RGuar C t)
    (fun _ _ huv _ _ _ _ hg => hg.2.rely huv) (fun _ _ _ h => RRely.ticks h) es hs) htu

/-- **C96** (nobody creates files).  Goroutines that open, read, list, walk, make directories and remove have no races: in
particular those of an HTTP server. -/
theorem C96_nobody_creates_partial {α : Type} (E : Env) {i : Info} {w : World} (hr : Reached E i w) (ps : Nat → Fine.Prog α)
    (h : ∀ t, (ps t).All fun c => ∀ q, ¬ c.Creates E i q) (es : List Event) {t u : Nat} (htu : t ≠ u) :
    ¬ ((begin E w ps).run es).Races t u :=
  C96_separate_partial E hr ps (fun _ _ => False)
    (fun t => (h t).mono fun _ hc => ⟨fun q hq => hc q hq, fun _ _ _ hv => hv.elim⟩) es htu

/-- **C96** (files at different paths).  Any number of goroutines write files at different paths, none of them `/` and none the
directory of another: as in C91, and without races. -/
theorem C96_writers_partial {α : Type} (E : Env) {i : Info} {w : World} (hl : ParseLaws E i) (hi : InfoOk i) (hr : Reached E i w)
    (name : Nat → Str) (p : Nat → Path) (bs : Nat → List Str) (yes no : Nat → α)
    (hp : ∀ t, E.parse i (name t) = .ok (p t)) (hinj : ∀ t u, p t = p u → t = u) (hroot : ∀ t, p t ≠ rootOf i)
    (hdir : ∀ t u, t ≠ u → E.parse i (GoPath.dir (p t).name) ≠ .ok (p u))
    (es : List Event) {t u : Nat} (htu : t ≠ u) :
    ¬ ((begin E w fun t => writeAll (name t) (bs t) (yes t) (no t)).run es).Races t u := by
  have hmk : ∀ {s q}, Makes E i s q → Chain E w.here s q := by
    intro s q h
    rw [hr.here]
    induction h with
    | self h => exact .self h
    | above h hd _ ih => exact .up h hd ih
  refine C96_separate_partial E hr _ (fun q t => q = p t) (fun v => ?_) es htu
  refine all_writeAll ⟨?_, ?_⟩ (fun k b => ⟨fun q hq => hq.elim, fun q hq => hq.elim (fun h => h.elim) fun h => h.elim⟩)
    (fun k => ⟨fun q hq => hq.elim, fun q hq => hq.elim (fun h => h.elim) fun h => h.elim⟩)
  · intro q hq
    have hq : E.parse i (name v) = .ok q := hq
    rw [hp v] at hq
    injection hq with hq
    exact hq.symm
  · rintro q (hq | hq) x rfl
    · rcases hq with hq | hq
      · have hh := hr.here
        have := chain_root (E := E) (w := w) (by rw [hh]; exact hl) (by rw [hh]; exact hi) hr.inv.wf (hmk hq)
        exact absurd (this.trans (by rw [hh])) (hroot x)
      · rw [hp v] at hq
        injection hq with hq
        exact hinj _ _ hq.symm
    · obtain ⟨pt, h1, h2⟩ := hq
      rw [hp v] at h1
      injection h1 with h1
      subst h1
      exact Classical.byContradiction fun hx => hdir v x (fun e => hx e.symm) h2

/-- One goroutine writes `/f`, one opens and reads `/e`, one removes everything, one walks `/d`. -/
def raceProgs : Nat → Fine.Prog Fine.Ans := fun u =>
  if u = 0 then writeAll (b! "/f") [b! "ab", b! "cd"] (.wrote 1) (.wrote 0)
  else if u = 1 then readOnce (b! "/e") 9 id
  else if u = 2 then .step (.removeAll (b! "/")) fun a => .ret a
  else if u = 3 then .step (.reads (.walk (b! "/d"))) fun a => .ret a
  else .ret (.wrote 0)

/-- The hypothesis of `C96_separate_partial` is met. -/
example : ∀ t, (raceProgs t).All fun c => (∀ q, c.Creates Demo.env Demo.info q → q = ⟨b! "app", b! "/f"⟩ ∧ t = 0) ∧
    ∀ q, c.Stores Demo.env Demo.info q ∨ c.Looks Demo.env Demo.info q → ∀ v, q = ⟨b! "app", b! "/f"⟩ ∧ v = 0 → v = t := by
  have pr : Demo.env.parse Demo.info GoPath.rootS = .ok ⟨b! "app", b! "/"⟩ := by decide +kernel
  have pf : Demo.env.parse Demo.info (b! "/f") = .ok ⟨b! "app", b! "/f"⟩ := by decide +kernel
  have pe : Demo.env.parse Demo.info (b! "/e") = .ok ⟨b! "app", b! "/e"⟩ := by decide +kernel
  have pd : Demo.env.parse Demo.info (b! "/d") = .ok ⟨b! "app", b! "/d"⟩ := by decide +kernel
  have none : ∀ {c : Fine.Call} {t : Nat}, (∀ q, ¬ c.Creates Demo.env Demo.info q) → (∀ q, ¬ c.Stores Demo.env Demo.info q) →
      (∀ q, ¬ c.Looks Demo.env Demo.info q) → (∀ q, c.Creates Demo.env Demo.info q → q = ⟨b! "app", b! "/f"⟩ ∧ t = 0) ∧
      ∀ q, c.Stores Demo.env Demo.info q ∨ c.Looks Demo.env Demo.info q → ∀ v, q = ⟨b! "app", b! "/f"⟩ ∧ v = 0 → v = t :=
    fun h1 h2 h3 => ⟨fun q hq => absurd hq (h1 q), fun q hq => hq.elim (fun h => absurd h (h2 q)) fun h => absurd h (h3 q)⟩
  intro t
  unfold raceProgs
  split
  · subst t
    refine all_writeAll ⟨fun q hq => ?_, fun q _ v hv => hv.2⟩ (fun k b => none (fun _ h => h) (fun _ h => h) fun _ h => h)
      (fun k => none (fun _ h => h) (fun _ h => h) fun _ h => h)
    have hq : Demo.env.parse Demo.info (b! "/f") = .ok q := hq
    rw [pf] at hq
    injection hq with hq
    exact ⟨hq.symm, rfl⟩
  · split
    · refine ⟨⟨fun q hq => hq.elim, ?_⟩, fun a => ?_⟩
      · rintro q (h | h) v ⟨rfl, rfl⟩
        · exact h.elim
        · have h : Demo.env.parse Demo.info (b! "/e") = .ok _ := h
          rw [pe] at h
          exact absurd h (by decide)
      · simp only
        split
        · exact ⟨none (fun _ h => h) (fun _ h => h) fun _ h => h, fun _ => trivial⟩
        · trivial
    · split
      · exact ⟨none (fun _ h => h) (fun _ h => h) fun _ h => h, fun _ => trivial⟩
      · split
        · refine ⟨⟨fun q hq => hq.elim, ?_⟩, fun _ => trivial⟩
          rintro q (h | ⟨root, h1, h2, h3⟩) v ⟨rfl, rfl⟩
          · exact h.elim
          · rw [pd] at h1
            injection h1 with h1
            subst h1
            exact absurd h3 (by decide)
        · trivial

/-- `/d/a`, `/d/aa`, `/d/aaa` and so on: one for every goroutine. -/
def manyElems (t : Nat) : List Str := [b! "d", List.replicate (t + 1) 97]

theorem manyElems_plain (t : Nat) : Plain (manyElems t) := by
  have hall : ∀ c ∈ List.replicate (t + 1) (97 : UInt8), c = 97 := fun c hc => (List.mem_replicate.mp hc).2
  intro x hx
  simp only [manyElems, List.mem_cons, List.not_mem_nil, or_false] at hx
  rcases hx with rfl | rfl
  · decide
  · refine ⟨⟨by simp, fun h => absurd (hall _ h) (by decide), fun e => ?_, fun e => ?_⟩, fun h => absurd (hall _ h) (by decide),
      fun h => absurd (hall _ h) (by decide), fun h => absurd (hall _ h) (by decide), ?_⟩
    · exact absurd (hall 46 (by rw [e]; decide)) (by decide)
    · exact absurd (hall 46 (by rw [e]; decide)) (by decide)
    · rintro ⟨q, hq, hs⟩
      have h1 : ∀ q ∈ Str.spaceSeqs, ∃ c ∈ q, c ≠ (97 : UInt8) := by decide
      obtain ⟨c, hc, hne⟩ := h1 q hq
      exact hne (hall c (hs.subset hc))

theorem manyElems_parse (t : Nat) :
    Demo.env.parse Demo.info (GoPath.mk (manyElems t)) = .ok ⟨b! "app", GoPath.mk (manyElems t)⟩ := by
  have h := Ordinary.parse Demo.laws (ordinary_mk (i := Demo.info) (manyElems_plain t).ord (Or.inr ?_))
  · rw [GoPath.rootedElems_mk (manyElems_plain t).good] at h
    exact h
  · have e : GoPath.mk (manyElems t) = 47 :: 100 :: 47 :: List.replicate (t + 1) 97 := rfl
    rw [e]
    have e' : Demo.info.dir = 47 :: 115 :: (Demo.info.dir.drop 2) := by decide
    rw [e', List.cons_prefix_cons, List.cons_prefix_cons]
    rintro ⟨_, h, _⟩
    exact absurd h (by decide)

theorem manyElems_dir (t : Nat) : GoPath.dir (GoPath.mk (manyElems t)) = b! "/d" :=
  GoPath.dir_mk_snoc (a := [b! "d"]) (c := List.replicate (t + 1) 97) (by decide)
    (manyElems_plain t _ (by simp [manyElems])).1

/-- The hypotheses of `C91_all` and `C96_writers_partial` are met by infinitely many goroutines at once. -/
example : (∀ t u, (⟨b! "app", GoPath.mk (manyElems t)⟩ : Path) = ⟨b! "app", GoPath.mk (manyElems u)⟩ → t = u) ∧
    (∀ t, (⟨b! "app", GoPath.mk (manyElems t)⟩ : Path) ≠ rootOf Demo.info) ∧
    (∀ t, ∃ q, Demo.env.parse Demo.info (GoPath.dir (GoPath.mk (manyElems t))) = .ok q ∧ Stored (Demo.after dOps) q) ∧
    ∀ t u, t ≠ u → Demo.env.parse Demo.info (GoPath.dir (GoPath.mk (manyElems t))) ≠ .ok ⟨b! "app", GoPath.mk (manyElems u)⟩ := by
  have pd : Demo.env.parse Demo.info (b! "/d") = .ok ⟨b! "app", b! "/d"⟩ := by decide +kernel
  have e : ∀ t, GoPath.mk (manyElems t) = 47 :: 100 :: 47 :: List.replicate (t + 1) 97 := fun _ => rfl
  refine ⟨fun t u h => ?_, fun t h => ?_, fun t => ⟨_, by rw [manyElems_dir]; exact pd, ?_⟩, fun t u _ h => ?_⟩
  · injection h with _ h
    rw [e, e] at h
    have := congrArg List.length h
    simp at this
    exact this
  · injection h with _ h
    rw [e] at h
    cases h
  · exact Option.isSome_iff_exists.mp (by decide +kernel)
  · rw [manyElems_dir, pd, e] at h
    injection h with h
    injection h with _ h
    cases h

end Props
end Verif
