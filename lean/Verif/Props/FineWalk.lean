import Verif.Lemmas.FineWalk
import Verif.Props.FineWriters

/-! C93: `Walk` while other goroutines change the file system. -/

namespace Verif
namespace Props

open Mem Fine FineWriters

/-- `Walk` and then tell what it said. -/
def walkOnce {α : Type} (name : Str) (fin : Fine.Ans → α) : Fine.Prog α := .step (.reads (.walk name)) fun a => .ret (fin a)

/-- **C93** in full: a file that is there all the time is visited, whatever the other goroutines do with other files. -/
def C93_statement (E : Env) : Prop :=
  ∀ (i : Info) (w : World) (ps : Nat → Fine.Prog Fine.Ans) (t : Nat) (name : Str) (root q : Path) (es : List Event)
    (l : List (Str × Details)) (r : Res Unit),
    Reached E i w → E.parse i name = .ok root → ps t = walkOnce name id → Stored w q → Under root q →
    (∀ u, (ps u).All fun c => ¬ c.Stores E i q ∧ ¬ c.Deletes E i q) →
    ((begin E w ps).run es).code t = .ret (.reads (.walked l r)) → q.str ∈ l.map (·.1)

/-- **C93**, as long as nobody deletes anything below the root of the walk.  The others may create and write files and make
directories anywhere, everybody interrupted anywhere.  `Walk` succeeds and visits different paths in the order of their
names, all to be visited; every path that was there in the beginning is among them, and every path among them was there at
some moment. -/
theorem C93_walk_partial {α : Type} (E : Env) {i : Info} {w : World} (hr : Reached E i w) {ps : Nat → Fine.Prog α} {t : Nat}
    {name : Str} {root : Path} {fin : Fine.Ans → α} (hp : E.parse i name = .ok root) (ht : ps t = walkOnce name fin)
    (hoth : ∀ u, u ≠ t → (ps u).All fun c => ∀ q, c.Deletes E i q → ¬ Under root q) (es : List Event) {r : α}
    (hret : ((begin E w ps).run es).code t = .ret r) :
    ∃ (l : List (Str × Details)) (ks : List Path), r = fin (.reads (.walked l (.ok ()))) ∧ l.map (·.1) = ks.map Path.str ∧
      ks.Nodup ∧ ks.Pairwise (fun a b => Str.le a.str b.str = true) ∧ (∀ q ∈ ks, Under root q) ∧
      (∀ q, Stored w q → Under root q → q ∈ ks) ∧
      ∀ q ∈ ks, ∃ es1 es2, es = es1 ++ es2 ∧ Stored ((begin E w ps).run es1).g.w q := by
  let all : Path → Prop := fun _ => True
  let no : Path → Prop := fun _ => False
  have hwf := hr.inv.wf
  have hh : ∀ u, Hold anyS (Under root) u [] (begin E w ps).g := fun u => hold_begin hwf (fun _ _ _ => trivial) u
  have hsafe : SysSafe (fun u => Rely anyS (Under root) no u) (fun u => Any (Guar anyS (Under root) all u))
      (fun u r g => u = t → ∃ (l : List (Str × Details)) (ks : List Path), r = fin (.reads (.walked l (.ok ()))) ∧
        l.map (·.1) = ks.map Path.str ∧ ks.Nodup ∧ ks.Pairwise (fun a b => Str.le a.str b.str = true) ∧
        (∀ q ∈ ks, Under root q) ∧ (∀ q, Stored w q → Under root q → q ∈ ks) ∧ Came ks g) (begin E w ps) := by
    constructor
    intro u
    by_cases hu : u = t
    · subst hu
      refine ⟨fun g => Hold anyS (Under root) u [] g ∧ Known w.infos (Stored w) g, fun g g' h hr =>
        ⟨Hold.stable [] g g' h.1 hr, Known.stable g g' h.2 hr⟩, ⟨hh u, rfl, fun q hq => ?_⟩, ?_⟩
      · obtain ⟨id, hid⟩ := hq
        exact ⟨id, AMap.get_mem hid⟩
      · show Safe u _ _ ((ps u).code E w.here []) _ _
        rw [ht, hr.here]
        exact (walk_once E i hp (fun _ h => h) fin).mono (fun _ h => h) fun r g h _ => h
    · refine ⟨Hold anyS (Under root) u [], Hold.stable [], hh u, ?_⟩
      show Safe u _ _ ((ps u).code E w.here []) _ _
      rw [hr.here]
      refine (hold_prog E i (fun _ => trivial) (ps u) [] ((hoth u hu).mono fun c hc => ?_)).mono (fun _ h => h)
        fun r g _ e => absurd e hu
      exact ⟨fun q _ => trivial, fun q hq => ⟨trivial, hc q hq⟩, fun _ _ _ => trivial⟩
  obtain ⟨l, ks, h1, h2, h3, h4, h5, h6, h7⟩ := (SysSafe.run (R := fun u => Rely anyS (Under root) no u)
    (G := fun u => Any (Guar anyS (Under root) all u)) (fun u v huv _ _ g g' hg => hg.rely huv fun q hq => hq.elim)
    (fun u g g' h => Rely.ticks h) es hsafe).ended hret rfl
  refine ⟨l, ks, h1, h2, h3, h4, h5, h6, fun q hq => ?_⟩
  obtain ⟨id, hid⟩ := h7 q hq
  rcases came_was es (begin E w ps) (q, id) hid with h | ⟨es1, es2, h8, h9⟩
  · exact ⟨[], es, rfl, id, AMap.get_of_mem hwf.nodup h⟩
  · exact ⟨es1, es2, h8, id, h9⟩

/-- Where there are `/`, `/a` and `/b`. -/
def abOps : List Op := [.create (b! "/a"), .create (b! "/b")]

/-- One goroutine walks, another removes `/a` and creates `/c`. -/
def walkProgs (rm : Bool) : Nat → Fine.Prog Fine.Ans := fun u =>
  if u = 0 then walkOnce (b! "/") id
  else if u = 1 then
    if rm then .step (.remove (b! "/a")) fun a => .ret a else writeAll (b! "/c") [b! "x"] (.wrote 1) (.wrote 0)
  else .ret (.wrote 0)

/-- The keys, as `Range` might come by them. -/
def someKeys (l : List Str) : List Event := .go 0 none :: l.map (fun n => .go 0 (some ⟨b! "app", n⟩)) ++ [.go 0 none]

/-- The walk lists the keys; then `/a` is removed. -/
def removeEvents : List Event :=
  someKeys [b! "/b", b! "/", b! "/a"] ++ List.replicate 3 (.go 1 none) ++ List.replicate 12 (.go 0 none)

/-- **C93 is false in full**: when a file listed has been removed `Walk` returns `os.ErrNotExist` and does not visit the files
after it. -/
theorem C93_refuted : ¬ C93_statement Demo.env := by
  intro h
  have hst : (AMap.get (Demo.after abOps).files ⟨b! "app", b! "/b"⟩).isSome = true := by decide +kernel
  have pa : Demo.env.parse Demo.info (b! "/a") = .ok ⟨b! "app", b! "/a"⟩ := by decide +kernel
  have hret : result (((begin Demo.env (Demo.after abOps) (walkProgs true)).run removeEvents).code 0) =
      some (.reads (.walked [(b! "app:/", ⟨[], 0, 0o755, 1000, true⟩)] (.err .notExist))) := by decide +kernel
  have := h Demo.info (Demo.after abOps) (walkProgs true) 0 (b! "/") ⟨b! "app", b! "/"⟩ ⟨b! "app", b! "/b"⟩ removeEvents _ _
    (Reached.ofNew 1000 abOps (by intro o ho; simp [abOps] at ho; rcases ho with rfl | rfl <;> trivial)) (by decide +kernel) rfl
    (Option.isSome_iff_exists.mp hst) (by decide) (by
      intro u
      unfold walkProgs
      split
      · exact ⟨⟨fun h => h, fun h => h⟩, fun _ => trivial⟩
      · split
        · refine ⟨⟨fun h => h, fun h => ?_⟩, fun _ => trivial⟩
          have h' : Demo.env.parse Demo.info (b! "/a") = .ok ⟨b! "app", b! "/b"⟩ := h
          rw [pa] at h'
          revert h'
          decide
        · trivial) (result_eq hret)
  revert this
  decide

/-- The second goroutine creating `/c` instead satisfies the hypotheses of `C93_walk_partial`. -/
example : (∀ u, u ≠ 0 → (walkProgs false u).All fun c => ∀ q, c.Deletes Demo.env Demo.info q → ¬ Under ⟨b! "app", b! "/"⟩ q) := by
  intro u hu
  unfold walkProgs
  rw [if_neg hu]
  split
  · exact all_writeAll (fun _ h => h.elim) (fun _ _ _ h => h.elim) (fun _ _ h => h.elim)
  · trivial

/-- `/c` is visited or not, depending on the moment. -/
example :
    [(someKeys [b! "/b", b! "/", b! "/a"], 20), (someKeys [b! "/b", b! "/c", b! "/", b! "/a"], 0)].map (fun e =>
      match result (((begin Demo.env (Demo.after abOps) (walkProgs false)).run
        (List.replicate (20 - e.2) (.go 1 none) ++ e.1 ++ List.replicate e.2 (.go 1 none) ++ List.replicate 20 (.go 0 none))).code 0) with
      | some (.reads (.walked l _)) => l.map (·.1)
      | _ => []) =
    [[b! "app:/", b! "app:/a", b! "app:/b"], [b! "app:/", b! "app:/a", b! "app:/b", b! "app:/c"]] := by decide +kernel

end Props
end Verif
