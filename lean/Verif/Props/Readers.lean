import Verif.Lemmas.Client
import Verif.Spec.Reach
import Verif.Spec.Demo
import Verif.Spec.Observe

/-! C71: goroutines that only read. -/

namespace Verif
namespace Props

open Mem Client

/-- The full statement of **C71**: whatever the order of the calls, a goroutine gets what it would get alone. -/
def C71_statement (E : Env) : Prop :=
  ∀ (i : Info) (w : World) (ps : Nat → List Nat × Prog (List Ans)), Reached E i w →
    (∀ t, ∀ a ∈ (ps t).1, Readable w a) →
    ∀ (sched : List Nat) (t : Nat) (r : List Ans), ((Threads.run E ⟨w, ps⟩ sched).threads t).2 = .ret r →
      r = ((ps t).2.exec E w (ps t).1).2.2

namespace ReadersInv

variable {α : Type}

/-- What is true at any moment: each goroutine's handles and Pkger look like those it would have alone after as many
calls, and handles of two goroutines are inert. -/
structure Ok (E : Env) (w0 : World) (ps : Nat → List Nat × Prog α) (n : Nat → Nat) (s : Threads α) : Prop where
  here : s.w.here = w0.here
  files : s.w.files = w0.files
  stored : ∀ q id, AMap.get w0.files q = some id → s.w.heap id = w0.heap id
  each : ∀ t, ∃ ws hss, Sim ws s.w hss (s.threads t).1 ∧
    ((s.threads t).2.exec E ws hss).2.2 = ((ps t).2.exec E w0 (ps t).1).2.2 ∧
    (s.threads t).2.calls E ws hss = (ps t).2.calls E w0 (ps t).1 - n t
  sep : ∀ t u, t ≠ u → ∀ a ∈ (s.threads t).1, a ∈ (s.threads u).1 → Inert (s.w.heap a)

theorem ok_init (E : Env) {w0 : World} (hwf : WF w0) {ps : Nat → List Nat × Prog α}
    (hr : ∀ t, ∀ a ∈ (ps t).1, Readable w0 a)
    (hsep : ∀ t u, t ≠ u → ∀ a ∈ (ps t).1, a ∈ (ps u).1 → Inert (w0.heap a)) : Ok E w0 ps (fun _ => 0) ⟨w0, ps⟩ where
  here := rfl
  files := rfl
  stored := fun _ _ _ => rfl
  each := fun t => ⟨w0, (ps t).1, Sim.refl hwf (hr t), rfl, rfl⟩
  sep := hsep

theorem ok_step (E : Env) {w0 : World} {ps : Nat → List Nat × Prog α} {n : Nat → Nat} {s : Threads α}
    (h : Ok E w0 ps n s) (t : Nat) : Ok E w0 ps (upd n t (n t + 1)) (s.step E t) := by
  obtain ⟨w, threads⟩ := s
  have h0 := h
  obtain ⟨hhere, hfiles, hst, heach, hsep⟩ := h
  unfold Threads.step
  simp only at hhere hfiles hst heach hsep ⊢
  cases hp : (threads t).2 with
  | ret a =>
    simp only
    refine ⟨hhere, hfiles, hst, ?_, hsep⟩
    intro u
    obtain ⟨ws, hss, h1, h2, h3⟩ := heach u
    refine ⟨ws, hss, h1, h2, ?_⟩
    by_cases hu : u = t
    · subst hu
      rw [upd_self]
      rw [hp] at h3
      simp only [Prog.calls] at h3
      simp only [hp, Prog.calls]
      omega
    · rw [upd_ne _ _ hu]; exact h3
  | step c k =>
    simp only
    have hrd : ∀ a ∈ (threads t).1, Readable w a := by
      obtain ⟨ws, hss, h1, _⟩ := heach t
      exact h1.readable'
    have hq := quiet_call E (w := w) (hs := (threads t).1) (fun a ha => (hrd a ha).writer) c
    have hlt : ∀ u, ∀ a ∈ (threads u).1, a < w.next := by
      intro u a ha
      obtain ⟨ws, hss, h1, _⟩ := heach u
      exact (h1.readable' a ha).lt
    refine ⟨hq.here.trans hhere, hq.files.trans hfiles, ?_, ?_, ?_⟩
    · intro q id hid
      obtain ⟨ws, hss, h1, _⟩ := heach t
      have hid' : AMap.get w.files q = some id := by rw [hfiles]; exact hid
      rw [hq.heap id (h1.stored q id (h1.files ▸ hid')).2.2, hst q id hid]
      by_cases hm : id ∈ (threads t).1
      · right
        rcases (hrd id hm).free with h4 | h4
        · exact absurd hid' (h4 q)
        · exact h4
      · exact Or.inl hm
    · intro u
      by_cases hu : u = t
      · subst hu
        simp only [upd_self]
        obtain ⟨ws, hss, h1, h2, h3⟩ := heach u
        obtain ⟨h4, h5⟩ := sim_call E h1 c
        refine ⟨_, _, h4, ?_, ?_⟩
        · rw [hp] at h2
          rw [← h2]
          simp only [Prog.exec, h5]
        · rw [hp] at h3
          simp only [Prog.calls] at h3
          rw [h5]
          omega
      · simp only [upd_ne _ _ hu]
        obtain ⟨ws, hss, h1, h2, h3⟩ := heach u
        exact ⟨ws, hss, h1.quiet hq hrd fun a ha hm => hsep u t hu a ha hm, h2, h3⟩
    · have hin : ∀ a, a < w.next → Inert (w.heap a) → Inert ((call E w (threads t).1 c).1.heap a) := by
        intro a ha hi
        rw [hq.heap a ha (Or.inr hi)]
        exact hi
      have one : ∀ u, u ≠ t → ∀ a ∈ (call E w (threads t).1 c).2.1, a ∈ (threads u).1 →
          Inert ((call E w (threads t).1 c).1.heap a) := by
        intro u hu a ha hb
        have := hlt u a hb
        rcases hq.hsub a ha with h1 | h1
        · exact hin a this (hsep t u (fun e => hu e.symm) a h1 hb)
        · omega
      intro u v huv a ha hb
      by_cases hu : u = t
      · subst hu
        simp only [upd_self, upd_ne _ _ (fun e : v = u => huv e.symm)] at ha hb
        exact one v (fun e => huv e.symm) a ha hb
      · by_cases hv : v = t
        · subst hv
          simp only [upd_self, upd_ne _ _ hu] at ha hb
          exact one u hu a hb ha
        · simp only [upd_ne _ _ hu, upd_ne _ _ hv] at ha hb
          exact hin a (hlt u a ha) (hsep u v huv a ha hb)

theorem ok_run (E : Env) {w0 : World} {ps : Nat → List Nat × Prog α} (sched : List Nat) :
    ∀ {n : Nat → Nat} {s : Threads α}, Ok E w0 ps n s →
      Ok E w0 ps (fun t => n t + sched.count t) (s.run E sched) := by
  induction sched with
  | nil => intro n s h; simpa [Threads.run] using h
  | cons t sched ih =>
    intro n s h
    have := ih (ok_step E h t)
    show Ok E w0 ps _ ((s.step E t).run E sched)
    refine cast (congrArg (fun m => Ok E w0 ps m _) (funext fun u => ?_)) this
    simp only [List.count_cons]
    by_cases hu : u = t
    · subst hu; simp only [upd_self, beq_self_eq_true, if_true]; omega
    · rw [upd_ne _ _ hu, if_neg (by simpa using fun e => hu e.symm)]; omega

end ReadersInv

/-- **C71** (what holds).  Let any number of goroutines read from a Pkger at once, each through handles of its own or
shared handles that are inert (as those of directories are).  Whatever the order of their calls, at any moment: a
goroutine that went on alone would end with the result it would have had alone from the start; in particular one that
has ended has this result.  A goroutine that has had as many turns as it makes calls when alone has ended. -/
theorem C71_readers_partial {α : Type} (E : Env) {i : Info} {w : World} (hr : Reached E i w)
    (ps : Nat → List Nat × Prog α) (hread : ∀ t, ∀ a ∈ (ps t).1, Readable w a)
    (hsep : ∀ t u, t ≠ u → ∀ a ∈ (ps t).1, a ∈ (ps u).1 → Inert (w.heap a)) (sched : List Nat) (t : Nat) :
    (((Threads.run E ⟨w, ps⟩ sched).threads t).2.exec E (Threads.run E ⟨w, ps⟩ sched).w
        ((Threads.run E ⟨w, ps⟩ sched).threads t).1).2.2 = ((ps t).2.exec E w (ps t).1).2.2 ∧
      (∀ r, ((Threads.run E ⟨w, ps⟩ sched).threads t).2 = .ret r → r = ((ps t).2.exec E w (ps t).1).2.2) ∧
      ((ps t).2.calls E w (ps t).1 ≤ sched.count t → ∃ r, ((Threads.run E ⟨w, ps⟩ sched).threads t).2 = .ret r) := by
  have h := ReadersInv.ok_run E sched (ReadersInv.ok_init E hr.inv.wf hread hsep)
  obtain ⟨ws, hss, h1, h2, h3⟩ := h.each t
  revert h1 h2 h3
  generalize Threads.run E ⟨w, ps⟩ sched = s
  intro h1 h2 h3
  have h4 := (sim_exec E (s.threads t).2 h1).1
  refine ⟨h4.trans h2, ?_, ?_⟩
  · intro r hret
    have := h4.trans h2
    rw [hret] at this
    simpa [Prog.exec] using this
  · intro hc
    cases hp : (s.threads t).2 with
    | ret r => exact ⟨r, rfl⟩
    | step c k =>
      rw [hp] at h3
      simp only [Prog.calls] at h3
      omega

/-- **C71** (goroutines without handles).  Goroutines that open what they read need nothing at all. -/
theorem C71_fresh_readers {α : Type} (E : Env) {i : Info} {w : World} (hr : Reached E i w) (ps : Nat → Prog α)
    (sched : List Nat) (t : Nat) (r : α)
    (hret : ((Threads.run E ⟨w, fun t => ([], ps t)⟩ sched).threads t).2 = .ret r) :
    r = ((ps t).exec E w []).2.2 :=
  (C71_readers_partial E hr (fun t => ([], ps t)) (by simp) (by simp) sched t).2.1 r hret

/-- **C71** (nothing is changed).  After the goroutines' calls, `Stat` and `Open` find what they found before. -/
theorem C71_unchanged {α : Type} (E : Env) {i : Info} {w : World} (hr : Reached E i w)
    (ps : Nat → List Nat × Prog α) (hread : ∀ t, ∀ a ∈ (ps t).1, Readable w a)
    (hsep : ∀ t u, t ≠ u → ∀ a ∈ (ps t).1, a ∈ (ps u).1 → Inert (w.heap a)) (sched : List Nat) :
    SameView E w (Threads.run E ⟨w, ps⟩ sched).w ∧
      ∀ q, Stored (Threads.run E ⟨w, ps⟩ sched).w q ↔ Stored w q := by
  have h := ReadersInv.ok_run E sched (ReadersInv.ok_init E hr.inv.wf hread hsep)
  revert h
  generalize Threads.run E ⟨w, ps⟩ sched = s
  intro h
  constructor
  · intro name
    have hl : ∀ q, lookup s.w q = lookup w q := by
      intro q
      unfold lookup
      rw [h.files]
      cases hg : AMap.get w.files q with
      | none => rfl
      | some id => simp only [Option.map_some, h.stored q id hg]
    exact sameAt_of_lookup h.here fun q _ => hl q
  · intro q
    unfold Stored
    rw [h.files]

/-! ### A served directory and a served file -/

/-- A directory `/pub` with one file, a handle of each (3 and 4), and one more handle of the directory (5). -/
def rdOps : List Op :=
  [.mkdirAll (b! "/pub") 0o755, .create (b! "/pub/f"), .write 2 (b! "hello"), .close 2, .openFile (b! "/pub"),
   .openFile (b! "/pub/f"), .openFile (b! "/pub")]

theorem rdOps_reached : Reached Demo.env Demo.info (Demo.after rdOps) :=
  Reached.ofNew 1000 rdOps (by
    intro o ho
    simp [rdOps] at ho
    rcases ho with rfl | rfl | rfl | rfl | rfl | rfl | rfl <;> trivial)

/-- Handles obtained by `Open` are readable. -/
theorem readable_of_unstored {w : World} {id : Nat} (h1 : id < w.next) (h2 : (w.heap id).writer = none)
    (h3 : id ∉ w.files.map (·.2)) : Readable w id := by
  refine ⟨h1, h2, Or.inl ?_⟩
  intro q hq
  exact h3 (List.mem_map_of_mem (AMap.get_mem hq))

/-- Ask the first handle for `name`, and read `n` bytes from what it returns; close it. -/
def fetch (name : Str) (n : Nat) : Prog (List Ans) :=
  .step (.openIn 0 name) fun r => .step (.read 1 n) fun b => .step (.close 1) fun _ => .ret [r, b]

/-- **C71 is false**: a handle asked for its own path returns itself, so two goroutines that each open `/pub/f` by way
of the handle of `/pub/f` read from the same object, and one of them misses the first bytes. -/
theorem C71_shared_refuted : ¬ C71_statement Demo.env := by
  intro h
  have hrd : Readable (Demo.after rdOps) 4 :=
    readable_of_unstored (by decide +kernel) (by decide +kernel) (by decide +kernel)
  have := h Demo.info (Demo.after rdOps) (fun _ => ([4], fetch (b! "/pub/f") 2)) rdOps_reached
    (by intro t a ha; simp at ha; subst ha; exact hrd) [0, 1, 0, 1, 0, 1] 1
    [.opened (.ok 1), .bytes (b! "ll") none] (by
      have e : (match ((Threads.run Demo.env ⟨Demo.after rdOps, fun _ => ([4], fetch (b! "/pub/f") 2)⟩
          [0, 1, 0, 1, 0, 1]).threads 1).2 with
        | .ret r => decide (r = [.opened (.ok 1), .bytes (b! "ll") none])
        | .step _ _ => false) = true := by decide +kernel
      revert e
      generalize ((Threads.run Demo.env ⟨Demo.after rdOps, fun _ => ([4], fetch (b! "/pub/f") 2)⟩
          [0, 1, 0, 1, 0, 1]).threads 1).2 = p
      intro e
      cases p with
      | ret r => simp only [decide_eq_true_eq] at e; rw [e]
      | step c k => cases e)
  revert this
  decide +kernel

/-- A case of `C71_readers_partial`: three goroutines fetch the file through one and the same handle of `/pub`, which is
inert, and another reads through a handle of its own. -/
example :
    (∀ t, ∀ a ∈ ((fun t => if t < 3 then ([3], fetch (b! "/f") 3) else if t = 3 then ([5, 4], fetch (b! "/f") 1) else ([], .ret []) :
      Nat → List Nat × Prog (List Ans)) t).1, Readable (Demo.after rdOps) a) ∧
    Inert ((Demo.after rdOps).heap 3) ∧
    ((fetch (b! "/f") 3).exec Demo.env (Demo.after rdOps) [3]).2.2 = [.opened (.ok 1), .bytes (b! "hel") none] := by
  have r3 : Readable (Demo.after rdOps) 3 :=
    readable_of_unstored (by decide +kernel) (by decide +kernel) (by decide +kernel)
  have r4 : Readable (Demo.after rdOps) 4 :=
    readable_of_unstored (by decide +kernel) (by decide +kernel) (by decide +kernel)
  have r5 : Readable (Demo.after rdOps) 5 :=
    readable_of_unstored (by decide +kernel) (by decide +kernel) (by decide +kernel)
  refine ⟨?_, ⟨by decide +kernel, by decide +kernel, by decide +kernel⟩, by decide +kernel⟩
  intro t a ha
  simp only at ha
  split at ha
  · simp at ha; subst ha; exact r3
  · split at ha
    · simp at ha
      rcases ha with rfl | rfl
      · exact r5
      · exact r4
    · simp at ha

end Props
end Verif
