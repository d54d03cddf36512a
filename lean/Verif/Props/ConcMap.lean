import Verif.Model.ConcMap
import Verif.Lemmas.Mem

/-! C36: goroutines storing into one map of files at the same time. -/

namespace Verif
namespace Props

open ConcMap

/-- Goroutine `t` has stored everything it was going to. -/
def StoredAll (s : ConcMap.St) (t : Nat) : Prop :=
  (s.threads t).prog = [] ∧ (s.threads t).pc = ConcMap.PC.idle

/-- **C36** in full: whatever the goroutines store in a fresh Pkger, and whatever the schedule, what a goroutine
that is done has stored can be found (the keys of different goroutines need not differ). -/
def C36_statement : Prop :=
  ∀ (progs : Nat → List Nat) (sched : List Nat), (∀ t, StoredAll (ConcMap.run (fresh progs) sched) t) →
    ∀ t, ∀ k ∈ progs t, visible (ConcMap.run (fresh progs) sched) k

theorem step_other (s : ConcMap.St) (t u : Nat) (h : u ≠ t) : (ConcMap.step s t).threads u = s.threads u := by
  unfold ConcMap.step
  simp only
  repeat' split
  all_goals simp [St.setThread, Mem.upd, h]

theorem run_other (u : Nat) (sched : List Nat) : ∀ s : ConcMap.St, u ∉ sched →
    (ConcMap.run s sched).threads u = s.threads u := by
  induction sched with
  | nil => intro s _; rfl
  | cons t ts ih =>
    intro s h
    rw [List.mem_cons, not_or] at h
    show (ConcMap.run (ConcMap.step s t) ts).threads u = _
    rw [ih _ h.2, step_other _ _ _ h.1]

/-- **C36** is false of the code: two goroutines storing one file each can both find the map uninitialised; then
each makes a `sync.Once` and a `sync.Map` of its own, and the file stored in the map that is overwritten is lost. -/
theorem C36_first_store_refuted : ¬ C36_statement := by
  intro h
  let progs : Nat → List Nat := fun t => if t = 0 then [100] else if t = 1 then [200] else []
  let sched := [0, 1, 0, 1, 0, 0, 1, 1, 1, 0, 1, 0, 0, 0, 0, 0, 1, 1, 1, 1]
  have hf : ∀ t, StoredAll (ConcMap.run (fresh progs) sched) t := by
    intro t
    by_cases h0 : t = 0
    · subst h0; exact ⟨by decide +kernel, by decide +kernel⟩
    · by_cases h1 : t = 1
      · subst h1; exact ⟨by decide +kernel, by decide +kernel⟩
      · unfold StoredAll
        rw [run_other t sched _ (by simp [sched, h0, h1])]
        simp [fresh, progs, h0, h1]
  exact absurd (h progs sched hf 0 100 (by decide)) (by decide +kernel)

namespace ConcMapInv

/-- The invariant of an initialised map. -/
structure Inv (o d : Nat) (old : List Nat) (progs : Nat → List Nat) (s : ConcMap.St) : Prop where
  once : s.once = some o
  data : s.data = some d
  done : s.done o = true
  keep : ∀ k ∈ old, k ∈ s.maps d
  pcs : ∀ t, match (s.threads t).pc with
    | .idle => ∀ k ∈ progs t, k ∈ s.maps d ∨ k ∈ (s.threads t).prog
    | .check key => ∀ k ∈ progs t, k ∈ s.maps d ∨ k = key ∨ k ∈ (s.threads t).prog
    | .getOnce key => ∀ k ∈ progs t, k ∈ s.maps d ∨ k = key ∨ k ∈ (s.threads t).prog
    | .doOnce key o' => o' = o ∧ ∀ k ∈ progs t, k ∈ s.maps d ∨ k = key ∨ k ∈ (s.threads t).prog
    | .getData key => ∀ k ∈ progs t, k ∈ s.maps d ∨ k = key ∨ k ∈ (s.threads t).prog
    | .store key d' => d' = some d ∧ ∀ k ∈ progs t, k ∈ s.maps d ∨ k = key ∨ k ∈ (s.threads t).prog
    | _ => False

theorem inv_local {o d : Nat} {old : List Nat} {progs : Nat → List Nat} {s : ConcMap.St} (h : Inv o d old progs s)
    (t : Nat) (th : ConcMap.Thread)
    (ht : match th.pc with
      | .idle => ∀ k ∈ progs t, k ∈ s.maps d ∨ k ∈ th.prog
      | .check key => ∀ k ∈ progs t, k ∈ s.maps d ∨ k = key ∨ k ∈ th.prog
      | .getOnce key => ∀ k ∈ progs t, k ∈ s.maps d ∨ k = key ∨ k ∈ th.prog
      | .doOnce key o' => o' = o ∧ ∀ k ∈ progs t, k ∈ s.maps d ∨ k = key ∨ k ∈ th.prog
      | .getData key => ∀ k ∈ progs t, k ∈ s.maps d ∨ k = key ∨ k ∈ th.prog
      | .store key d' => d' = some d ∧ ∀ k ∈ progs t, k ∈ s.maps d ∨ k = key ∨ k ∈ th.prog
      | _ => False) : Inv o d old progs (s.setThread t th) := by
  refine ⟨h.once, h.data, h.done, h.keep, ?_⟩
  intro u
  by_cases hu : u = t
  · subst hu; simp only [St.setThread, Mem.upd, if_true]; exact ht
  · simp only [St.setThread, Mem.upd, hu, if_false]; exact h.pcs u

theorem inv_step {o d : Nat} {old : List Nat} {progs : Nat → List Nat} {s : ConcMap.St} (h : Inv o d old progs s)
    (t : Nat) : Inv o d old progs (ConcMap.step s t) := by
  have hp := h.pcs t
  unfold ConcMap.step
  simp only
  cases hc : (s.threads t).pc with
  | idle =>
    rw [hc] at hp
    simp only at hp ⊢
    cases hg : (s.threads t).prog with
    | nil => exact h
    | cons key rest =>
      refine inv_local h t _ ?_
      simp only
      intro k hk
      rcases hp k hk with h1 | h1
      · exact Or.inl h1
      · rw [hg] at h1
        exact Or.inr (List.mem_cons.mp h1)
  | check key =>
    rw [hc] at hp
    simp only [h.once]
    exact inv_local h t _ hp
  | mkOnce key => rw [hc] at hp; exact hp.elim
  | getOnce key =>
    rw [hc] at hp
    simp only [h.once]
    exact inv_local h t _ ⟨rfl, hp⟩
  | doOnce key o' =>
    rw [hc] at hp
    simp only at hp ⊢
    obtain ⟨ho, hp⟩ := hp
    subst ho
    simp only [h.done, if_true]
    exact inv_local h t _ hp
  | checkData key o' => rw [hc] at hp; exact hp.elim
  | mkData key o' => rw [hc] at hp; exact hp.elim
  | leave key o' => rw [hc] at hp; exact hp.elim
  | getData key =>
    rw [hc] at hp
    simp only at hp ⊢
    exact inv_local h t _ ⟨h.data, hp⟩
  | store key d' =>
    rw [hc] at hp
    simp only at hp ⊢
    obtain ⟨hd, hp⟩ := hp
    subst hd
    simp only
    have hgrow : ∀ k, k ∈ s.maps d → k ∈ Mem.upd s.maps d (key :: s.maps d) d := by
      intro k hk; simp [Mem.upd, hk]
    refine ⟨h.once, h.data, h.done, fun k hk => hgrow k (h.keep k hk), ?_⟩
    intro u
    by_cases hu : u = t
    · subst hu
      simp only [St.setThread]
      rw [show Mem.upd s.threads u { s.threads u with pc := ConcMap.PC.idle } u =
        { s.threads u with pc := ConcMap.PC.idle } by simp [Mem.upd]]
      simp only
      intro k hk
      rcases hp k hk with h1 | h1 | h1
      · exact Or.inl (hgrow k h1)
      · exact Or.inl (by simp [Mem.upd, h1])
      · exact Or.inr h1
    · simp only [St.setThread]
      rw [show Mem.upd s.threads t { s.threads t with pc := ConcMap.PC.idle } u = s.threads u by simp [Mem.upd, hu]]
      have := h.pcs u
      revert this
      cases (s.threads u).pc <;> simp only <;> intro this <;> first
        | exact this.elim
        | (intro k hk; exact (this k hk).imp (hgrow k) id)
        | (refine ⟨this.1, ?_⟩; intro k hk; exact (this.2 k hk).imp (hgrow k) id)
  | crashed => rw [hc] at hp; exact hp.elim

theorem inv_run {o d : Nat} {old : List Nat} {progs : Nat → List Nat} (sched : List Nat) :
    ∀ {s : ConcMap.St}, Inv o d old progs s → Inv o d old progs (ConcMap.run s sched) := by
  induction sched with
  | nil => intro s h; exact h
  | cons t ts ih => intro s h; exact ih (inv_step h t)

/-- No goroutine crashes: what each one knows about the two fields. -/
structure Safe (s : ConcMap.St) : Prop where
  done : ∀ o, s.done o = true → s.data ≠ none
  pcs : ∀ t, match (s.threads t).pc with
    | .getOnce _ => s.once ≠ none
    | .leave _ _ => s.data ≠ none
    | .getData _ => s.data ≠ none
    | .store _ d => d ≠ none
    | .crashed => False
    | _ => True

theorem safe_mono {s s' : ConcMap.St} (h : Safe s) (t : Nat)
    (hth : ∀ u, u ≠ t → s'.threads u = s.threads u)
    (ho : s.once ≠ none → s'.once ≠ none) (hd : s.data ≠ none → s'.data ≠ none)
    (hdone : ∀ o, s'.done o = true → s'.data ≠ none)
    (ht : match (s'.threads t).pc with
      | .getOnce _ => s'.once ≠ none
      | .leave _ _ => s'.data ≠ none
      | .getData _ => s'.data ≠ none
      | .store _ d => d ≠ none
      | .crashed => False
      | _ => True) : Safe s' := by
  refine ⟨hdone, ?_⟩
  intro u
  by_cases hu : u = t
  · subst hu; exact ht
  · rw [hth u hu]
    have := h.pcs u
    revert this
    cases (s.threads u).pc <;> simp only <;> intro this <;> first | exact this | exact ho this | exact hd this

theorem safe_step {s : ConcMap.St} (h : Safe s) (t : Nat) : Safe (ConcMap.step s t) := by
  have hp := h.pcs t
  have hth : ∀ (s0 : ConcMap.St) (th : ConcMap.Thread) (u : Nat), u ≠ t →
      (s0.setThread t th).threads u = s0.threads u := by
    intro s0 th u hu; simp [St.setThread, Mem.upd, hu]
  have hst : ∀ (s0 : ConcMap.St) (th : ConcMap.Thread), (s0.setThread t th).threads t = th := by
    intro s0 th; simp [St.setThread, Mem.upd]
  unfold ConcMap.step
  simp only
  cases hc : (s.threads t).pc with
  | idle =>
    simp only
    cases (s.threads t).prog with
    | nil => exact h
    | cons key rest =>
      exact safe_mono h t (hth s _) id id h.done (by rw [hst]; trivial)
  | check key =>
    simp only
    cases hon : s.once with
    | none => exact safe_mono h t (hth s _) id id h.done (by rw [hst]; trivial)
    | some o => exact safe_mono h t (hth s _) id id h.done (by rw [hst]; simp [St.setThread, hon])
  | mkOnce key =>
    exact safe_mono h t (hth _ _) (by simp [St.setThread]) id h.done (by rw [hst]; simp [St.setThread])
  | getOnce key =>
    rw [hc] at hp
    simp only at hp ⊢
    cases hon : s.once with
    | none => exact absurd hon hp
    | some o => exact safe_mono h t (hth s _) id id h.done (by rw [hst]; trivial)
  | doOnce key o =>
    simp only
    cases hd : s.done o with
    | true =>
      simp only [if_true]
      exact safe_mono h t (hth s _) id id h.done (by rw [hst]; exact h.done o hd)
    | false =>
      simp only [Bool.false_eq_true, if_false]
      cases s.running o with
      | some _ => exact h
      | none => exact safe_mono h t (hth _ _) id id h.done (by rw [hst]; trivial)
  | checkData key o =>
    simp only
    cases hd : s.data with
    | none => exact safe_mono h t (hth s _) id id h.done (by rw [hst]; trivial)
    | some d => exact safe_mono h t (hth s _) id id h.done (by rw [hst]; simp [St.setThread, hd])
  | mkData key o =>
    exact safe_mono h t (hth _ _) id (by simp [St.setThread]) (by simp [St.setThread])
      (by rw [hst]; simp [St.setThread])
  | leave key o =>
    rw [hc] at hp
    exact safe_mono h t (hth _ _) id id (fun _ _ => hp) (by rw [hst]; exact hp)
  | getData key =>
    rw [hc] at hp
    exact safe_mono h t (hth s _) id id h.done (by rw [hst]; exact hp)
  | store key d =>
    rw [hc] at hp
    simp only at hp ⊢
    cases d with
    | none => exact absurd rfl hp
    | some d => exact safe_mono h t (hth _ _) id id h.done (by rw [hst]; trivial)
  | crashed => rw [hc] at hp; exact hp.elim

theorem safe_run (sched : List Nat) : ∀ {s : ConcMap.St}, Safe s → Safe (ConcMap.run s sched) := by
  induction sched with
  | nil => intro s h; exact h
  | cons t ts ih => intro s h; exact ih (safe_step h t)

end ConcMapInv

/-- A map somebody has used, on which nobody is working at the moment; goroutine `t` is going to store
`progs t`. -/
structure Initialised (progs : Nat → List Nat) (s : ConcMap.St) : Prop where
  once : ∃ o, s.once = some o ∧ s.done o = true
  data : ∃ d, s.data = some d
  idle : ∀ t, s.threads t = ⟨progs t, ConcMap.PC.idle⟩

/-- **C36** for a Pkger that is already in use (missing: the first use). From any state of an initialised map and
for every schedule, whatever a goroutine that is done has stored can be found, and so can everything stored
before. -/
theorem C36_initialised_partial (progs : Nat → List Nat) (s : ConcMap.St) (hi : Initialised progs s)
    (sched : List Nat) :
    (∀ k, visible s k → visible (ConcMap.run s sched) k) ∧
    (∀ t, StoredAll (ConcMap.run s sched) t → ∀ k ∈ progs t, visible (ConcMap.run s sched) k) := by
  obtain ⟨o, ho, hdone⟩ := hi.once
  obtain ⟨d, hd⟩ := hi.data
  have h0 : ConcMapInv.Inv o d (s.maps d) progs s := by
    refine ⟨ho, hd, hdone, fun _ h => h, ?_⟩
    intro t
    rw [hi.idle t]
    exact fun k hk => Or.inr hk
  have h := ConcMapInv.inv_run sched h0
  refine ⟨?_, ?_⟩
  · rintro k ⟨d', hd', hk⟩
    rw [hd] at hd'
    cases hd'
    exact ⟨d, h.data, h.keep k hk⟩
  · rintro t ⟨h1, h2⟩ k hk
    have := h.pcs t
    rw [h2, h1] at this
    rcases this k hk with h3 | h3
    · exact ⟨d, h.data, h3⟩
    · cases h3

/-- The steps of one goroutine storing its first key with nobody else running. -/
def alone (t : Nat) : List Nat := List.replicate 10 t

/-- **C36**: the other hypothesis is met as soon as one `Store` on the fresh map has been run to its end before
the goroutines start, as `mem.New` does with its table of packages (but not with its table of files). -/
theorem C36_after_first_store (progs : Nat → List Nat) (t k : Nat) (rest : List Nat) (hp : progs t = k :: rest) :
    Initialised (Mem.upd progs t rest) (ConcMap.run (fresh progs) (alone t)) ∧
    visible (ConcMap.run (fresh progs) (alone t)) k := by
  have hoth : ∀ u, u ≠ t → (ConcMap.run (fresh progs) (alone t)).threads u = ⟨progs u, ConcMap.PC.idle⟩ := by
    intro u hu
    rw [run_other u _ _ (by simp [alone, hu])]
    rfl
  have hend : ConcMap.run (fresh progs) (alone t) =
      { once := some 0, data := some 0, running := (ConcMap.run (fresh progs) (alone t)).running,
        done := (ConcMap.run (fresh progs) (alone t)).done, maps := (ConcMap.run (fresh progs) (alone t)).maps,
        nextOnce := 1, nextMap := 1, threads := (ConcMap.run (fresh progs) (alone t)).threads } ∧
      (ConcMap.run (fresh progs) (alone t)).done 0 = true ∧ (ConcMap.run (fresh progs) (alone t)).maps 0 = [k] ∧
      (ConcMap.run (fresh progs) (alone t)).threads t = ⟨rest, ConcMap.PC.idle⟩ := by
    simp [ConcMap.run, alone, List.replicate, ConcMap.step, St.setThread, Mem.upd, fresh, hp]
  obtain ⟨h1, h2, h3, h4⟩ := hend
  refine ⟨⟨⟨0, by rw [h1], h2⟩, ⟨0, by rw [h1]⟩, ?_⟩, 0, by rw [h1], by rw [h3]; simp⟩
  intro u
  by_cases hu : u = t
  · subst hu; rw [h4]; simp [Mem.upd]
  · rw [hoth u hu]; simp [Mem.upd, hu]

/-- **C36**, from the first use on, with a first `Store` run alone (missing: concurrent first uses). -/
theorem C36_first_store_alone_partial (progs : Nat → List Nat) (t k : Nat) (rest : List Nat)
    (hp : progs t = k :: rest) (sched : List Nat) :
    (∀ u, StoredAll (ConcMap.run (fresh progs) (alone t ++ sched)) u →
      ∀ k ∈ progs u, visible (ConcMap.run (fresh progs) (alone t ++ sched)) k) := by
  obtain ⟨hi, hv⟩ := C36_after_first_store progs t k rest hp
  have hr : ConcMap.run (fresh progs) (alone t ++ sched) = ConcMap.run (ConcMap.run (fresh progs) (alone t)) sched := by
    simp [ConcMap.run, List.foldl_append]
  rw [hr]
  obtain ⟨h1, h2⟩ := C36_initialised_partial _ _ hi sched
  intro u hu k' hk'
  by_cases hut : u = t
  · subst hut
    rw [hp] at hk'
    rcases List.mem_cons.mp hk' with hk' | hk'
    · subst hk'; exact h1 _ hv
    · exact h2 u hu k' (by simp [Mem.upd, hk'])
  · exact h2 u hu k' (by simp [Mem.upd, hut, hk'])

/-- **C36**: losing files is the worst that happens; even in the first use no goroutine ever dereferences a nil
pointer. -/
theorem C36_no_crash (progs : Nat → List Nat) (sched : List Nat) (t : Nat) :
    ((ConcMap.run (fresh progs) sched).threads t).pc ≠ ConcMap.PC.crashed := by
  have h0 : ConcMapInv.Safe (fresh progs) := ⟨by simp [fresh], by intro t; trivial⟩
  have h := (ConcMapInv.safe_run sched h0).pcs t
  intro hc
  rw [hc] at h
  exact h

/-- Three goroutines, the first stores one file before the others start. -/
example :
    let progs : Nat → List Nat := fun t => if t = 0 then [1, 2] else if t = 1 then [3] else if t = 2 then [4] else []
    let s := ConcMap.run (fresh progs) (alone 0 ++ [0, 1, 2, 0, 1, 2, 0, 1, 2, 0, 1, 2, 0, 1, 2, 2, 1, 0, 2, 1, 0])
    visible s 1 ∧ visible s 2 ∧ visible s 3 ∧ visible s 4 := by decide +kernel

end Props
end Verif
