import Verif.Model.ConcApply
import Verif.Model.ConcMap
import Verif.Lemmas.Mem

/-! C35, C36: goroutines. -/

namespace Verif
namespace Props

open Conc

/-- The layers a list of calls applies, in order. -/
def layersOf {L : Type} : List (Call L) → List L
  | [] => []
  | .apply l :: cs => l :: layersOf cs
  | _ :: cs => layersOf cs

/-- The stack after the first `k` writes of `order`, on top of `cur0`. -/
def stackAt {L : Type} (cur0 : List L) (order : List (Nat × L)) (k : Nat) : List L :=
  ((order.take k).map (·.2)).reverse ++ cur0

/-- What a finished call of goroutine `t` is entitled to: an `Apply` made its write, and a reading call saw the
stack as it was, at some moment between call and return. -/
def RecOk {L : Type} (cur0 : List L) (order : List (Nat × L)) (t : Nat) : Rec L → Prop
  | .applied l start fin => ∃ k, start ≤ k ∧ k < fin ∧ fin ≤ order.length ∧ order[k]? = some (t, l)
  | .failed => True
  | .used v start fin => ∃ k, start ≤ k ∧ k ≤ fin ∧ fin ≤ order.length ∧ v = stackAt cur0 order k

namespace ConcInv

variable {L : Type}

def holdsW : PC L → Prop
  | .hasW _ _ => True
  | .loadedW _ _ _ => True
  | .storedW _ _ => True
  | _ => False

def holdsR : PC L → Prop
  | .hasR _ => True
  | .checkedR _ => True
  | .loadedR _ _ => True
  | _ => False

def pcLayers : PC L → List L
  | .wantW l _ => [l]
  | .hasW l _ => [l]
  | .loadedW l _ _ => [l]
  | _ => []

/-- What is known about a goroutine's local variables. -/
def PcOk (cur : List L) (order : List (Nat × L)) (t : Nat) : PC L → Prop
  | .idle => True
  | .wantW _ n => n ≤ order.length
  | .hasW _ n => n ≤ order.length
  | .loadedW _ v n => v = cur ∧ n ≤ order.length
  | .storedW l n => ∃ k, n ≤ k ∧ k < order.length ∧ order[k]? = some (t, l)
  | .wantR n => n ≤ order.length
  | .hasR n => n ≤ order.length
  | .checkedR n => n ≤ order.length
  | .loadedR v n => v = cur ∧ n ≤ order.length

structure Inv (cur0 : List L) (progs : Nat → List (Call L)) (s : St L) : Prop where
  val : s.cur = (s.order.map (·.2)).reverse ++ cur0
  split : ∀ t, (s.order.filter fun x => x.1 = t).map (·.2) ++ (pcLayers (s.threads t).pc ++ layersOf (s.threads t).prog) =
    layersOf (progs t)
  wHold : ∀ t, holdsW (s.threads t).pc ↔ s.writer = some t
  rHold : ∀ t, holdsR (s.threads t).pc ↔ t ∈ s.readers
  excl : s.writer ≠ none → s.readers = []
  pcOk : ∀ t, PcOk s.cur s.order t (s.threads t).pc
  recs : ∀ t, ∀ r ∈ (s.threads t).done, RecOk cur0 s.order t r

theorem recOk_mono {cur0 : List L} {order : List (Nat × L)} {t : Nat} {r : Rec L} (x : Nat × L)
    (h : RecOk cur0 order t r) : RecOk cur0 (order ++ [x]) t r := by
  cases r with
  | failed => trivial
  | applied l a b =>
    obtain ⟨k, h1, h2, h3, h4⟩ := h
    exact ⟨k, h1, h2, by simp; omega, by rw [List.getElem?_append_left (by omega)]; exact h4⟩
  | used v a b =>
    obtain ⟨k, h1, h2, h3, h4⟩ := h
    refine ⟨k, h1, h2, by simp; omega, ?_⟩
    rw [h4]
    unfold stackAt
    rw [List.take_append_of_le_length (by omega)]

/-- A step that changes only goroutine `t`. -/
theorem inv_local {cur0 : List L} {progs : Nat → List (Call L)} {s : St L} (h : Inv cur0 progs s) (t : Nat)
    (th : Thread L) (hl : pcLayers th.pc ++ layersOf th.prog = pcLayers (s.threads t).pc ++ layersOf (s.threads t).prog)
    (hw : holdsW th.pc ↔ holdsW (s.threads t).pc) (hr : holdsR th.pc ↔ holdsR (s.threads t).pc)
    (hp : PcOk s.cur s.order t th.pc) (hd : ∀ r ∈ th.done, RecOk cur0 s.order t r) :
    Inv cur0 progs (s.setThread t th) := by
  refine ⟨h.val, ?_, ?_, ?_, h.excl, ?_, ?_⟩ <;> intro u <;> by_cases hu : u = t
  · subst hu; have := h.split u; simp only [St.setThread, Mem.upd, if_true]; rw [hl]; exact this
  · simp only [St.setThread, Mem.upd, hu, if_false]; exact h.split u
  · subst hu; simp only [St.setThread, Mem.upd, if_true]; rw [hw]; exact h.wHold u
  · simp only [St.setThread, Mem.upd, hu, if_false]; exact h.wHold u
  · subst hu; simp only [St.setThread, Mem.upd, if_true]; rw [hr]; exact h.rHold u
  · simp only [St.setThread, Mem.upd, hu, if_false]; exact h.rHold u
  · subst hu; simp only [St.setThread, Mem.upd, if_true]; exact hp
  · simp only [St.setThread, Mem.upd, hu, if_false]; exact h.pcOk u
  · subst hu; simp only [St.setThread, Mem.upd, if_true]; exact hd
  · simp only [St.setThread, Mem.upd, hu, if_false]; exact h.recs u

theorem stack_len (cur0 : List L) (order : List (Nat × L)) :
    stackAt cur0 order order.length = (order.map (·.2)).reverse ++ cur0 := by
  simp [stackAt]

theorem inv_step {cur0 : List L} {progs : Nat → List (Call L)} {s : St L} (h : Inv cur0 progs s) (t : Nat) :
    Inv cur0 progs (step s t) := by
  have hpc := h.pcOk t
  have hsp := h.split t
  have hwt := h.wHold t
  have hrt := h.rHold t
  unfold step
  simp only
  cases hc : (s.threads t).pc with
  | idle =>
    simp only
    cases hp : (s.threads t).prog with
    | nil => exact h
    | cons c rest =>
      cases c with
      | apply l =>
        exact inv_local h t _ (by simp [pcLayers, hc, hp, layersOf]) (by simp [holdsW, hc]) (by simp [holdsR, hc])
          (Nat.le_refl _) (h.recs t)
      | applyErr =>
        refine inv_local h t _ (by simp [pcLayers, hc, hp, layersOf]) (by simp [holdsW, hc]) (by simp [holdsR, hc])
          trivial ?_
        intro r hr
        rcases List.mem_append.mp hr with hr | hr
        · exact h.recs t r hr
        · simp at hr; subst hr; trivial
      | use =>
        exact inv_local h t _ (by simp [pcLayers, hc, hp, layersOf]) (by simp [holdsW, hc]) (by simp [holdsR, hc])
          (Nat.le_refl _) (h.recs t)
  | wantW l n =>
    simp only
    split
    · rename_i hfree
      rw [hc] at hpc
      refine ⟨h.val, ?_, ?_, ?_, ?_, ?_, ?_⟩
      · intro u
        by_cases hu : u = t
        · subst hu; simp only [St.setThread, Mem.upd, if_true]; rw [← hsp, hc]; rfl
        · simp only [St.setThread, Mem.upd, hu, if_false]; exact h.split u
      · intro u
        by_cases hu : u = t
        · subst hu; simp [St.setThread, Mem.upd, holdsW]
        · simp only [St.setThread, Mem.upd, hu, if_false]
          rw [h.wHold u, hfree.1]
          simp
          exact fun he => hu he.symm
      · intro u
        by_cases hu : u = t
        · subst hu; simp [St.setThread, Mem.upd, holdsR, hfree.2]
        · simp only [St.setThread, Mem.upd, hu, if_false]; exact h.rHold u
      · intro _; exact hfree.2
      · intro u
        by_cases hu : u = t
        · subst hu; simp only [St.setThread, Mem.upd, if_true]; exact hpc
        · simp only [St.setThread, Mem.upd, hu, if_false]; exact h.pcOk u
      · intro u
        by_cases hu : u = t
        · subst hu; simp only [St.setThread, Mem.upd, if_true]; exact h.recs u
        · simp only [St.setThread, Mem.upd, hu, if_false]; exact h.recs u
    · exact h
  | hasW l n =>
    simp only
    rw [hc] at hpc
    exact inv_local h t _ (by simp [pcLayers, hc]) (by simp [holdsW, hc]) (by simp [holdsR, hc]) ⟨rfl, hpc⟩ (h.recs t)
  | loadedW l v n =>
    simp only
    rw [hc] at hpc
    obtain ⟨hv, hn⟩ := hpc
    subst hv
    have hw : s.writer = some t := (h.wHold t).mp (by rw [hc]; trivial)
    have hnr : s.readers = [] := h.excl (by rw [hw]; simp)
    refine ⟨?_, ?_, ?_, ?_, h.excl, ?_, ?_⟩
    · simp [St.setThread, h.val]
    · intro u
      by_cases hu : u = t
      · subst hu
        simp only [St.setThread, Mem.upd, if_true]
        rw [← hsp, hc]
        simp [pcLayers, List.filter_append]
      · simp only [St.setThread, Mem.upd, hu, if_false]
        rw [← h.split u]
        simp [List.filter_append, Ne.symm hu]
    · intro u
      by_cases hu : u = t
      · subst hu; simp [St.setThread, Mem.upd, holdsW, hw]
      · simp only [St.setThread, Mem.upd, hu, if_false]; exact h.wHold u
    · intro u
      by_cases hu : u = t
      · subst hu; simp [St.setThread, Mem.upd, holdsR, hnr]
      · simp only [St.setThread, Mem.upd, hu, if_false]; exact h.rHold u
    · intro u
      by_cases hu : u = t
      · subst hu
        simp only [St.setThread, Mem.upd, if_true]
        exact ⟨s.order.length, hn, by simp, by simp⟩
      · simp only [St.setThread, Mem.upd, hu, if_false]
        have hnw : ¬ holdsW (s.threads u).pc := by
          rw [h.wHold u, hw]; simp; exact fun he => hu he.symm
        have hnr' : ¬ holdsR (s.threads u).pc := by rw [h.rHold u, hnr]; simp
        have := h.pcOk u
        revert this hnw hnr'
        cases (s.threads u).pc <;> simp [PcOk, holdsW, holdsR] <;> omega
    · intro u r hr
      apply recOk_mono
      by_cases hu : u = t
      · subst hu; simp only [St.setThread, Mem.upd, if_true] at hr; exact h.recs u r hr
      · simp only [St.setThread, Mem.upd, hu, if_false] at hr; exact h.recs u r hr
  | storedW l n =>
    simp only
    rw [hc] at hpc
    have hw : s.writer = some t := (h.wHold t).mp (by rw [hc]; trivial)
    refine ⟨h.val, ?_, ?_, ?_, by simp [St.setThread], ?_, ?_⟩
    · intro u
      by_cases hu : u = t
      · subst hu; simp only [St.setThread, Mem.upd, if_true]; rw [← hsp, hc]; rfl
      · simp only [St.setThread, Mem.upd, hu, if_false]; exact h.split u
    · intro u
      by_cases hu : u = t
      · subst hu; simp [St.setThread, Mem.upd, holdsW]
      · simp only [St.setThread, Mem.upd, hu, if_false]
        rw [h.wHold u, hw]
        simp
        exact fun he => hu he.symm
    · intro u
      by_cases hu : u = t
      · subst hu
        have : u ∉ s.readers := by rw [← h.rHold u, hc]; simp [holdsR]
        simp [St.setThread, Mem.upd, holdsR, this]
      · simp only [St.setThread, Mem.upd, hu, if_false]; exact h.rHold u
    · intro u
      by_cases hu : u = t
      · subst hu; simp only [St.setThread, Mem.upd, if_true]; trivial
      · simp only [St.setThread, Mem.upd, hu, if_false]; exact h.pcOk u
    · intro u
      by_cases hu : u = t
      · subst hu
        simp only [St.setThread, Mem.upd, if_true]
        intro r hr
        rcases List.mem_append.mp hr with hr | hr
        · exact h.recs u r hr
        · simp at hr
          subst hr
          obtain ⟨k, h1, h2, h3⟩ := hpc
          exact ⟨k, h1, h2, Nat.le_refl _, h3⟩
      · simp only [St.setThread, Mem.upd, hu, if_false]; exact h.recs u
  | wantR n =>
    simp only
    split
    · rename_i hfree
      rw [hc] at hpc
      refine ⟨h.val, ?_, ?_, ?_, ?_, ?_, ?_⟩
      · intro u
        by_cases hu : u = t
        · subst hu; simp only [St.setThread, Mem.upd, if_true]; rw [← hsp, hc]; rfl
        · simp only [St.setThread, Mem.upd, hu, if_false]; exact h.split u
      · intro u
        by_cases hu : u = t
        · subst hu; simp [St.setThread, Mem.upd, holdsW, hfree]
        · simp only [St.setThread, Mem.upd, hu, if_false]; exact h.wHold u
      · intro u
        by_cases hu : u = t
        · subst hu; simp [St.setThread, Mem.upd, holdsR]
        · simp only [St.setThread, Mem.upd, hu, if_false]
          rw [h.rHold u]
          simp [hu]
      · intro hw; exact absurd hfree hw
      · intro u
        by_cases hu : u = t
        · subst hu; simp only [St.setThread, Mem.upd, if_true]; exact hpc
        · simp only [St.setThread, Mem.upd, hu, if_false]; exact h.pcOk u
      · intro u
        by_cases hu : u = t
        · subst hu; simp only [St.setThread, Mem.upd, if_true]; exact h.recs u
        · simp only [St.setThread, Mem.upd, hu, if_false]; exact h.recs u
    · exact h
  | hasR n =>
    simp only
    rw [hc] at hpc
    split
    · rename_i he
      exact inv_local h t _ (by simp [pcLayers, hc]) (by simp [holdsW, hc]) (by simp [holdsR, hc])
        ⟨(List.isEmpty_iff.mp he).symm, hpc⟩ (h.recs t)
    · exact inv_local h t _ (by simp [pcLayers, hc]) (by simp [holdsW, hc]) (by simp [holdsR, hc]) hpc (h.recs t)
  | checkedR n =>
    simp only
    rw [hc] at hpc
    exact inv_local h t _ (by simp [pcLayers, hc]) (by simp [holdsW, hc]) (by simp [holdsR, hc]) ⟨rfl, hpc⟩ (h.recs t)
  | loadedR v n =>
    simp only
    rw [hc] at hpc
    obtain ⟨hv, hn⟩ := hpc
    have hm : t ∈ s.readers := (h.rHold t).mp (by rw [hc]; trivial)
    have hnw : s.writer = none := by
      cases hw : s.writer with
      | none => rfl
      | some x => rw [h.excl (by rw [hw]; simp)] at hm; cases hm
    refine ⟨h.val, ?_, ?_, ?_, ?_, ?_, ?_⟩
    · intro u
      by_cases hu : u = t
      · subst hu; simp only [St.setThread, Mem.upd, if_true]; rw [← hsp, hc]; rfl
      · simp only [St.setThread, Mem.upd, hu, if_false]; exact h.split u
    · intro u
      by_cases hu : u = t
      · subst hu; simp [St.setThread, Mem.upd, holdsW, hnw]
      · simp only [St.setThread, Mem.upd, hu, if_false]; exact h.wHold u
    · intro u
      by_cases hu : u = t
      · subst hu; simp [St.setThread, Mem.upd, holdsR]
      · simp only [St.setThread, Mem.upd, hu, if_false]
        rw [h.rHold u]
        simp [hu]
    · intro hw; exact absurd hnw hw
    · intro u
      by_cases hu : u = t
      · subst hu; simp only [St.setThread, Mem.upd, if_true]; trivial
      · simp only [St.setThread, Mem.upd, hu, if_false]; exact h.pcOk u
    · intro u
      by_cases hu : u = t
      · subst hu
        simp only [St.setThread, Mem.upd, if_true]
        intro r hr
        rcases List.mem_append.mp hr with hr | hr
        · exact h.recs u r hr
        · simp at hr
          subst hr
          exact ⟨s.order.length, hn, Nat.le_refl _, Nat.le_refl _, by rw [stack_len, ← h.val, hv]⟩
      · simp only [St.setThread, Mem.upd, hu, if_false]; exact h.recs u

theorem inv_start (cur0 : List L) (progs : Nat → List (Call L)) : Inv cur0 progs (start cur0 progs) :=
  ⟨rfl, by intro t; simp [start, pcLayers], by intro t; simp [start, holdsW], by intro t; simp [start, holdsR],
    by simp [start], by intro t; trivial, by intro t r hr; cases hr⟩

theorem inv_run {cur0 : List L} {progs : Nat → List (Call L)} (sched : List Nat) :
    ∀ {s : St L}, Inv cur0 progs s → Inv cur0 progs (Conc.run s sched) := by
  induction sched with
  | nil => intro s h; exact h
  | cons t ts ih => intro s h; exact ih (inv_step h t)

end ConcInv

/-- Goroutine `t` has made all its calls. -/
def Finished {L : Type} (s : St L) (t : Nat) : Prop :=
  (s.threads t).prog = [] ∧ match (s.threads t).pc with | .idle => True | _ => False

/-- **C35** (no call is lost). For any number of goroutines, each making any sequence of calls, and every
schedule: at every moment the stack consists of the layers written so far, newest first, on top of the initial
stack; these are an interleaving of the goroutines' own sequences of `Apply` calls, of which a goroutine that has
finished contributed all, each once and in its order. -/
theorem C35_no_apply_lost {L : Type} (cur0 : List L) (progs : Nat → List (Call L)) (sched : List Nat) :
    ∃ order : List (Nat × L),
      (Conc.run (start cur0 progs) sched).cur = (order.map (·.2)).reverse ++ cur0 ∧
      (∀ t, (order.filter fun x => x.1 = t).map (·.2) <+: layersOf (progs t)) ∧
      (∀ t, Finished (Conc.run (start cur0 progs) sched) t →
        (order.filter fun x => x.1 = t).map (·.2) = layersOf (progs t)) := by
  have h := ConcInv.inv_run sched (ConcInv.inv_start cur0 progs)
  refine ⟨(Conc.run (start cur0 progs) sched).order, h.val, ?_, ?_⟩
  · intro t; exact ⟨_, h.split t⟩
  · rintro t ⟨h1, h2⟩
    have hs := h.split t
    rw [h1] at hs
    revert h2 hs
    cases ((Conc.run (start cur0 progs) sched).threads t).pc <;> simp [ConcInv.pcLayers, layersOf]

/-- **C35** (every call takes effect at one moment between call and return). For every schedule there is one
sequence of writes such that the stack at any time is given by a number of writes; each finished `Apply` made one
of the writes between its call and its return, and each finished package-level call saw the stack as it was after
some number of writes between its call and its return. -/
theorem C35_calls_are_atomic {L : Type} (cur0 : List L) (progs : Nat → List (Call L)) (sched : List Nat) :
    ∃ order : List (Nat × L),
      (Conc.run (start cur0 progs) sched).cur = stackAt cur0 order order.length ∧
      ∀ t, ∀ r ∈ ((Conc.run (start cur0 progs) sched).threads t).done, RecOk cur0 order t r := by
  have h := ConcInv.inv_run sched (ConcInv.inv_start cur0 progs)
  exact ⟨_, by rw [ConcInv.stack_len]; exact h.val, h.recs⟩

/-- Two goroutines applying two layers each and one reading, in some schedule in which they all finish; the steps
of the first two are interleaved, so that one has to wait for the other. -/
example :
    let progs : Nat → List (Call Nat) := fun t =>
      if t = 0 then [.apply 10, .apply 11] else if t = 1 then [.apply 20, .apply 21] else if t = 2 then [.use] else []
    let sched := [0, 1, 0, 1, 2, 0, 1, 0, 0, 1, 1, 2, 2, 1, 0, 1, 1, 2, 2, 2, 2, 0, 0, 0, 0, 0, 1, 1, 1, 1, 1, 1]
    let s := Conc.run (start [] progs) sched
    s.cur = [21, 11, 20, 10] ∧
      (s.threads 2).done.map (fun r => match r with | .used v _ _ => v | _ => []) = [[20, 10]] := by decide +kernel

end Props
end Verif
