import Verif.Lemmas.DiskFine

/-!
A goroutine among others, seen as one that runs alone on an operating system in which the others' doings show up as sudden
changes between its own calls.  Such an operating system shows the same disk, so that whatever has been proved of programs
that run alone on any operating system holds of goroutines among others.
-/

namespace Verif
namespace DiskFine

open Mem (Details newFileInfo upd)
open Disk (Node)
open Stdos (Host World File)
open DiskClient (Io)
open Site (Posix)

variable {S : Type} {α β : Type} {O : Host S} {I : Io S} {disk : Node}

/-- The operating system as one goroutine sees it: the state its last call left behind, the files it has opened, whether
it has done something about which nothing is known, and the states it will find at its next calls. -/
structure Turn (S : Type) where
  s : S
  mine : List Nat
  bad : Bool
  others : List S

/-- The files the goroutine has open after a call. -/
def after (mine : List Nat) : (c : Sys) → c.Reply → List Nat
  | .openFile _, .ok fd => fd :: mine
  | .openFile _, .error _ => mine
  | .close fd, _ => mine.filter fun g => g ≠ fd
  | .fstat _, _ => mine
  | .readdir _ _, _ => mine
  | .stat _, _ => mine
  | .tree _, _ => mine
  | .read _ _, _ => mine
  | .seek _ _ _, _ => mine

/-- Others leave alone the files in `mine`. -/
def Rely (P : Posix O I disk) (mine : List Nat) (s s' : S) : Prop := P.ok s' ∧ ∀ g ∈ mine, P.holds s' g = P.holds s g

/-- A call touches only files that the goroutine has open, or new ones. -/
structure Sound (P : Posix O I disk) (mine mine' : List Nat) (s s' : S) : Prop where
  ok : P.ok s'
  rest : ∀ g, g ∉ mine → g ∉ mine' → P.holds s' g = P.holds s g
  held : ∀ g ∈ mine', P.holds s' g ≠ none
  fresh : ∀ g ∈ mine', g ∈ mine ∨ P.holds s g = none
  gone : ∀ g ∈ mine, g ∉ mine' → P.holds s' g = none

open Classical in
/-- What the goroutine finds at its next call. -/
noncomputable def Turn.enter (P : Posix O I disk) (t : Turn S) : S :=
  match t.others with
  | [] => t.s
  | s :: _ => if Rely P t.mine t.s s then s else t.s

open Classical in
/-- A call. -/
noncomputable def Turn.act (P : Posix O I disk) (c : Sys) (t : Turn S) : Turn S × c.Reply :=
  let r := c.run O I (t.enter P)
  (⟨r.1, after t.mine c r.2, t.bad || !decide (Sound P t.mine (after t.mine c r.2) (t.enter P) r.1), t.others.tail⟩, r.2)

/-- All calls. -/
noncomputable def turnHost (P : Posix O I disk) : Host (Turn S) where
  create _ t := ({ t with bad := true }, .error (.other 20))
  openFile name t := t.act P (.openFile name)
  fstat fd t := t.act P (.fstat fd)
  readdir fd n t := t.act P (.readdir fd n)
  close fd t := t.act P (.close fd)
  stat name t := t.act P (.stat name)
  mkdirAll _ _ t := ({ t with bad := true }, some (.other 20))
  remove _ t := ({ t with bad := true }, some (.other 20))
  removeAll _ t := ({ t with bad := true }, some (.other 20))
  tree name t := t.act P (.tree name)
  package p t := (t, P.tool p)

noncomputable def turnIo (P : Posix O I disk) : Io (Turn S) where
  read fd n t := t.act P (.read fd n)
  seek fd off wh t := t.act P (.seek fd off wh)

theorem run_turn (P : Posix O I disk) (c : Sys) (t : Turn S) : c.run (turnHost P) (turnIo P) t = t.act P c := by
  cases c <;> rfl

/-- Everything has been as it should be. -/
structure Turn.Ok (P : Posix O I disk) (t : Turn S) : Prop where
  ok : P.ok t.s
  good : t.bad = false
  held : ∀ g ∈ t.mine, P.holds t.s g ≠ none

/-- What the goroutine's files refer to. -/
def Turn.holds (P : Posix O I disk) (t : Turn S) (g : Nat) : Option (Node × Nat) := if g ∈ t.mine then P.holds t.s g else none

theorem Turn.enter_ok {P : Posix O I disk} {t : Turn S} (h : t.Ok P) : Rely P t.mine t.s (t.enter P) := by
  unfold Turn.enter
  split
  · exact ⟨h.ok, fun _ _ => rfl⟩
  · split
    · assumption
    · exact ⟨h.ok, fun _ _ => rfl⟩

theorem Turn.holds_some {P : Posix O I disk} {t : Turn S} {g : Nat} {x : Node × Nat} (h : t.holds P g = some x) :
    g ∈ t.mine ∧ P.holds t.s g = some x := by
  unfold Turn.holds at h
  split at h
  · exact ⟨‹_›, h⟩
  · cases h

/-- A call with a known outcome that is sound. -/
theorem Turn.act_sound {P : Posix O I disk} {t : Turn S} (h : t.Ok P) {c : Sys} {s' : S} {r : c.Reply}
    (hr : c.run O I (t.enter P) = (s', r)) (hs : Sound P t.mine (after t.mine c r) (t.enter P) s') :
    t.act P c = (⟨s', after t.mine c r, false, t.others.tail⟩, r) ∧ Turn.Ok P ⟨s', after t.mine c r, false, t.others.tail⟩ := by
  refine ⟨?_, hs.ok, rfl, hs.held⟩
  unfold Turn.act
  simp only [hr, h.good, Bool.false_or, hs, decide_true, Bool.not_true]

/-- A call on an open file that changes at most this file. -/
theorem Turn.act_own {P : Posix O I disk} {t : Turn S} (h : t.Ok P) {c : Sys} {s' : S} {r : c.Reply} {fd : Nat} (hfd : fd ∈ t.mine)
    (hr : c.run O I (t.enter P) = (s', r)) (hm : after t.mine c r = t.mine) (hok : P.ok s') (hne : P.holds s' fd ≠ none)
    (hrest : ∀ g, g ≠ fd → P.holds s' g = P.holds (t.enter P) g) :
    ∃ t', t.act P c = (t', r) ∧ Turn.Ok P t' ∧ t'.holds P fd = P.holds s' fd ∧ ∀ g, g ≠ fd → t'.holds P g = t.holds P g := by
  have he := Turn.enter_ok h
  have hs : Sound P t.mine (after t.mine c r) (t.enter P) s' := by
    rw [hm]
    refine ⟨hok, fun g hg _ => hrest g (by rintro rfl; exact hg hfd), fun g hg => ?_, fun g hg => Or.inl hg,
      fun g hg hg' => absurd hg hg'⟩
    by_cases hgf : g = fd
    · rw [hgf]; exact hne
    · rw [hrest g hgf, he.2 g hg]; exact h.held g hg
  obtain ⟨h1, h2⟩ := Turn.act_sound h hr hs
  refine ⟨_, h1, h2, ?_, ?_⟩
  · simp only [Turn.holds, hm, hfd, if_true]
  · intro g hg
    simp only [Turn.holds, hm]
    split
    · rw [hrest g hg, he.2 g ‹_›]
    · rfl

/-- A call that changes no file. -/
theorem Turn.act_none {P : Posix O I disk} {t : Turn S} (h : t.Ok P) {c : Sys} {s' : S} {r : c.Reply}
    (hr : c.run O I (t.enter P) = (s', r)) (hm : after t.mine c r = t.mine) (hok : P.ok s')
    (hrest : P.holds s' = P.holds (t.enter P)) :
    ∃ t', t.act P c = (t', r) ∧ Turn.Ok P t' ∧ t'.holds P = t.holds P := by
  have he := Turn.enter_ok h
  have hs : Sound P t.mine (after t.mine c r) (t.enter P) s' := by
    rw [hm]
    refine ⟨hok, fun g hg _ => by rw [hrest], fun g hg => ?_, fun g hg => Or.inl hg, fun g hg hg' => absurd hg hg'⟩
    rw [hrest, he.2 g hg]; exact h.held g hg
  obtain ⟨h1, h2⟩ := Turn.act_sound h hr hs
  refine ⟨_, h1, h2, ?_⟩
  funext g
  simp only [Turn.holds, hm]
  split
  · rw [hrest, he.2 g ‹_›]
  · rfl

/-- It shows the disk. -/
noncomputable def turnPosix (P : Posix O I disk) : Posix (turnHost P) (turnIo P) disk where
  ok := Turn.Ok P
  holds := Turn.holds P
  tool := P.tool
  package := fun t _ h => ⟨t, rfl, h, rfl⟩
  openThere := by
    intro t es k h hg hk
    have he := Turn.enter_ok h
    obtain ⟨s', fd, e1, e2, e3, e4, e5⟩ := P.openThere (t.enter P) es k he.1 hg hk
    have hnew : fd ∉ t.mine := fun hm => h.held fd hm (by rw [← he.2 fd hm]; exact e3)
    have hs : Sound P t.mine (after t.mine (.openFile (GoPath.mk es)) (.ok fd)) (t.enter P) s' := by
      simp only [after]
      refine ⟨e2, fun g _ hg' => e5 g (by rintro rfl; simp at hg'), fun g hg => ?_, fun g hg => ?_, fun g hg hg' =>
        absurd (List.mem_cons_of_mem _ hg) hg'⟩
      · rcases List.mem_cons.mp hg with rfl | hg
        · rw [e4]; simp
        · rw [e5 g (fun e => hnew (e ▸ hg)), he.2 g hg]; exact h.held g hg
      · rcases List.mem_cons.mp hg with rfl | hg
        · exact Or.inr e3
        · exact Or.inl hg
    obtain ⟨h1, h2⟩ := Turn.act_sound h (c := .openFile (GoPath.mk es)) e1 hs
    refine ⟨_, fd, h1, h2, ?_, ?_, ?_⟩
    · simp [Turn.holds, hnew]
    · simp [Turn.holds, after, e4]
    · intro g hg
      simp only [Turn.holds, after, List.mem_cons, hg, false_or]
      split
      · rw [e5 g hg, he.2 g ‹_›]
      · rfl
  openAbsent := by
    intro t es h hg hk
    obtain ⟨s', e, e1, e2, e3, e4⟩ := P.openAbsent (t.enter P) es (Turn.enter_ok h).1 hg hk
    obtain ⟨t', h1, h2, h3⟩ := Turn.act_none h (c := .openFile (GoPath.mk es)) e1 rfl e2 e3
    exact ⟨t', e, h1, h2, h3, e4⟩
  fstat := by
    intro t fd k p h hk
    obtain ⟨hm, hk'⟩ := Turn.holds_some hk
    have he := Turn.enter_ok h
    obtain ⟨s', e1, e2, e3⟩ := P.fstat (t.enter P) fd k p he.1 (by rw [he.2 fd hm]; exact hk')
    exact Turn.act_none h (c := .fstat fd) e1 rfl e2 e3
  readdir := by
    intro t fd d kids n h hk hn
    obtain ⟨hm, hk'⟩ := Turn.holds_some hk
    have he := Turn.enter_ok h
    obtain ⟨s', l, p, e1, e2, e3, e4, e5⟩ := P.readdir (t.enter P) fd d kids n he.1 (by rw [he.2 fd hm]; exact hk') hn
    obtain ⟨t', h1, h2, h3, h4⟩ := Turn.act_own h hm (c := .readdir fd n) e1 rfl e3 (by rw [e4]; simp) e5
    exact ⟨t', l, p, h1, e2, h2, by rw [h3, e4], h4⟩
  read := by
    intro t fd d b p n h hk hn hp
    obtain ⟨hm, hk'⟩ := Turn.holds_some hk
    have he := Turn.enter_ok h
    obtain ⟨s', m, e1, e2, e3, e4, e5, e6, e7⟩ := P.read (t.enter P) fd d b p n he.1 (by rw [he.2 fd hm]; exact hk') hn hp
    obtain ⟨t', h1, h2, h3, h4⟩ := Turn.act_own h hm (c := .read fd n) e1 rfl e5 (by rw [e6]; simp) e7
    exact ⟨t', m, h1, e2, e3, e4, h2, by rw [h3, e6], h4⟩
  readEnd := by
    intro t fd d b p n h hk hn hp
    obtain ⟨hm, hk'⟩ := Turn.holds_some hk
    have he := Turn.enter_ok h
    obtain ⟨s', e1, e2, e3⟩ := P.readEnd (t.enter P) fd d b p n he.1 (by rw [he.2 fd hm]; exact hk') hn hp
    exact Turn.act_none h (c := .read fd n) e1 rfl e2 e3
  seek := by
    intro t fd d b p off h hk ho
    obtain ⟨hm, hk'⟩ := Turn.holds_some hk
    have he := Turn.enter_ok h
    obtain ⟨s', e1, e2, e3, e4⟩ := P.seek (t.enter P) fd d b p off he.1 (by rw [he.2 fd hm]; exact hk') ho
    obtain ⟨t', h1, h2, h3, h4⟩ := Turn.act_own h hm (c := .seek fd off 0) e1 rfl e2 (by rw [e3]; simp) e4
    exact ⟨t', h1, h2, by rw [h3, e3], h4⟩
  close := by
    intro t fd k h hk
    obtain ⟨hm, hk'⟩ := Turn.holds_some hk
    have he := Turn.enter_ok h
    obtain ⟨s', e1, e2, e3, e4⟩ := P.close (t.enter P) fd k he.1 (by rw [he.2 fd hm]; exact hk')
    have hs : Sound P t.mine (after t.mine (.close fd) none) (t.enter P) s' := by
      simp only [after]
      refine ⟨e2, fun g hg _ => e4 g (by rintro rfl; exact hg hm), fun g hg => ?_, fun g hg => Or.inl (List.mem_filter.mp hg).1,
        fun g hg hg' => ?_⟩
      · simp only [List.mem_filter, decide_eq_true_eq] at hg
        rw [e4 g hg.2, he.2 g hg.1]; exact h.held g hg.1
      · simp only [List.mem_filter, decide_eq_true_eq, not_and] at hg'
        have : g = fd := Classical.byContradiction fun hne => hg' hg hne
        rw [this]; exact e3
    obtain ⟨h1, h2⟩ := Turn.act_sound h (c := .close fd) e1 hs
    refine ⟨_, h1, h2, ?_, ?_⟩
    · simp [Turn.holds, after]
    · intro g hg
      simp only [Turn.holds, after, List.mem_filter, hg, ne_eq, not_false_eq_true, decide_true, and_true]
      split
      · rw [e4 g hg, he.2 g ‹_›]
      · rfl

/-! ### Once something unknown has been done, it stays so -/

theorem exec_bad (P : Posix O I disk) : ∀ (a : Acts α) (u : World (Turn S)), u.host.bad = true →
    (a.exec (turnHost P) (turnIo P) u).1.host.bad = true := by
  intro a
  induction a with
  | ret a => intro u h; exact h
  | info p k ih =>
    intro u h
    simp only [Acts.exec]
    apply ih
    unfold Stdos.info
    split
    · exact h
    · simp only [turnHost]
      cases P.tool p <;> exact h
  | sys c k ih =>
    intro u h
    simp only [Acts.exec]
    apply ih
    rw [run_turn]
    simp [Turn.act, h]

/-! ### Goroutines among others -/

/-- Where a goroutine's program goes on. -/
def Thread.rest : Thread α → Acts α
  | .run a => a
  | .asking p k => .info p k
  | .storing p _ k => .info p k

/-- What is known of the package the goroutine is asking about. -/
def Thread.Knows (P : Posix O I disk) (told : Str → Except Err Info) : Thread α → Prop
  | .run _ => True
  | .asking p _ => told p = P.tool p
  | .storing p i _ => told p = .ok i

/-- A goroutine alone, with these states to come. -/
def alone (here : Info) (infos : AMap Str Info) (s : S) (mine : List Nat) (τ : List S) : World (Turn S) :=
  ⟨here, infos, ⟨s, mine, false, τ⟩⟩

/-- What a program has done right: it has ended in a state about which everything is known, with a result and open files as
wanted. -/
def Right (P : Posix O I disk) (Q : α → (Nat → Option (Node × Nat)) → Prop) (r : World S × α) : Prop :=
  P.ok r.1.host ∧ Q r.2 (P.holds r.1.host)

/-- The state of one goroutine: it is as if it ran alone. -/
structure Inside (P : Posix O I disk) (here : Info) (told : Str → Except Err Info) (now : S)
    (Q : α → (Nat → Option (Node × Nat)) → Prop) (mine : List Nat) (t : Thread α) : Prop where
  knows : t.Knows P told
  there : ∃ infos s, P.ok s ∧ (∀ g ∈ mine, P.holds s g ≠ none) ∧ Rely P mine s now ∧
    (∀ p, (turnPosix P).told (alone here infos s mine []) p = told p) ∧
    ∀ τ, Right (turnPosix P) Q (t.rest.exec (turnHost P) (turnIo P) (alone here infos s mine τ))

/-- Others do something. -/
theorem Inside.left {P : Posix O I disk} {here : Info} {told : Str → Except Err Info} {now now' : S}
    {Q : α → (Nat → Option (Node × Nat)) → Prop} {mine : List Nat} {t : Thread α} (h : Inside P here told now Q mine t)
    (hr : Rely P mine now now') : Inside P here told now' Q mine t := by
  obtain ⟨infos, s, h1, h2, h3, h4, h5⟩ := h.there
  exact ⟨h.knows, infos, s, h1, h2, ⟨hr.1, fun g hg => by rw [hr.2 g hg, h3.2 g hg]⟩, h4, h5⟩

theorem told_alone (P : Posix O I disk) (here : Info) (infos : AMap Str Info) (s s' : S) (mine mine' : List Nat) (τ τ' : List S) (p : Str) :
    (turnPosix P).told (alone here infos s mine τ) p = (turnPosix P).told (alone here infos s' mine' τ') p := rfl

/-- `Info` of a goroutine alone. -/
theorem info_alone (P : Posix O I disk) (here : Info) (infos : AMap Str Info) (s : S) (mine : List Nat) (p : Str) :
    ∃ infos', (∀ τ, Stdos.info (turnHost P) (alone here infos s mine τ) p =
        (alone here infos' s mine τ, (turnPosix P).told (alone here infos s mine []) p)) ∧
      ∀ q, (turnPosix P).told (alone here infos' s mine []) q = (turnPosix P).told (alone here infos s mine []) q := by
  cases hc : AMap.get infos p with
  | some i =>
    exact ⟨infos, fun τ => by simp [Stdos.info, Posix.told, alone, hc], fun _ => rfl⟩
  | none =>
    cases ht : P.tool p with
    | error e =>
      exact ⟨infos, fun τ => by simp [Stdos.info, Posix.told, alone, hc, turnHost, turnPosix, ht], fun _ => rfl⟩
    | ok i =>
      refine ⟨AMap.set infos p i, fun τ => by simp [Stdos.info, Posix.told, alone, hc, turnHost, turnPosix, ht], ?_⟩
      intro q
      simp only [Posix.told, alone]
      by_cases hq : q = p
      · subst hq
        simp [AMap.get_set_self, hc, turnPosix, ht]
      · rw [AMap.get_set_ne _ _ hq]

/-- The goroutine makes a step: what it does to the others, and that it is again as if it were alone. -/
theorem Inside.step {P : Posix O I disk} {told : Str → Except Err Info} {w : World S}
    {Q : α → (Nat → Option (Node × Nat)) → Prop} {mine : List Nat} {t : Thread α} (h : Inside P w.here told w.host Q mine t)
    (ht : ∀ p, P.told w p = told p) :
    ∃ mine', Inside P w.here told (t.next O I w).1.host Q mine' (t.next O I w).2 ∧ (t.next O I w).1.here = w.here ∧
      (∀ p, P.told (t.next O I w).1 p = told p) ∧ Sound P mine mine' w.host (t.next O I w).1.host := by
  obtain ⟨hk, infos, s, h1, h2, h3, h4, h5⟩ := h
  have hstay : Sound P mine mine w.host w.host := ⟨h3.1, fun _ _ _ => rfl, fun g hg => by rw [h3.2 g hg]; exact h2 g hg,
    fun _ hg => Or.inl hg, fun g hg hg' => absurd hg hg'⟩
  -- the end of `Info`
  have hinfo : ∀ p (k : Except Err Info → Acts α), t.rest = .info p k →
      ∃ infos', (∀ q, (turnPosix P).told (alone w.here infos' s mine []) q = told q) ∧
        ∀ τ, Right (turnPosix P) Q ((k (told p)).exec (turnHost P) (turnIo P) (alone w.here infos' s mine τ)) := by
    intro p k hr
    obtain ⟨infos', i1, i2⟩ := info_alone P w.here infos s mine p
    refine ⟨infos', fun q => (i2 q).trans (h4 q), fun τ => ?_⟩
    have := h5 τ
    rw [hr] at this
    simp only [Acts.exec, i1 τ, h4 p] at this
    exact this
  cases t with
  | run a =>
    cases a with
    | ret a => exact ⟨mine, ⟨trivial, infos, s, h1, h2, h3, h4, h5⟩, rfl, ht, hstay⟩
    | info p k =>
      cases hg : AMap.get w.infos p with
      | some i =>
        have htp : told p = .ok i := by rw [← ht p]; simp [Posix.told, hg]
        obtain ⟨infos', i1, i2⟩ := hinfo p k rfl
        rw [htp] at i2
        simp only [Thread.next, hg]
        exact ⟨mine, ⟨trivial, infos', s, h1, h2, h3, i1, i2⟩, trivial, ht, hstay⟩
      | none =>
        have htp : told p = P.tool p := by rw [← ht p]; simp [Posix.told, hg]
        simp only [Thread.next, hg]
        exact ⟨mine, ⟨htp, infos, s, h1, h2, h3, h4, h5⟩, trivial, ht, hstay⟩
    | sys c k =>
      have hent : ∀ τ, Turn.enter P ⟨s, mine, false, w.host :: τ⟩ = w.host := by
        intro τ; simp only [Turn.enter, h3, if_true]
      have hsound : Sound P mine (after mine c (c.run O I w.host).2) w.host (c.run O I w.host).1 := by
        refine Classical.byContradiction fun hns => ?_
        have hbad := (h5 [w.host]).1.good
        simp only [Thread.rest, Acts.exec] at hbad
        rw [exec_bad P _ _ (by
          rw [run_turn]
          simp only [alone, Turn.act, hent, hns, decide_false, Bool.not_false, Bool.or_true])] at hbad
        cases hbad
      refine ⟨after mine c (c.run O I w.host).2, ⟨trivial, infos, (c.run O I w.host).1, hsound.ok, hsound.held,
        ⟨hsound.ok, fun _ _ => rfl⟩, fun p => (told_alone P _ _ _ _ _ _ _ _ p).trans (h4 p), fun τ => ?_⟩, rfl, ht, hsound⟩
      have := h5 (w.host :: τ)
      simp only [Thread.rest, Acts.exec] at this
      rw [show (alone w.here infos s mine (w.host :: τ)).host = ⟨s, mine, false, w.host :: τ⟩ from rfl, run_turn] at this
      simp only [Turn.act, hent, hsound, decide_true, Bool.not_true, Bool.or_false, List.tail_cons] at this
      exact this
  | asking p k =>
    obtain ⟨h', e1, e2, e3⟩ := P.package w.host p h3.1
    have hrel : Rely P mine s h' := ⟨e2, fun g hg => by rw [e3]; exact h3.2 g hg⟩
    have hs : Sound P mine mine w.host h' := ⟨e2, fun g _ _ => by rw [e3], fun g hg => by rw [e3]; exact hstay.held g hg,
      fun _ hg => Or.inl hg, fun g hg hg' => absurd hg hg'⟩
    have hk' : told p = P.tool p := hk
    cases hto : P.tool p with
    | error e =>
      simp only [Thread.next, e1, hto]
      obtain ⟨infos', i1, i2⟩ := hinfo p k rfl
      rw [hk', hto] at i2
      exact ⟨mine, ⟨trivial, infos', s, h1, h2, hrel, i1, i2⟩, trivial, ht, hs⟩
    | ok i =>
      simp only [Thread.next, e1, hto]
      exact ⟨mine, ⟨hk'.trans hto, infos, s, h1, h2, hrel, h4, h5⟩, trivial, ht, hs⟩
  | storing p i k =>
    have hk' : told p = .ok i := hk
    obtain ⟨infos', i1, i2⟩ := hinfo p k rfl
    rw [hk'] at i2
    refine ⟨mine, ⟨trivial, infos', s, h1, h2, h3, i1, i2⟩, rfl, ?_, hstay⟩
    intro q
    simp only [Thread.next, Posix.told]
    by_cases hq : q = p
    · subst hq; rw [AMap.get_set_self, hk']
    · rw [AMap.get_set_ne _ _ hq]; exact ht q

/-- All goroutines: each is as if it ran alone, no two have the same file open, and the files nobody of them has open are as
in the beginning. -/
structure Together (P : Posix O I disk) (here : Info) (told : Str → Except Err Info)
    (Q : Nat → α → (Nat → Option (Node × Nat)) → Prop) (w0 : World S) (s : State S α) (mine : Nat → List Nat) : Prop where
  place : s.w.here = here
  known : ∀ p, P.told s.w p = told p
  ok : P.ok s.w.host
  inside : ∀ t, Inside P here told s.w.host (Q t) (mine t) (s.threads t)
  apart : ∀ t t', t ≠ t' → ∀ g ∈ mine t, g ∉ mine t'
  new : ∀ t, ∀ g ∈ mine t, P.holds w0.host g = none
  rest : ∀ g, (∀ t, g ∉ mine t) → P.holds s.w.host g = P.holds w0.host g

theorem Inside.held {P : Posix O I disk} {here : Info} {told : Str → Except Err Info} {now : S}
    {Q : α → (Nat → Option (Node × Nat)) → Prop} {mine : List Nat} {t : Thread α} (h : Inside P here told now Q mine t) :
    ∀ g ∈ mine, P.holds now g ≠ none := by
  obtain ⟨infos, s, h1, h2, h3, h4, h5⟩ := h.there
  intro g hg
  rw [h3.2 g hg]
  exact h2 g hg

theorem Together.step {P : Posix O I disk} {here : Info} {told : Str → Except Err Info}
    {Q : Nat → α → (Nat → Option (Node × Nat)) → Prop} {w0 : World S} {s : State S α} {mine : Nat → List Nat}
    (h : Together P here told Q w0 s mine) (t : Nat) : ∃ mine', Together P here told Q w0 (s.step O I t) mine' := by
  have hin := h.inside t
  rw [← h.place] at hin
  obtain ⟨m', i1, i2, i3, i4⟩ := hin.step h.known
  refine ⟨upd mine t m', i2.trans h.place, i3, i4.ok, ?_, ?_, ?_, ?_⟩
  · intro t'
    by_cases ht : t' = t
    · subst ht
      simp only [State.step, upd, if_true]
      rw [h.place] at i1
      exact i1
    · simp only [State.step, upd, ht, if_false]
      refine (h.inside t').left ⟨i4.ok, fun g hg => i4.rest g ?_ ?_⟩
      · exact fun hm => h.apart t' t ht g hg hm
      · intro hm
        rcases i4.fresh g hm with hm | hm
        · exact h.apart t' t ht g hg hm
        · exact (h.inside t').held g hg hm
  · intro a b hab g hg hg'
    by_cases ha : a = t
    · subst ha
      have hb : b ≠ a := fun h => hab h.symm
      simp only [upd, if_true] at hg
      simp only [upd, hb, if_false] at hg'
      rcases i4.fresh g hg with hm | hm
      · exact h.apart a b hab g hm hg'
      · exact (h.inside b).held g hg' hm
    · simp only [upd, ha, if_false] at hg
      by_cases hb : b = t
      · subst hb
        simp only [upd, if_true] at hg'
        rcases i4.fresh g hg' with hm | hm
        · exact h.apart a b hab g hg hm
        · exact (h.inside a).held g hg hm
      · simp only [upd, hb, if_false] at hg'
        exact h.apart a b hab g hg hg'
  · intro a g hg
    by_cases ha : a = t
    · subst ha
      simp only [upd, if_true] at hg
      rcases i4.fresh g hg with hm | hm
      · exact h.new a g hm
      · rw [← h.rest g fun b hb => (h.inside b).held g hb hm]; exact hm
    · simp only [upd, ha, if_false] at hg
      exact h.new a g hg
  · intro g hg
    have hgt : g ∉ m' := by have := hg t; simpa only [upd, if_true] using this
    by_cases hm : g ∈ mine t
    · exact (i4.gone g hm hgt).trans (h.new t g hm).symm
    · refine (i4.rest g hm hgt).trans (h.rest g fun b hb => ?_)
      by_cases hbt : b = t
      · subst hbt; exact hm hb
      · have := hg b
        simp only [upd, hbt, if_false] at this
        exact this hb

theorem Together.run {P : Posix O I disk} {here : Info} {told : Str → Except Err Info}
    {Q : Nat → α → (Nat → Option (Node × Nat)) → Prop} {w0 : World S} : ∀ (sched : List Nat) {s : State S α} {mine : Nat → List Nat},
    Together P here told Q w0 s mine → ∃ mine', Together P here told Q w0 (s.run O I sched) mine'
  | [], s, mine, h => ⟨mine, h⟩
  | t :: ts, s, mine, h => by
    obtain ⟨mine', h'⟩ := h.step t
    exact Together.run ts h'

/-- A program that is right whenever it runs alone: on every operating system that shows the disk, as long as the same is
known of packages, and with no open files at first. -/
def Lawful (disk : Node) (tool : Str → Except Err Info) (here : Info) (told : Str → Except Err Info) (a : Acts α)
    (Q : α → (Nat → Option (Node × Nat)) → Prop) : Prop :=
  ∀ (S : Type) (O : Host S) (I : Io S) (P : Posix O I disk) (w : World S), P.tool = tool → w.here = here →
    (∀ p, P.told w p = told p) → P.ok w.host → (∀ g, P.holds w.host g = none) → Right P Q (a.exec O I w)

/-- Goroutines each of which would be right alone are right together, in every order of their steps; files that none of them
has left open are as in the beginning. -/
theorem together {P : Posix O I disk} {w : World S} (hok : P.ok w.host) {a : Nat → Acts α}
    {Q : Nat → α → (Nat → Option (Node × Nat)) → Prop} (ha : ∀ t, Lawful disk P.tool w.here (P.told w) (a t) (Q t)) (sched : List Nat) :
    let s := State.run O I ⟨w, fun t => .run (a t)⟩ sched
    s.w.here = w.here ∧ (∀ p, P.told s.w p = P.told w p) ∧ P.ok s.w.host ∧
    ∃ held : Nat → Nat → Option (Node × Nat),
      (∀ t r, s.threads t = .run (.ret r) → Q t r (held t)) ∧
      (∀ t g, held t g ≠ none → P.holds s.w.host g = held t g ∧ P.holds w.host g = none ∧ ∀ t', t' ≠ t → held t' g = none) ∧
      ∀ g, (∀ t, held t g = none) → P.holds s.w.host g = P.holds w.host g := by
  have h0 : Together P w.here (P.told w) Q w ⟨w, fun t => .run (a t)⟩ fun _ => [] := by
    refine ⟨rfl, fun _ => rfl, hok, fun t => ⟨trivial, w.infos, w.host, hok, by simp, ⟨hok, by simp⟩, fun _ => rfl, fun τ => ?_⟩,
      by simp, by simp, fun _ _ => rfl⟩
    exact ha t _ _ _ (turnPosix P) _ rfl rfl (fun _ => rfl) ⟨hok, rfl, by simp [alone]⟩ (by simp [turnPosix, Turn.holds, alone])
  obtain ⟨mine, h⟩ := Together.run sched h0
  refine ⟨h.place, h.known, h.ok, fun t g => if g ∈ mine t then P.holds (State.run O I ⟨w, fun t => .run (a t)⟩ sched).w.host g else none,
    ?_, ?_, ?_⟩
  · intro t r hr
    obtain ⟨infos, s, h1, h2, h3, h4, h5⟩ := (h.inside t).there
    have := (h5 []).2
    rw [hr] at this
    simp only [Thread.rest, Acts.exec] at this
    have hh : (turnPosix P).holds (alone w.here infos s (mine t) []).host =
        fun g => if g ∈ mine t then P.holds (State.run O I ⟨w, fun t => .run (a t)⟩ sched).w.host g else none := by
      funext g
      simp only [turnPosix, Turn.holds, alone]
      split
      · rw [h3.2 g ‹_›]
      · rfl
    rw [hh] at this
    exact this
  · intro t g hg
    by_cases hm : g ∈ mine t
    · refine ⟨by simp [hm], h.new t g hm, fun t' ht' => ?_⟩
      simpa using fun hm' => absurd hm (h.apart t' t ht' g hm')
    · simp [hm] at hg
  · intro g hg
    refine h.rest g fun t hm => ?_
    have := hg t
    simp only [hm, if_true] at this
    exact (h.inside t).held g hm this

end DiskFine
end Verif
