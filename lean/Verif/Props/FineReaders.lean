import Verif.Lemmas.FineRead
import Verif.Props.Readers
import Verif.Props.Walk
import Verif.Props.Http

/-! C90: goroutines that read and are interrupted anywhere. -/

namespace Verif
namespace Props

open Mem Client Fine Http

namespace FineReaders

variable {α : Type}

open Classical in
/-- Who uses a handle that is not inert. -/
noncomputable def owner (w : World) (ps : Nat → List Nat × Client.Prog α) (id : Nat) : Option Nat :=
  if h : ∃ t, id ∈ (ps t).1 ∧ ¬ Inert (w.heap id) then some h.choose else none

open Classical in
/-- The handles of `t` that are not inert. -/
noncomputable def mine (w : World) (ps : Nat → List Nat × Client.Prog α) (t : Nat) : List Nat :=
  (ps t).1.filter fun id => decide (¬ Inert (w.heap id))

/-- What was there from the beginning and is in nobody's hands, or inert. -/
def Froz (w : World) (ps : Nat → List Nat × Client.Prog α) (id : Nat) : Prop := id < w.next ∧ owner w ps id = none

/-- The goroutines with their programs, as accesses. -/
def progs (ps : Nat → List Nat × Client.Prog α) : Nat → List Nat × Fine.Prog α := fun t => ((ps t).1, ofReads (ps t).2)

/-- The beginning, with who uses what. -/
noncomputable def owned (E : Env) (w : World) (ps : Nat → List Nat × Client.Prog α) : Sys α :=
  ⟨⟨w, w.files, [], owner w ps⟩, (start E w (progs ps)).code⟩

theorem safe (E : Env) {i : Info} {w : World} (hr : Reached E i w) (hnm : ∀ q, Stored w q → q.name ≠ [])
    {ps : Nat → List Nat × Client.Prog α} (hread : ∀ t, ∀ a ∈ (ps t).1, Readable w a)
    (hsep : ∀ t u, t ≠ u → ∀ a ∈ (ps t).1, a ∈ (ps u).1 → Inert (w.heap a)) :
    SysSafe ReadRely (fun t => Any (ReadGuar t)) (fun t r _ => r = ((ps t).2.exec E w (ps t).1).2.2)
      (owned E w ps) := by
  have hwf := hr.inv.wf
  constructor
  intro t
  have hmine : ∀ a ∈ mine w ps t, a ∈ (ps t).1 ∧ ¬ Inert (w.heap a) := by
    intro a ha
    have := List.mem_filter.mp ha
    exact ⟨this.1, by simpa using this.2⟩
  have hown : ∀ a ∈ mine w ps t, owner w ps a = some t := by
    intro a ha
    obtain ⟨h1, h2⟩ := hmine a ha
    have he : ∃ u, a ∈ (ps u).1 ∧ ¬ Inert (w.heap a) := ⟨t, h1, h2⟩
    unfold owner
    rw [dif_pos he]
    obtain ⟨h3, h4⟩ := he.choose_spec
    congr 1
    apply Classical.byContradiction
    intro hne
    exact h2 (hsep _ _ hne a h3 h1)
  have hv : View (Froz w ps) w (mine w ps t) (ps t).1 := by
    refine ⟨fun a ha => (hread t a (hmine a ha).1).lt, fun a ha => ha.1, ?_, ?_, ?_, ?_⟩
    · intro a ha hf
      have := hf.2
      rw [hown a ha] at this
      cases this
    · intro q id hq
      refine ⟨(hwf.bound q id hq).1, ?_⟩
      unfold owner
      rw [dif_neg]
      rintro ⟨u, h1, h2⟩
      rcases (hread u id h1).free with h3 | h3
      · exact h3 q hq
      · exact h2 h3
    · intro a ha
      exact (hread t a (hmine a ha).1).writer
    · intro a ha
      by_cases hi : Inert (w.heap a)
      · refine Or.inr ⟨⟨(hread t a ha).lt, ?_⟩, hi⟩
        unfold owner
        rw [dif_neg]
        rintro ⟨u, _, h2⟩
        exact h2 hi
      · exact Or.inl (List.mem_filter.mpr ⟨ha, by simpa using hi⟩)
  refine ⟨Agree t (Froz w ps) w (mine w ps t), Agree.stable hv.lt hv.fz, ?_, ?_⟩
  · exact ⟨rfl, rfl, Nat.le_refl _, fun a ha => ⟨hown a ha, rfl⟩, fun a ha => ⟨ha.2, rfl⟩⟩
  · exact safe_prog E (ps t).2 hv hwf.nodup (fun pkg q hq _ => hnm q hq) (Sim.refl hwf (hread t))

theorem start_same (E : Env) (w : World) (ps : Nat → List Nat × Client.Prog α) (es : List Event) :
    SameBut (Sys.run (owned E w ps) es).g ((start E w (progs ps)).run es).g ∧
      ((start E w (progs ps)).run es).code = (Sys.run (owned E w ps) es).code :=
  SameBut.run es ⟨rfl, rfl, rfl⟩ rfl

end FineReaders

open FineReaders

/-- **C90** (the results).  Let any number of goroutines read from a Pkger at once, each through handles of its own or shared
handles that are inert, interrupted between any two accesses to memory.  A goroutine that has ended has the result it
would have had alone. -/
theorem C90_readers {α : Type} (E : Env) {i : Info} {w : World} (hr : Reached E i w)
    (hnm : ∀ q, Stored w q → q.name ≠ []) (ps : Nat → List Nat × Client.Prog α)
    (hread : ∀ t, ∀ a ∈ (ps t).1, Readable w a)
    (hsep : ∀ t u, t ≠ u → ∀ a ∈ (ps t).1, a ∈ (ps u).1 → Inert (w.heap a)) (es : List Event) (t : Nat) (r : α)
    (hret : ((start E w (progs ps)).run es).code t = .ret r) : r = ((ps t).2.exec E w (ps t).1).2.2 := by
  rw [(start_same E w ps es).2] at hret
  exact (SysSafe.run (R := ReadRely) (G := fun t => Any (ReadGuar t)) (fun t u h _ _ g g' hg => ReadGuar.rely h hg) (fun t g g' h => ReadRely.ticks h) es
    (safe E hr hnm hread hsep)).ended hret

/-- **C90** (each can end).  Whatever has happened, a goroutine that goes on uninterrupted can end, whatever `Range` visits
first. -/
theorem C90_ends {α : Type} (E : Env) {i : Info} {w : World} (hr : Reached E i w)
    (hnm : ∀ q, Stored w q → q.name ≠ []) (ps : Nat → List Nat × Client.Prog α)
    (hread : ∀ t, ∀ a ∈ (ps t).1, Readable w a)
    (hsep : ∀ t u, t ≠ u → ∀ a ∈ (ps t).1, a ∈ (ps u).1 → Inert (w.heap a)) (es : List Event) (t : Nat) :
    ∃ picks : List (Option Path), ((start E w (progs ps)).run (es ++ picks.map (Event.go t))).code t =
      .ret ((ps t).2.exec E w (ps t).1).2.2 := by
  obtain ⟨picks, g', a, h⟩ := finishes t (((start E w (progs ps)).run es).code t) ((start E w (progs ps)).run es).g
  have key : ∀ (picks : List (Option Path)) (s : Sys α), ((s.run (picks.map (Event.go t))).g,
      (s.run (picks.map (Event.go t))).code t) = runAlone t picks (s.g, s.code t) := by
    intro picks
    induction picks with
    | nil => intro s; rfl
    | cons p picks ih =>
      intro s
      have := ih (s.step (.go t p))
      simp only [List.map_cons, Sys.run, List.foldl_cons, runAlone] at this ⊢
      rw [this]
      simp only [Sys.step, if_true]
  have h1 : ((start E w (progs ps)).run (es ++ picks.map (Event.go t))).code t = .ret a := by
    have e : (start E w (progs ps)).run (es ++ picks.map (Event.go t)) =
        ((start E w (progs ps)).run es).run (picks.map (Event.go t)) := List.foldl_append
    rw [e]
    have := key picks ((start E w (progs ps)).run es)
    rw [h] at this
    injection this
  refine ⟨picks, ?_⟩
  rw [h1, C90_readers E hr hnm ps hread hsep _ t a h1]

/-- **C90** (nothing is changed).  At any moment `Stat` and `Open` find what they found at the beginning. -/
theorem C90_unchanged {α : Type} (E : Env) {i : Info} {w : World} (hr : Reached E i w)
    (hnm : ∀ q, Stored w q → q.name ≠ []) (ps : Nat → List Nat × Client.Prog α)
    (hread : ∀ t, ∀ a ∈ (ps t).1, Readable w a)
    (hsep : ∀ t u, t ≠ u → ∀ a ∈ (ps t).1, a ∈ (ps u).1 → Inert (w.heap a)) (es : List Event) :
    SameView E w ((start E w (progs ps)).run es).g.w ∧
      ∀ q, Stored ((start E w (progs ps)).run es).g.w q ↔ Stored w q := by
  have hv := SysSafe.keeps (R := ReadRely) (G := fun t => Any (ReadGuar t)) (s := owned E w ps) (I := fun g => g.w.here = w.here ∧ g.w.files = w.files ∧ w.next ≤ g.w.next ∧
      ∀ q id, AMap.get w.files q = some id → g.owner id = none ∧ g.w.heap id = w.heap id)
    (fun t u h _ _ g g' hg => ReadGuar.rely h hg) (fun t g g' h => ReadRely.ticks h) (by
      rintro t _ _ g g' ⟨h1, h2, h3, h4⟩ hg
      refine ⟨hg.here.trans h1, hg.files.trans h2, Nat.le_trans h3 hg.next, fun q id hq => ?_⟩
      obtain ⟨h5, h6⟩ := h4 q id hq
      have hlt := Nat.lt_of_lt_of_le (hr.inv.wf.bound q id hq).1 h3
      exact ⟨(hg.owner id hlt).trans h5, (hg.heap id hlt (by rw [h5]; simp)).trans h6⟩) (by
      rintro g g' h ⟨now, rfl⟩
      exact h) es (safe E hr hnm hread hsep) ⟨rfl, rfl, Nat.le_refl _, fun q id hq => ⟨by
        have := hr.inv.wf
        show owner w ps id = none
        unfold owner
        rw [dif_neg]
        rintro ⟨u, h1, h2⟩
        rcases (hread u id h1).free with h3 | h3
        · exact h3 q hq
        · exact h2 h3, rfl⟩⟩
  rw [(start_same E w ps es).1.w]
  obtain ⟨h1, h2, _, h4⟩ := hv
  constructor
  · intro name
    refine sameAt_of_lookup h1 fun q _ => ?_
    unfold lookup
    rw [h2]
    cases hg : AMap.get w.files q with
    | none => rfl
    | some id => simp only [Option.map_some, (h4 q id hg).2]
  · intro q
    unfold Stored
    rw [h2]

/-! ### A call that is not interrupted -/

/-- What a call does as a whole, in terms of the methods. -/
def whole (E : Env) (w : World) (hs : List Nat) : Fine.Call → World × List Nat × Fine.Ans
  | .reads c => ((call E w hs c).1, (call E w hs c).2.1, .reads (call E w hs c).2.2)
  | .create name =>
    ((obtained hs (Mem.create E w name)).1, (obtained hs (Mem.create E w name)).2.1,
      .reads (obtained hs (Mem.create E w name)).2.2)
  | .write k b =>
    match hs[k]? with
    | none => (w, hs, .reads .noHandle)
    | some id => ((Mem.write w id b).1, hs, .wrote (Mem.write w id b).2)
  | .mkdirAll p perm => ((Mem.mkdirAll E w p perm).1, hs, .did (Mem.mkdirAll E w p perm).2)
  | .remove name => ((Mem.remove E w name).1, hs, .did (Mem.remove E w name).2)
  | .removeAll name => ((Mem.removeAll E w name).1, hs, .did (Mem.removeAll E w name).2)

theorem alone_obtained {E : Env} {t : Nat} {g : Glob} {hs : List Nat} {c : Code (Res Nat)} {x : World × Res Nat}
    (h : Alone t c g fun r g' => (g'.w, r) = x) :
    Alone t (obtainedC hs c) g fun r g' => (g'.w, r) = obtained hs x := by
  refine h.bind fun r g' hr => ?_
  rw [← hr]
  cases r <;> exact Alone.ret rfl

theorem alone_reads (E : Env) {t : Nat} {g : Glob} (hn : AMap.Nodup g.w.files) (hnm : ∀ q, Stored g.w q → q.name ≠ [])
    (hs : List Nat) (c : Client.Call) :
    Alone t (readsC E g.w.here hs c) g fun r g' => (g'.w, r) = call E g.w hs c := by
  have hnm' : ∀ pkg, Named g.w pkg := fun pkg q hq _ => hnm q hq
  cases c with
  | openFile name => exact alone_obtained (E := E) (alone_open E g name)
  | openIn k name =>
    simp only [readsC, withHandleC, call, withHandle]
    cases hk : hs[k]? with
    | none => exact Alone.ret rfl
    | some id => exact alone_obtained (E := E) (alone_fileOpen E g id name)
  | stat name =>
    refine (alone_stat E g name).bind ?_
    rintro r g' ⟨rfl, rfl⟩
    exact Alone.ret rfl
  | fileStat k =>
    simp only [readsC, withHandleC, call, withHandle]
    cases hk : hs[k]? with
    | none => exact Alone.ret rfl
    | some id =>
      refine (alone_fileStat g id).bind ?_
      rintro r g' ⟨rfl, rfl⟩
      exact Alone.ret rfl
  | readdir k count =>
    simp only [readsC, withHandleC, call, withHandle]
    cases hk : hs[k]? with
    | none => exact Alone.ret rfl
    | some id =>
      refine (alone_readdir E g id count hn hnm').bind ?_
      rintro r g' ⟨rfl, rfl⟩
      exact Alone.ret rfl
  | read k n =>
    simp only [readsC, withHandleC, call, withHandle]
    cases hk : hs[k]? with
    | none => exact Alone.ret rfl
    | some id =>
      refine (alone_read g id n).bind ?_
      rintro r g' h
      simp only [Prod.ext_iff] at h
      simp only [h.1.symm, h.2.symm]
      exact Alone.ret rfl
  | seek k off whence =>
    simp only [readsC, withHandleC, call, withHandle]
    cases hk : hs[k]? with
    | none => exact Alone.ret rfl
    | some id =>
      refine (alone_seek g id off whence).bind ?_
      rintro r g' h
      simp only [Prod.ext_iff] at h
      simp only [h.1.symm, h.2.symm]
      exact Alone.ret rfl
  | close k =>
    simp only [readsC, withHandleC, call, withHandle]
    cases hk : hs[k]? with
    | none => exact Alone.ret rfl
    | some id =>
      refine (alone_close g id).bind ?_
      rintro r g' h
      simp only [← h]
      exact Alone.ret rfl
  | walk p =>
    refine (alone_walk E _ _ g p hn hnm').bind ?_
    rintro r g' ⟨rfl, rfl⟩
    exact Alone.ret rfl
  | fileName k =>
    simp only [readsC, withHandleC, call, withHandle]
    cases hk : hs[k]? with
    | none => exact Alone.ret rfl
    | some id =>
      refine (alone_fileName g id).bind ?_
      rintro r g' ⟨rfl, rfl⟩
      exact Alone.ret rfl

/-- **C90** (the accesses make up the calls).  A call that nobody interrupts does what the method as a whole does, in whatever
order `Range` visits the keys. -/
theorem C90_uninterrupted (E : Env) (t : Nat) {g : Glob} (hn : AMap.Nodup g.w.files)
    (hnm : ∀ q, Stored g.w q → q.name ≠ []) (hs : List Nat) (c : Fine.Call) (picks : List (Option Path)) (g' : Glob)
    (hs' : List Nat) (a : Fine.Ans) (h : runAlone t picks (g, callC E g.w.here hs c) = (g', .ret (hs', a))) :
    (g'.w, hs', a) = whole E g.w hs c := by
  refine Alone.result (Q := fun x g' => (g'.w, x) = whole E g.w hs c) ?_ picks h
  cases c with
  | reads c =>
    refine (alone_reads E hn hnm hs c).bind ?_
    intro r g' h
    simp only [whole, ← h]
    exact Alone.ret rfl
  | create name =>
    refine (alone_obtained (E := E) (alone_create E g name)).bind ?_
    intro r g' h
    simp only [whole, ← h]
    exact Alone.ret rfl
  | write k b =>
    simp only [callC, whole]
    cases hk : hs[k]? with
    | none => exact Alone.ret rfl
    | some id =>
      refine (alone_write g id b).bind ?_
      intro r g' h
      simp only [← h]
      exact Alone.ret rfl
  | mkdirAll p perm =>
    refine (alone_mkdirAllF E _ g p perm).bind ?_
    intro r g' h
    simp only [whole, Mem.mkdirAll, ← h]
    exact Alone.ret rfl
  | remove name =>
    refine (alone_remove E g name).bind ?_
    intro r g' h
    simp only [whole, ← h]
    exact Alone.ret rfl
  | removeAll name =>
    refine (alone_removeAll E g name).bind ?_
    intro r g' h
    simp only [whole, ← h]
    exact Alone.ret rfl

/-! ### Serving files -/

/-- **C90** (`pkger.Dir`).  Any number of requests at once, interrupted anywhere: each answer is the one the request would have
got alone, nothing is changed, and each request can be answered at any time. -/
theorem C90_dir (E : Env) {i : Info} {w : World} (hr : Reached E i w) (hnm : ∀ q, Stored w q → q.name ≠ []) (S : Server)
    (d : Str) (rq : Nat → Request) (es : List Event) :
    (∀ t resp, ((start E w (progs fun t => ([], serve S (.dir d) (rq t)))).run es).code t = .ret resp →
      resp = ((serve S (.dir d) (rq t)).exec E w []).2.2) ∧
    (∀ t, ∃ picks : List (Option Path), ∃ resp,
      ((start E w (progs fun t => ([], serve S (.dir d) (rq t)))).run (es ++ picks.map (Event.go t))).code t = .ret resp) ∧
    SameView E w ((start E w (progs fun t => ([], serve S (.dir d) (rq t)))).run es).g.w := by
  refine ⟨fun t resp h => C90_readers E hr hnm _ (by simp) (by simp) es t resp h, fun t => ?_,
    (C90_unchanged E hr hnm _ (by simp) (by simp) es).1⟩
  obtain ⟨picks, h⟩ := C90_ends E hr hnm (fun t => ([], serve S (.dir d) (rq t))) (by simp) (by simp) es t
  exact ⟨picks, _, h⟩

/-- **C90** (a served handle).  The same for a handle that is inert, as those of directories are. -/
theorem C90_handle (E : Env) {i : Info} {w : World} {id : Nat} (hid : Held E i w id) (hnm : ∀ q, Stored w q → q.name ≠ [])
    (hrd : Readable w id) (hin : Inert (w.heap id)) (S : Server) (rq : Nat → Request) (es : List Event) :
    (∀ t resp, ((start E w (progs fun t => ([id], serve S .handle (rq t)))).run es).code t = .ret resp →
      resp = ((serve S .handle (rq t)).exec E w [id]).2.2) ∧
    (∀ t, ∃ picks : List (Option Path), ∃ resp,
      ((start E w (progs fun t => ([id], serve S .handle (rq t)))).run (es ++ picks.map (Event.go t))).code t = .ret resp) ∧
    SameView E w ((start E w (progs fun t => ([id], serve S .handle (rq t)))).run es).g.w := by
  have h1 : ∀ t : Nat, ∀ a ∈ ((fun t => ([id], serve S .handle (rq t)) : Nat → List Nat × Client.Prog Resp) t).1,
      Readable w a := by
    intro t a ha; simp at ha; subst ha; exact hrd
  have h2 : ∀ t u : Nat, t ≠ u → ∀ a ∈ ((fun t => ([id], serve S .handle (rq t)) : Nat → List Nat × Client.Prog Resp) t).1,
      a ∈ ((fun t => ([id], serve S .handle (rq t)) : Nat → List Nat × Client.Prog Resp) u).1 → Inert (w.heap a) := by
    intro t u _ a ha _; simp at ha; subst ha; exact hin
  refine ⟨fun t resp h => C90_readers E hid.reached hnm _ h1 h2 es t resp h, fun t => ?_,
    (C90_unchanged E hid.reached hnm _ h1 h2 es).1⟩
  obtain ⟨picks, h⟩ := C90_ends E hid.reached hnm (fun t => ([id], serve S .handle (rq t))) h1 h2 es t
  exact ⟨picks, _, h⟩

/-! ### A case -/

/-- Two goroutines walk `/pub` and fetch the file through the same handle of `/pub`; a third reads through a handle of its own. -/
def fineProgs : Nat → List Nat × Client.Prog (List Client.Ans) := fun t =>
  if t < 2 then ([3], .step (.walk (b! "/pub")) fun x => .step (.openIn 0 (b! "/f")) fun _ => .step (.read 1 3) fun b => .ret [x, b])
  else if t = 2 then ([4], .step (.read 0 2) fun b => .ret [b])
  else ([], .ret [])

theorem rdOps_named : ∀ q, Stored (Demo.after rdOps) q → q.name ≠ [] := by
  intro q hq
  have : ∀ q ∈ AMap.keys (Demo.after rdOps).files, q.name ≠ [] := by decide +kernel
  refine this q ?_
  obtain ⟨id, hid⟩ := hq
  exact (AMap.mem_keys_iff _ _).mpr ⟨id, hid⟩

/-- They satisfy the hypotheses of `C90_readers`. -/
example :
    (∀ t, ∀ a ∈ (fineProgs t).1, Readable (Demo.after rdOps) a) ∧
    (∀ t u, t ≠ u → ∀ a ∈ (fineProgs t).1, a ∈ (fineProgs u).1 → Inert ((Demo.after rdOps).heap a)) := by
  have r3 : Readable (Demo.after rdOps) 3 :=
    readable_of_unstored (by decide +kernel) (by decide +kernel) (by decide +kernel)
  have r4 : Readable (Demo.after rdOps) 4 :=
    readable_of_unstored (by decide +kernel) (by decide +kernel) (by decide +kernel)
  have i3 : Inert ((Demo.after rdOps).heap 3) := ⟨by decide +kernel, by decide +kernel, by decide +kernel⟩
  constructor
  · intro t a ha
    unfold fineProgs at ha
    split at ha
    · simp at ha; subst ha; exact r3
    · split at ha
      · simp at ha; subst ha; exact r4
      · simp at ha
  · intro t u htu a h1 h2
    unfold fineProgs at h1 h2
    split at h1
    · simp at h1; subst h1; exact i3
    · split at h1
      · simp at h1
        subst h1
        split at h2
        · simp at h2
        · split at h2
          · omega
          · simp at h2
      · simp at h1

/-- Taking turns, each access by access, `Range` visiting the keys in one order for the first and in the other order for the
second: both end with what they would have found alone. -/
example :
    (let m : Str := (Demo.info).module.path
     let s := (start Demo.env (Demo.after rdOps) (progs fineProgs)).run
       ((List.range 3).flatMap (fun _ => [Event.go 0 (some ⟨m, b! "/pub"⟩), .go 1 (some ⟨m, b! "/pub/f"⟩), .tick 7]) ++
        (List.range 3).flatMap (fun _ => [Event.go 0 (some ⟨m, b! "/pub/f"⟩), .go 1 (some ⟨m, b! "/pub"⟩)]) ++
        (List.range 3).flatMap (fun _ => [Event.go 0 (some ⟨m, b! "/"⟩), .go 1 (some ⟨m, b! "/"⟩)]) ++
        (List.range 40).flatMap (fun _ => [Event.go 0 none, .go 2 none, .go 1 none]))
     match s.code 0, s.code 1, s.code 2 with
     | .ret x, .ret y, .ret z => (x.length, decide (x = y), z)
     | _, _, _ => (0, false, [])) = (2, true, [.bytes (b! "he") none]) := by decide +kernel

end Props
end Verif
