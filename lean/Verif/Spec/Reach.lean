import Verif.Lemmas.Handle
import Verif.Spec.Tree

/-! Reachable states, and the shape of stored names. -/

namespace Verif
namespace Mem

/-- A file object nobody reads from or writes to; the size of a regular file is the number of its bytes. -/
structure Idle (f : FileObj) : Prop where
  size : ∀ d, f.info = some d → d.isDir = false → d.size = (f.bytes.length : Int)
  reader : f.reader = none
  writer : f.writer = none

/-- A Pkger for `i` as a program gets it, before it is used: made by `New` (`Start.new`), or read from an embedded blob
(`C70_loaded_partial`).  It knows `i` and no other package; each path leads to an idle file object of this path with
details. -/
structure Start (i : Info) (w : World) : Prop where
  here : w.here = i
  infos : ∀ p, AMap.get w.infos p = if p = i.importPath then some i else none
  infosNodup : AMap.Nodup w.infos
  filesNodup : AMap.Nodup w.files
  files : ∀ q id, AMap.get w.files q = some id →
    id < w.next ∧ (w.heap id).path = q ∧ ∃ d, (w.heap id).info = some d
  idle : ∀ id, Idle (w.heap id)

theorem Start.new (i : Info) (t : Int) : Start i (Mem.new i t) where
  here := rfl
  infos := by
    intro p
    simp only [Mem.new, AMap.set, AMap.erase, List.filter_nil, AMap.get_cons, AMap.get_nil]
    by_cases h : p = i.importPath
    · simp [h]
    · rw [if_neg h, if_neg (fun h' => h h'.symm)]
  infosNodup := by simp [Mem.new, AMap.set, AMap.erase, AMap.Nodup, AMap.keys]
  filesNodup := by simp [Mem.new, AMap.Nodup, AMap.keys]
  files := by intro q id h; simp [Mem.new] at h
  idle := fun _ => ⟨by intro d h; simp [Mem.new, FileObj.zero] at h, rfl, rfl⟩

theorem Start.inv {i : Info} {w : World} (h : Start i w) : Inv w where
  heap := fun id => ⟨(h.idle id).size, by intro s j hs; rw [(h.idle id).reader] at hs; cases hs⟩
  wf := ⟨h.filesNodup, h.files⟩

/-- `w` is the state of a Pkger for `i` after some history of API calls. -/
def Reached (E : Env) (i : Info) (w : World) : Prop :=
  ∃ (w0 : World) (ops : List Op), Start i w0 ∧ (∀ o ∈ ops, o.HostOk) ∧ w = run E w0 ops

/-- `w` is the state of a Pkger for `i` after some history of API calls, and `id` is a file object made in the course
of it, as all handles are that the Pkger gives out. -/
def Held (E : Env) (i : Info) (w : World) (id : Nat) : Prop :=
  ∃ (w0 : World) (ops : List Op), Start i w0 ∧ (∀ o ∈ ops, o.HostOk) ∧ w = run E w0 ops ∧ w0.next ≤ id ∧ id < w.next

theorem Held.reached {E : Env} {i : Info} {w : World} {id : Nat} (h : Held E i w id) : Reached E i w := by
  obtain ⟨w0, ops, h1, h2, h3, _⟩ := h
  exact ⟨w0, ops, h1, h2, h3⟩

theorem Held.lt {E : Env} {i : Info} {w : World} {id : Nat} (h : Held E i w id) : id < w.next := by
  obtain ⟨w0, ops, _, _, _, _, h⟩ := h
  exact h

theorem Reached.ofNew {E : Env} {i : Info} (t : Int) (ops : List Op) (h : ∀ o ∈ ops, o.HostOk) :
    Reached E i (run E (new i t) ops) := ⟨_, ops, Start.new i t, h, rfl⟩

theorem Held.ofNew {E : Env} {i : Info} (t : Int) (ops : List Op) (h : ∀ o ∈ ops, o.HostOk) {id : Nat}
    (hid : id < (run E (new i t) ops).next) : Held E i (run E (new i t) ops) id :=
  ⟨_, ops, Start.new i t, h, rfl, Nat.zero_le _, hid⟩

theorem Reached.inv {E : Env} {i : Info} {w : World} (h : Reached E i w) : Inv w := by
  obtain ⟨w0, ops, h0, h1, rfl⟩ := h
  exact inv_run E h0.inv ops h1

theorem Reached.here {E : Env} {i : Info} {w : World} (h : Reached E i w) : w.here = i := by
  obtain ⟨w0, ops, h0, h1, rfl⟩ := h
  rw [(here_run E h0.inv.heap ops h1).1, h0.here]

/-- The packages a Pkger knows never change. -/
theorem Reached.infos {E : Env} {i : Info} {w : World} (h : Reached E i w) :
    AMap.Nodup w.infos ∧ ∀ p, AMap.get w.infos p = if p = i.importPath then some i else none := by
  obtain ⟨w0, ops, h0, h1, rfl⟩ := h
  rw [(here_run E h0.inv.heap ops h1).2]
  exact ⟨h0.infosNodup, h0.infos⟩

theorem Reached.run {E : Env} {i : Info} {w : World} (h : Reached E i w) (ops : List Op) (ho : ∀ o ∈ ops, o.HostOk) :
    Reached E i (Mem.run E w ops) := by
  obtain ⟨w0, ops0, h0, h1, rfl⟩ := h
  refine ⟨w0, ops0 ++ ops, h0, ?_, by rw [run_append]⟩
  intro x hx
  rcases List.mem_append.mp hx with hx | hx
  · exact h1 x hx
  · exact ho x hx

theorem Reached.step {E : Env} {i : Info} {w : World} (h : Reached E i w) {o : Op} (ho : o.HostOk) :
    Reached E i (step E w o) := h.run [o] (by simpa using ho)

/-- Results of a single call are handles. -/
theorem Reached.held {E : Env} {i : Info} {w : World} (h : Reached E i w) {o : Op} (ho : o.HostOk) {id : Nat}
    (h1 : w.next ≤ id) (h2 : id < (Mem.step E w o).next) : Held E i (Mem.step E w o) id := by
  obtain ⟨w0, ops0, h0, h3, rfl⟩ := h
  refine ⟨w0, ops0 ++ [o], h0, ?_, by rw [run_append]; rfl, Nat.le_trans (next_run E h0.inv.heap ops0 h3) h1, h2⟩
  intro x hx
  rcases List.mem_append.mp hx with hx | hx
  · exact h3 x hx
  · simp at hx; subst hx; exact ho

/-- Handles stay handles. -/
theorem Held.run {E : Env} {i : Info} {w : World} {id : Nat} (h : Held E i w id) (ops : List Op)
    (ho : ∀ o ∈ ops, o.HostOk) : Held E i (Mem.run E w ops) id := by
  obtain ⟨w0, ops0, h0, h1, rfl, h2, h3⟩ := h
  refine ⟨w0, ops0 ++ ops, h0, ?_, by rw [run_append], h2,
    Nat.lt_of_lt_of_le h3 (next_run E (inv_run E h0.inv ops0 h1).heap ops ho)⟩
  intro x hx
  rcases List.mem_append.mp hx with hx | hx
  · exact h1 x hx
  · exact ho x hx

/-- Handles the Pkger has given out know their Pkger, however they came about. -/
theorem Held.pkging {E : Env} {i : Info} {w : World} {id : Nat} (h : Held E i w id) : (w.heap id).pkging = true := by
  obtain ⟨w0, ops, h0, h1, rfl, hb, hid⟩ := h
  have key : ∀ (ops : List Op) (w : World), HeapOk w → (∀ o ∈ ops, o.HostOk) →
      (∀ id, w0.next ≤ id → id < w.next → (w.heap id).pkging = true) →
      ∀ id, w0.next ≤ id → id < (Mem.run E w ops).next → ((Mem.run E w ops).heap id).pkging = true := by
    intro ops
    induction ops with
    | nil => intro w _ _ h; exact h
    | cons o ops ih =>
      intro w hw ho h
      rw [run_cons]
      refine ih _ (heapOk_step E hw o (ho o (by simp))) (fun o' h' => ho o' (List.mem_cons_of_mem _ h')) ?_
      have hs := stepShape E hw o (ho o (by simp))
      revert hs
      generalize Mem.step E w o = w'
      intro hs
      cases hs with
      | prims _ hp =>
        refine Prims.induct (P := fun w => ∀ id, w0.next ≤ id → id < w.next → (w.heap id).pkging = true) ?_ hp h
        intro a b hab ha id hb hid
        cases hab with
        | bind f hf =>
          by_cases hj : id = a.next
          · subst hj; simpa [store, Mem.alloc] using hf.pkging
          · simp only [store, Mem.alloc] at hid ⊢
            rw [upd_ne _ _ hj]
            exact ha id hb (by omega)
        | alloc f hf =>
          by_cases hj : id = a.next
          · subst hj; simpa [Mem.alloc] using hf.pkging
          · simp only [Mem.alloc] at hid ⊢
            rw [upd_ne _ _ hj]
            exact ha id hb (by omega)
        | drop p => exact ha id hb hid
      | obj j f hf =>
        intro id hb hid
        simp only [setObj] at hid ⊢
        by_cases hj : id = j
        · subst hj
          rw [upd_self]
          have := h id hb hid
          cases hf with
          | read n => rw [(readObj_fields _ n).2.2.2.2.2.1]; exact this
          | seek off wh => rw [(seekObj_fields _ off wh).2.2.2.2.2.1]; exact this
          | write b => exact this
          | close => unfold closeObj; split <;> exact this
        · rw [upd_ne _ _ hj]; exact h id hb hid
      | tick t => exact h
  exact key ops w0 h0.inv.heap h1 (by intro id hb hid; omega) id hb hid

/-- All stored names of package `pkg` are rooted and clean. -/
def CleanNames (w : World) (pkg : Str) : Prop :=
  ∀ q, Stored w q → q.pkg = pkg → ∃ cs, GoPath.Good cs ∧ q.name = GoPath.mk cs

/-- The name is the root or starts with `/`. -/
theorem CleanNames.of_keys {w : World} {pkg : Str}
    (h : ∀ q ∈ AMap.keys w.files, GoPath.Good (GoPath.rootedElems q.name) ∧
      q.name = GoPath.mk (GoPath.rootedElems q.name)) : CleanNames w pkg := by
  intro q hq _
  exact ⟨_, h q ((AMap.mem_keys_iff _ _).mpr hq)⟩

end Mem
end Verif
