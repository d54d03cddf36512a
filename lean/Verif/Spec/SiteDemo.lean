import Verif.Spec.Site
import Verif.Go.Path

/-! An operating system that shows a disk, as `Site.Posix` asks: an executable instance. -/

namespace Verif
namespace Site

open Mem (Details)
open Disk (Node)
open Stdos (Host)
open DiskClient (Io)

/-- The open files: the number of the next one, and what the others refer to and where they are. -/
structure Table where
  next : Nat
  at_ : Nat → Option (Node × Nat)

/-- Another entry for one number. -/
def Table.put (t : Table) (fd : Nat) (x : Option (Node × Nat)) : Table :=
  { t with at_ := fun g => if g = fd then x else t.at_ g }

/-- No file is open. -/
def Table.empty : Table := ⟨0, fun _ => none⟩

/-- `BelowFile`, computed. -/
def belowFile (disk : Node) (es : List Str) : Bool :=
  (List.range es.length).any fun n =>
    match disk.find (es.take n) with
    | some k => !k.isDir
    | none => false

theorem belowFile_iff (disk : Node) (es : List Str) : belowFile disk es = true ↔ BelowFile disk es := by
  unfold belowFile BelowFile
  rw [List.any_eq_true]
  constructor
  · rintro ⟨n, hn, h⟩
    rw [List.mem_range] at hn
    cases hf : disk.find (es.take n) with
    | none => rw [hf] at h; cases h
    | some k =>
      rw [hf] at h
      refine ⟨es.take n, es.drop n, k, (List.take_append_drop n es).symm, ?_, hf, by simpa using h⟩
      intro h0
      have := congrArg List.length h0
      simp at this
      omega
  · rintro ⟨a, b, k, rfl, hb, hf, hd⟩
    refine ⟨a.length, ?_, ?_⟩
    · rw [List.mem_range]
      cases b with
      | nil => exact absurd rfl hb
      | cons x xs => simp
    · simp [hf, hd]

/-- The calls that look at the disk; the Go tool says `tool`. -/
def host (disk : Node) (tool : Str → Except Err Info := fun _ => .error (.other 20)) : Host Table where
  create _ t := (t, .error (.other 20))
  openFile p t :=
    match disk.find (GoPath.elems p) with
    | some k => ({ t.put t.next (some (k, 0)) with next := t.next + 1 }, .ok t.next)
    | none => (t, .error (.pathError (if belowFile disk (GoPath.elems p) then .other 20 else .notExist)))
  fstat fd t :=
    match t.at_ fd with
    | some (k, _) => (t, .ok k.details)
    | none => (t, .error (.other 20))
  readdir fd _ t :=
    match t.at_ fd with
    | some (.dir d kids, 0) => (t.put fd (some (.dir d kids, 1)), .ok (kids.map (·.2.details)).reverse)
    | some (.dir _ _, _) => (t, .ok [])
    | _ => (t, .error (.other 20))
  close fd t :=
    match t.at_ fd with
    | some _ => (t.put fd none, none)
    | none => (t, some (.other 20))
  stat p t :=
    match disk.find (GoPath.elems p) with
    | some k => (t, .ok k.details)
    | none => (t, .error .notExist)
  mkdirAll _ _ t := (t, some (.other 20))
  remove _ t := (t, some (.other 20))
  removeAll _ t := (t, some (.other 20))
  tree p t :=
    match disk.find (GoPath.elems p) with
    | some k => (t, .ok k)
    | none => (t, .error .notExist)
  package p t := (t, tool p)

/-- The calls on an open file; at most three bytes are read at a time. -/
def io : Io Table where
  read fd n t :=
    match t.at_ fd with
    | some (.file d b, p) =>
      if p < b.length then (t.put fd (some (.file d b, p + min (min n 3) (b.length - p))), (b.drop p).take (min (min n 3) (b.length - p)), none)
      else (t, [], some .eof)
    | _ => (t, [], some (.other 20))
  seek fd off _ t :=
    match t.at_ fd with
    | some (k, _) => (t.put fd (some (k, off.toNat)), off, none)
    | none => (t, 0, some (.other 20))

theorem put_here (t : Table) (fd : Nat) (x : Option (Node × Nat)) : (t.put fd x).at_ fd = x := by simp [Table.put]

theorem put_other (t : Table) {fd g : Nat} (h : g ≠ fd) (x : Option (Node × Nat)) : (t.put fd x).at_ g = t.at_ g := by
  simp [Table.put, h]

/-- It shows the disk, as assumed. -/
def posix (disk : Node) (tool : Str → Except Err Info := fun _ => .error (.other 20)) : Posix (host disk tool) io disk where
  ok t := ∀ fd, t.next ≤ fd → t.at_ fd = none
  holds t := t.at_
  tool := tool
  package := fun t _ hok => ⟨t, rfl, hok, rfl⟩
  openThere := by
    intro t es k hok hg hk
    refine ⟨{ t.put t.next (some (k, 0)) with next := t.next + 1 }, t.next, by simp only [host, GoPath.elems_mk hg, hk], ?_,
      hok _ (Nat.le_refl _), put_here _ _ _, fun g hg => put_other _ hg _⟩
    intro fd hfd
    have hfd' : t.next + 1 ≤ fd := hfd
    exact (put_other t (show fd ≠ t.next by omega) _).trans (hok fd (by omega))
  openAbsent := by
    intro t es hok hg hk
    refine ⟨t, .pathError (if belowFile disk es then .other 20 else .notExist), by simp only [host, GoPath.elems_mk hg, hk],
      hok, rfl, ?_⟩
    rw [← belowFile_iff]
    cases belowFile disk es <;> simp [Err.isNotExist]
  fstat := by
    intro t fd k p hok hk
    exact ⟨t, by simp only [host, hk], hok, rfl⟩
  readdir := by
    intro t fd d kids n hok hk hn
    refine ⟨_, _, 1, by simp only [host, hk], List.reverse_perm _, ?_, put_here _ _ _, fun g hg => put_other _ hg _⟩
    intro g hge
    have hne : g ≠ fd := by
      intro h
      have := hok g hge
      rw [h, hk] at this
      cases this
    rw [put_other _ hne]
    exact hok g hge
  read := by
    intro t fd d b p n hok hk hn hp
    refine ⟨_, min (min n 3) (b.length - p), by simp only [io, hk, if_pos hp], by omega, by omega, by omega, ?_,
      put_here _ _ _, fun g hg => put_other _ hg _⟩
    intro g hge
    have hne : g ≠ fd := by
      intro h
      have := hok g hge
      rw [h, hk] at this
      cases this
    rw [put_other _ hne]
    exact hok g hge
  readEnd := by
    intro t fd d b p n hok hk hn hp
    exact ⟨t, by simp only [io, hk, if_neg hp], hok, rfl⟩
  seek := by
    intro t fd d b p off hok hk ho
    refine ⟨_, by simp only [io, hk], ?_, put_here _ _ _, fun g hg => put_other _ hg _⟩
    intro g hge
    have hne : g ≠ fd := by
      intro h
      have := hok g hge
      rw [h, hk] at this
      cases this
    rw [put_other _ hne]
    exact hok g hge
  close := by
    intro t fd k hok hk
    refine ⟨_, by simp only [host, hk], ?_, put_here _ _ _, fun g hg => put_other _ hg _⟩
    intro g hge
    by_cases h : g = fd
    · rw [h]; exact put_here _ _ _
    · rw [put_other _ h]; exact hok g hge

end Site
end Verif
