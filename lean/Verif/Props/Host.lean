import Verif.Props.Stdos

/-! C80: the disk Pkger's operations are the operating system's. -/

namespace Verif
namespace Props

open Stdos
open Mem (Details)

variable {S : Type}

/-- **C80** (`Remove`, `RemoveAll`, `Stat`). For every ordinary name and whatever the host does, the operation is the
operating system's operation of the same name at the package's directory followed by the cleaned name: it leaves behind
what that leaves behind, and answers what that answers. -/
theorem C80_calls (E : Env) (O : Host S) (w : World S) (name : Str) (hl : ParseLaws E w.here) (ho : Ordinary w.here name)
    {w1 : World S} {her : Info} {ds : List Str} (hi : info O w w.here.module.path = (w1, .ok her)) (hg : GoPath.Good ds)
    (hd : her.dir = GoPath.mk ds) :
    remove E O w name = ({ w1 with host := (O.remove (GoPath.mk (ds ++ GoPath.rootedElems name)) w1.host).1 },
      (O.remove (GoPath.mk (ds ++ GoPath.rootedElems name)) w1.host).2) ∧
    removeAll E O w name = ({ w1 with host := (O.removeAll (GoPath.mk (ds ++ GoPath.rootedElems name)) w1.host).1 },
      (O.removeAll (GoPath.mk (ds ++ GoPath.rootedElems name)) w1.host).2) ∧
    stat E O w name = ({ w1 with host := (O.stat (GoPath.mk (ds ++ GoPath.rootedElems name)) w1.host).1 },
      (O.stat (GoPath.mk (ds ++ GoPath.rootedElems name)) w1.host).2) := by
  have hloc := locate_of (E := E) (ho.parse hl) hi
  have hj : GoPath.join2 her.dir (GoPath.mk (GoPath.rootedElems name)) = GoPath.mk (ds ++ GoPath.rootedElems name) := by
    rw [hd]; exact GoPath.join2_mk hg (GoPath.good_rootedElems name)
  refine ⟨?_, ?_, ?_⟩
  · simp only [remove, hloc, hj]
  · simp only [removeAll, hloc, hj]
  · simp only [stat, hloc, hj]
    generalize O.stat (GoPath.mk (ds ++ GoPath.rootedElems name)) w1.host = m
    obtain ⟨h, r⟩ := m
    cases r <;> rfl

/-- **C80** (`Open`, `Create`). The operating system's file is opened or created at that place; the handle is this very
file, carries the details the operating system reports of it, and the path the name stands for. -/
theorem C80_files (E : Env) (O : Host S) (w : World S) (name : Str) (hl : ParseLaws E w.here) (ho : Ordinary w.here name)
    {w1 : World S} {her : Info} {ds : List Str} (hi : info O w w.here.module.path = (w1, .ok her)) (hg : GoPath.Good ds)
    (hd : her.dir = GoPath.mk ds) :
    (∀ h e, O.openFile (GoPath.mk (ds ++ GoPath.rootedElems name)) w1.host = (h, .error e) →
      openFile E O w name = ({ w1 with host := h }, .error e)) ∧
    (∀ h fd h' d, O.openFile (GoPath.mk (ds ++ GoPath.rootedElems name)) w1.host = (h, .ok fd) → O.fstat fd h = (h', .ok d) →
      openFile E O w name = ({ w1 with host := h' },
        .ok ⟨fd, some d, her, ⟨w.here.module.path, GoPath.mk (GoPath.rootedElems name)⟩⟩)) ∧
    (∀ h e, O.create (GoPath.mk (ds ++ GoPath.rootedElems name)) w1.host = (h, .error e) →
      create E O w name = ({ w1 with host := h }, .error e)) ∧
    (∀ h fd h' d, O.create (GoPath.mk (ds ++ GoPath.rootedElems name)) w1.host = (h, .ok fd) → O.fstat fd h = (h', .ok d) →
      create E O w name = ({ w1 with host := h' },
        .ok ⟨fd, some d, her, ⟨w.here.module.path, GoPath.mk (GoPath.rootedElems name)⟩⟩)) := by
  have hloc := locate_of (E := E) (ho.parse hl) hi
  have hj : GoPath.join2 her.dir (GoPath.mk (GoPath.rootedElems name)) = GoPath.mk (ds ++ GoPath.rootedElems name) := by
    rw [hd]; exact GoPath.join2_mk hg (GoPath.good_rootedElems name)
  refine ⟨?_, ?_, ?_, ?_⟩
  · intro h e h1; simp only [openFile, hloc, hj, h1]
  · intro h fd h' d h1 h2; simp only [openFile, hloc, hj, h1, wrapFile, h2]; rfl
  · intro h e h1; simp only [create, hloc, hj, h1]
  · intro h fd h' d h1 h2; simp only [create, hloc, hj, h1, wrapFile, h2]; rfl

/-- **C80** (`MkdirAll`, for clean names; missing: other names, for which it goes astray, see `C48_mkdirAll_refuted`). -/
theorem C80_mkdirAll_partial (E : Env) (O : Host S) (w : World S) (perm : Nat) (hl : ParseLaws E w.here) {cs : List Str}
    (ho : Ordinary w.here (GoPath.mk cs)) (hcs : GoPath.Good cs) {w1 : World S} {her : Info} {ds : List Str}
    (hi : info O w w.here.module.path = (w1, .ok her)) (hg : GoPath.Good ds) (hd : her.dir = GoPath.mk ds) :
    mkdirAll E O w (GoPath.mk cs) perm = ({ w1 with host := (O.mkdirAll (GoPath.mk (ds ++ cs)) perm w1.host).1 },
      (O.mkdirAll (GoPath.mk (ds ++ cs)) perm w1.host).2) := by
  have hloc := locate_of (E := E) (ho.parse hl) hi
  simp only [mkdirAll, hloc, hd, GoPath.join2_mk hg hcs]

/-- **C80** (`File.Stat`). What a file's `Stat` has answered once it answers from then on, whatever has happened in between,
without asking the operating system; the first answer is the operating system's, or what it reported when the file was
opened. -/
theorem C80_fileStat (O : Host S) (w : World S) (f : File) :
    (∀ d, f.info = some d → fileStat O w f = (w, f, .ok d)) ∧
    (f.info = none → fileStat O w f = ({ w with host := (O.fstat f.fd w.host).1 }, (fileStat O w f).2.1, (O.fstat f.fd w.host).2)) ∧
    (fileStat O w f).2.1.fd = f.fd ∧ (fileStat O w f).2.1.path = f.path ∧
    ∀ d, (fileStat O w f).2.2 = .ok d → ∀ w', fileStat O w' (fileStat O w f).2.1 = (w', (fileStat O w f).2.1, .ok d) := by
  unfold fileStat
  cases hf : f.info with
  | some d =>
    refine ⟨?_, fun h => (by cases h), rfl, rfl, ?_⟩
    · intro d' h; cases h; rfl
    · intro d' h w'; cases h; simp [hf]
  | none =>
    generalize O.fstat f.fd w.host = m
    obtain ⟨h, r⟩ := m
    cases r with
    | error e => exact ⟨fun d h => (by cases h), fun _ => rfl, rfl, rfl, fun d h => (by cases h)⟩
    | ok d =>
      refine ⟨fun d h => (by cases h), fun _ => rfl, rfl, rfl, ?_⟩
      intro d' h w'
      cases h
      rfl

/-- **C80** (`Walk` of what is not there). The operating system's error is returned, and the callback is not called. -/
theorem C80_walk_missing {T : Type} (E : Env) (O : Host S) (w : World S) (name : Str) (hl : ParseLaws E w.here)
    (ho : Ordinary w.here name) {w1 : World S} {her : Info} {ds : List Str} (hi : info O w w.here.module.path = (w1, .ok her))
    (hg : GoPath.Good ds) (hd : her.dir = GoPath.mk ds) {h : S} {e : Err}
    (hm : O.tree (GoPath.mk (ds ++ GoPath.rootedElems name)) w1.host = (h, .error e))
    (wf : Str → Details → T → T × Option Err) (t : T) :
    walk E O w name wf t = ({ w1 with host := h }, t, some e) := by
  have hloc := locate_of (E := E) (ho.parse hl) hi
  have hj : GoPath.join2 her.dir (GoPath.mk (GoPath.rootedElems name)) = GoPath.mk (ds ++ GoPath.rootedElems name) := by
    rw [hd]; exact GoPath.join2_mk hg (GoPath.good_rootedElems name)
  simp only [walk, hloc, hj, hm]

/-- A host on which there is nothing. -/
example : (walk Demo.env { Demo.host with tree := fun _ s => (s, .error .notExist) } (new Demo.info ()) (b! "/x")
    (fun p _ (l : List Str) => (p :: l, none)) []).2 = ([], some .notExist) := by
  rw [C80_walk_missing Demo.env { Demo.host with tree := fun _ s => (s, .error .notExist) } (new Demo.info ()) (b! "/x") Demo.laws
    (by decide +kernel) (w1 := new Demo.info ()) (her := Demo.info) (ds := [b! "src", b! "app"]) rfl (by decide +kernel)
    (by decide +kernel) (h := ()) (e := .notExist) rfl]

/-- A file as it is before it was asked for its details. -/
example : (fileStat Demo.host (new Demo.info ()) ⟨3, none, Demo.info, ⟨b! "app", b! "/x"⟩⟩).2.2 = .ok Demo.details := rfl

/-- The demo host meets the hypotheses; removing `/a/../x` is removing `/src/app/x`. -/
example : (remove Demo.env (Demo.host.watched .paths) (new Demo.info ((), [])) (b! "/a/../x")).1.host =
      ((), [b! "/src/app/x"]) := by
  have ho : Ordinary Demo.info (b! "/a/../x") := by decide +kernel
  rw [(C80_calls Demo.env (Demo.host.watched .paths) (new Demo.info ((), [])) (b! "/a/../x") Demo.laws ho
    (w1 := new Demo.info ((), [])) (her := Demo.info) (ds := [b! "src", b! "app"]) rfl (by decide +kernel)
    (by decide +kernel)).1]
  decide +kernel

end Props
end Verif
