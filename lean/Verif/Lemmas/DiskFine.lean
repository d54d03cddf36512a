import Verif.Model.DiskFine
import Verif.Lemmas.DiskHttp

/-! Several goroutines at the disk Pkger: running alone, and running with others around. -/

namespace Verif
namespace DiskFine

open Mem (Details newFileInfo upd)
open Disk (Node)
open Stdos (Host World File)
open DiskClient (Io)
open Client (Call Ans Prog)
open Site (Posix)

variable {S : Type} {α β : Type}

/-! ### Alone, the steps are the calls -/

theorem exec_bind (O : Host S) (I : Io S) (a : Acts α) (f : α → Acts β) (w : World S) :
    (a >>= f).exec O I w = (f (a.exec O I w).2).exec O I (a.exec O I w).1 := by
  show (a.bind f).exec O I w = _
  induction a generalizing w with
  | ret a => rfl
  | info p k ih => simp only [Acts.bind, Acts.exec, ih]
  | sys c k ih => simp only [Acts.bind, Acts.exec, ih]

@[simp] theorem exec_ret (O : Host S) (I : Io S) (a : α) (w : World S) : (Acts.ret a).exec O I w = (w, a) := rfl

@[simp] theorem exec_infoA (O : Host S) (I : Io S) (p : Str) (w : World S) : (infoA p).exec O I w = Stdos.info O w p := rfl

@[simp] theorem exec_sysA (O : Host S) (I : Io S) (c : Sys) (w : World S) :
    (sysA c).exec O I w = ({ w with host := (c.run O I w.host).1 }, (c.run O I w.host).2) := rfl

theorem info_here (O : Host S) (w : World S) (p : Str) : (Stdos.info O w p).1.here = w.here := by
  unfold Stdos.info
  split
  · rfl
  · split <;> rfl

theorem exec_locateA (E : Env) (O : Host S) (I : Io S) (name : Str) (w : World S) :
    (locateA E w.here name).exec O I w = Stdos.locate E O w name := by
  unfold locateA Stdos.locate Stdos.parse
  cases E.parse w.here name with
  | error e => rfl
  | ok pt =>
    simp only [exec_bind, exec_infoA]
    rcases Stdos.info O w pt.pkg with ⟨w', _ | her⟩ <;> rfl

theorem locate_here (E : Env) (O : Host S) (name : Str) (w : World S) : (Stdos.locate E O w name).1.here = w.here := by
  unfold Stdos.locate
  split
  · rfl
  · rename_i pt _
    have := info_here O w pt.pkg
    split <;> (rename_i h; rw [h] at this; exact this)

theorem exec_openA (E : Env) (O : Host S) (I : Io S) (name : Str) (w : World S) :
    (openA E w.here name).exec O I w = Stdos.openFile E O w name := by
  unfold openA Stdos.openFile
  rw [exec_bind, exec_locateA]
  rcases Stdos.locate E O w name with ⟨w1, _ | ⟨pt, her⟩⟩
  · rfl
  · simp only [exec_bind, sysA, Acts.exec, Sys.run]
    rcases O.openFile (GoPath.join2 her.dir pt.name) w1.host with ⟨h, _ | fd⟩
    · rfl
    · simp only [exec_bind, sysA, Acts.exec, Sys.run, Stdos.wrapFile]
      rcases O.fstat fd h with ⟨h', _ | d⟩ <;> rfl

theorem exec_statA (E : Env) (O : Host S) (I : Io S) (name : Str) (w : World S) :
    (statA E w.here name).exec O I w = Stdos.stat E O w name := by
  unfold statA Stdos.stat
  rw [exec_bind, exec_locateA]
  rcases Stdos.locate E O w name with ⟨w1, _ | ⟨pt, her⟩⟩
  · rfl
  · simp only [exec_bind, sysA, Acts.exec, Sys.run]
    rcases O.stat (GoPath.join2 her.dir pt.name) w1.host with ⟨h, _ | d⟩ <;> rfl

theorem exec_fileStatA (O : Host S) (I : Io S) (f : File) (w : World S) :
    (fileStatA f).exec O I w = Stdos.fileStat O w f := by
  unfold fileStatA Stdos.fileStat
  cases f.info with
  | some d => rfl
  | none =>
    simp only [exec_bind, sysA, Acts.exec, Sys.run]
    rcases O.fstat f.fd w.host with ⟨h, _ | d⟩ <;> rfl

theorem exec_visitA (E : Env) (O : Host S) (I : Io S) (pkg path : Str) (n : Node) (l : List (Str × Details)) (w : World S) :
    (visitA E w.here pkg path n l).exec O I w =
      ((Stdos.walkFn E O DiskClient.note pkg path n (w, l)).1.1, (Stdos.walkFn E O DiskClient.note pkg path n (w, l)).1.2,
        (Stdos.walkFn E O DiskClient.note pkg path n (w, l)).2) ∧
      (Stdos.walkFn E O DiskClient.note pkg path n (w, l)).1.1.here = w.here := by
  unfold visitA Stdos.walkFn Stdos.parse
  cases hp : E.parse w.here (pkg ++ Str.colon :: path) with
  | error e => exact ⟨rfl, rfl⟩
  | ok pt =>
    simp only [exec_bind, exec_infoA]
    have := info_here O w pt.pkg
    rcases hi : Stdos.info O w pt.pkg with ⟨w', _ | i⟩
    · rw [hi] at this; exact ⟨rfl, this⟩
    · rw [hi] at this; exact ⟨rfl, this⟩

mutual
theorem exec_walkNodeA (E : Env) (O : Host S) (I : Io S) (pkg path : Str) : ∀ (n : Node) (l : List (Str × Details)) (w : World S),
    (walkNodeA E w.here pkg path n l).exec O I w =
      ((Disk.walkNode (Stdos.walkFn E O DiskClient.note pkg) path n (w, l)).1.1,
        (Disk.walkNode (Stdos.walkFn E O DiskClient.note pkg) path n (w, l)).1.2,
        (Disk.walkNode (Stdos.walkFn E O DiskClient.note pkg) path n (w, l)).2) ∧
      (Disk.walkNode (Stdos.walkFn E O DiskClient.note pkg) path n (w, l)).1.1.here = w.here
  | .file d b, l, w => by
    simp only [walkNodeA, Disk.walkNode]
    exact exec_visitA E O I pkg path _ l w
  | .dir d kids, l, w => by
    simp only [walkNodeA, Disk.walkNode, exec_bind]
    obtain ⟨h1, h2⟩ := exec_visitA E O I pkg path (.dir d kids) l w
    rw [h1]
    rcases hv : Stdos.walkFn E O DiskClient.note pkg path (.dir d kids) (w, l) with ⟨⟨w', l'⟩, _ | e⟩
    · simp only
      simp only [hv] at h2
      rw [← h2]
      exact exec_walkKidsA E O I pkg path kids l' w'
    · simp only [hv] at h2
      exact ⟨rfl, h2⟩

theorem exec_walkKidsA (E : Env) (O : Host S) (I : Io S) (pkg path : Str) :
    ∀ (kids : List (Str × Node)) (l : List (Str × Details)) (w : World S),
    (walkKidsA E w.here pkg path kids l).exec O I w =
      ((Disk.walkKids (Stdos.walkFn E O DiskClient.note pkg) path kids (w, l)).1.1,
        (Disk.walkKids (Stdos.walkFn E O DiskClient.note pkg) path kids (w, l)).1.2,
        (Disk.walkKids (Stdos.walkFn E O DiskClient.note pkg) path kids (w, l)).2) ∧
      (Disk.walkKids (Stdos.walkFn E O DiskClient.note pkg) path kids (w, l)).1.1.here = w.here
  | [], l, w => by simp [walkKidsA, Disk.walkKids]
  | (name, n) :: rest, l, w => by
    simp only [walkKidsA, Disk.walkKids, exec_bind]
    obtain ⟨h1, h2⟩ := exec_walkNodeA E O I pkg (GoPath.join2 path name) n l w
    rw [h1]
    rcases hv : Disk.walkNode (Stdos.walkFn E O DiskClient.note pkg) (GoPath.join2 path name) n (w, l) with ⟨⟨w', l'⟩, _ | e⟩
    · simp only
      simp only [hv] at h2
      rw [← h2]
      exact exec_walkKidsA E O I pkg path rest l' w'
    · simp only [hv] at h2
      simp only
      rw [← h2]
      split
      · exact exec_walkKidsA E O I pkg path rest l' w'
      · exact ⟨rfl, rfl⟩
end

theorem exec_walkA (E : Env) (O : Host S) (I : Io S) (p : Str) (w : World S) :
    (walkA E w.here p).exec O I w = Stdos.walk E O w p DiskClient.note [] ∧
      (Stdos.walk E O w p DiskClient.note []).1.here = w.here := by
  unfold walkA Stdos.walk
  rw [exec_bind, exec_locateA]
  have hh := locate_here E O p w
  rcases hl : Stdos.locate E O w p with ⟨w1, _ | ⟨pt, her⟩⟩
  · rw [hl] at hh; exact ⟨rfl, hh⟩
  · rw [hl] at hh
    simp only at hh ⊢
    simp only [exec_bind, sysA, Acts.exec, Sys.run]
    rcases O.tree (GoPath.join2 her.dir pt.name) w1.host with ⟨h, _ | n⟩
    · exact ⟨rfl, hh⟩
    · simp only [exec_bind]
      obtain ⟨h1, h2⟩ := exec_walkNodeA E O I pt.pkg (GoPath.join2 her.dir pt.name) n [] { w1 with host := h }
      simp only at h1 h2
      rw [← hh, h1]
      unfold Disk.walk
      rcases hv : Disk.walkNode (Stdos.walkFn E O DiskClient.note pt.pkg) (GoPath.join2 her.dir pt.name) n
        ({ w1 with host := h }, []) with ⟨⟨w', l'⟩, r⟩
      simp only [hv] at h2
      cases r with
      | none => exact ⟨rfl, h2⟩
      | some e => cases e <;> exact ⟨rfl, h2⟩

theorem open_here (E : Env) (O : Host S) (name : Str) (w : World S) : (Stdos.openFile E O w name).1.here = w.here := by
  unfold Stdos.openFile
  have := locate_here E O name w
  rcases hl : Stdos.locate E O w name with ⟨w1, _ | ⟨pt, her⟩⟩ <;> rw [hl] at this
  · exact this
  · simp only
    rcases O.openFile (GoPath.join2 her.dir pt.name) w1.host with ⟨h, _ | fd⟩
    · exact this
    · simp only [Stdos.wrapFile]
      rcases O.fstat fd h with ⟨h', _ | d⟩ <;> exact this

theorem stat_here (E : Env) (O : Host S) (name : Str) (w : World S) : (Stdos.stat E O w name).1.here = w.here := by
  unfold Stdos.stat
  have := locate_here E O name w
  rcases hl : Stdos.locate E O w name with ⟨w1, _ | ⟨pt, her⟩⟩ <;> rw [hl] at this
  · exact this
  · simp only
    rcases O.stat (GoPath.join2 her.dir pt.name) w1.host with ⟨h, _ | d⟩ <;> exact this

theorem fileStat_here (O : Host S) (f : File) (w : World S) : (Stdos.fileStat O w f).1.here = w.here := by
  unfold Stdos.fileStat
  cases f.info with
  | some d => rfl
  | none =>
    simp only
    rcases O.fstat f.fd w.host with ⟨h, _ | d⟩ <;> rfl

theorem obtained_here (fs : List File) (r : World S × Except Err File) : (DiskClient.obtained fs r).1 = r.1 := by
  unfold DiskClient.obtained
  rcases r with ⟨w, _ | f⟩ <;> rfl

theorem call_here (E : Env) (O : Host S) (I : Io S) (w : World S) (fs : List File) (c : Call) :
    (DiskClient.call E O I w fs c).1.here = w.here := by
  cases c <;> simp only [DiskClient.call, obtained_here, DiskClient.withFile, open_here, stat_here]
  case walk p => exact (exec_walkA E O I p w).2
  all_goals
    split
    · rfl
    · simp only [obtained_here, Stdos.fileOpen, open_here, fileStat_here, Stdos.fileReaddir, Stdos.closeFile]

theorem exec_obtainedA (O : Host S) (I : Io S) (fs : List File) (r : World S × Except Err File) :
    (obtainedA fs r.2).exec O I r.1 = DiskClient.obtained fs r := by
  unfold obtainedA DiskClient.obtained
  rcases r with ⟨w, _ | f⟩ <;> rfl

theorem exec_callA (E : Env) (O : Host S) (I : Io S) (w : World S) (fs : List File) (c : Call) :
    (callA E w.here fs c).exec O I w = DiskClient.call E O I w fs c := by
  cases c <;> simp only [callA, DiskClient.call, exec_bind, exec_openA, exec_obtainedA, exec_statA, exec_ret, DiskClient.withFile,
    withFileA, (exec_walkA E O I _ w).1]
  case walk => rfl
  case close k =>
    generalize fs[k]? = o
    cases o with
    | none => rfl
    | some f =>
      have : Stdos.closeFile O w f = ({ w with host := (O.close f.fd w.host).1 }, (O.close f.fd w.host).2) := rfl
      simp only [exec_bind, sysA, Acts.exec, Sys.run, this]
      rcases O.close f.fd w.host with ⟨h, _ | e⟩ <;> rfl
  all_goals
    generalize fs[(_ : Nat)]? = o
    cases o with
    | none => rfl
    | some f =>
      simp only [exec_bind, exec_openA, exec_obtainedA, exec_ret, exec_fileStatA, Stdos.fileOpen, Stdos.fileReaddir, Stdos.closeFile,
        sysA, Acts.exec, Sys.run]
      try rfl

/-- A program whose goroutine runs alone does what `DiskClient.exec` says. -/
theorem exec_progA (E : Env) (O : Host S) (I : Io S) : ∀ (p : Prog α) (w : World S) (fs : List File),
    (progA E w.here p fs).exec O I w =
      ((DiskClient.exec E O I p w fs).1, (DiskClient.exec E O I p w fs).2.2)
  | .ret a, w, fs => rfl
  | .step c k, w, fs => by
    simp only [progA, exec_bind, DiskClient.exec, exec_callA]
    rw [← call_here E O I w fs c]
    exact exec_progA E O I _ _ _

end DiskFine
end Verif
