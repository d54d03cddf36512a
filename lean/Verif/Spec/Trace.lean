import Verif.Model.Mem

/-! Recording what a walk does: which calls of the callback it makes, in order. -/

namespace Verif
namespace Mem

/-- One call of a `filepath.WalkFunc`: its arguments and its answer. -/
structure Visit where
  path : Str
  details : Details
  answer : Option Err
deriving DecidableEq, Repr

/-- The callback `cb`, writing down each call. -/
def logged {W : Type} (cb : Str → Details → W → W × Option Err) (p : Str) (d : Details)
    (s : W × List Visit) : (W × List Visit) × Option Err :=
  (((cb p d s.1).1, s.2 ++ [⟨p, d, (cb p d s.1).2⟩]), (cb p d s.1).2)

/-- The calls `Walk(root)` makes with callback `cb`. -/
def visits {W : Type} (E : Env) (get : W → World) (cb : Str → Details → W → W × Option Err) (s : W)
    (root : Str) : List Visit :=
  (walk E (fun x => get x.1) (logged cb) (s, []) root).1.2

/-- What `Walk(root)` returns. -/
def walkResult {W : Type} (E : Env) (get : W → World) (cb : Str → Details → W → W × Option Err) (s : W)
    (root : Str) : Res Unit := (walk E get cb s root).2

/-- The callback leaves the Pkger alone. -/
def Unchanging {W : Type} (get : W → World) (cb : Str → Details → W → W × Option Err) : Prop :=
  ∀ p d s, get (cb p d s).1 = get s

/-- The visits `vs` are made at the paths `qs`. -/
def AtPaths (vs : List Visit) (qs : List Path) : Prop := vs.map (·.path) = qs.map Path.str

theorem walkLoop_logged {W : Type} (get : W → World) (cb : Str → Details → W → W × Option Err)
    (root : Path) (ks : List Path) : ∀ (skip : Str) (s : W) (l : List Visit),
    (walkLoop (fun x => get x.1) (logged cb) root ks skip (s, l)).1.1 = (walkLoop get cb root ks skip s).1 ∧
    (walkLoop (fun x => get x.1) (logged cb) root ks skip (s, l)).2 = (walkLoop get cb root ks skip s).2 := by
  induction ks with
  | nil => intro skip s l; exact ⟨rfl, rfl⟩
  | cons k ks ih =>
    intro skip s l
    simp only [walkLoop]
    split
    · exact ih _ _ _
    split
    · exact ih _ _ _
    split
    · exact ih _ _ _
    cases hg : AMap.get (get s).files k with
    | none => exact ⟨rfl, rfl⟩
    | some id =>
      simp only
      cases hd : ((get s).heap id).info with
      | none => exact ⟨rfl, rfl⟩
      | some d =>
        simp only [logged]
        generalize cb k.str (newFileInfo d) s = r
        obtain ⟨s', e⟩ := r
        cases e with
        | none => exact ih _ _ _
        | some e => cases e <;> first | exact ih _ _ _ | exact ⟨rfl, rfl⟩

/-- Recording does not disturb the walk. -/
theorem walk_logged {W : Type} (E : Env) (get : W → World) (cb : Str → Details → W → W × Option Err)
    (s : W) (root : Str) :
    (walk E (fun x => get x.1) (logged cb) (s, []) root).1.1 = (walk E get cb s root).1 ∧
    (walk E (fun x => get x.1) (logged cb) (s, []) root).2 = (walk E get cb s root).2 := by
  unfold walk
  simp only
  cases parse E (get s) root with
  | error e => exact ⟨rfl, rfl⟩
  | ok pt => exact walkLoop_logged get cb pt _ _ s []

end Mem
end Verif
