import Verif.Spec.Stdos
import Verif.Lemmas.Disk
import Verif.Lemmas.Mkdir

/-! Facts about the disk Pkger that hold for every host. -/

namespace Verif
namespace Stdos

variable {S : Type} {E : Env} {O : Host S}

theorem info_here (w : World S) (p : Str) : (info O w p).1.here = w.here := by
  unfold info
  split
  · rfl
  · split <;> rfl

/-- An answer is what the cache holds afterwards. -/
theorem info_cached {w w' : World S} {p : Str} {i : Info} (h : info O w p = (w', .ok i)) :
    AMap.get w'.infos p = some i := by
  unfold info at h
  split at h
  · rename_i hg; obtain ⟨rfl, h2⟩ := Prod.mk.inj h; cases h2; exact hg
  · split at h
    · exact absurd (Prod.mk.inj h).2 (by simp)
    · obtain ⟨rfl, h2⟩ := Prod.mk.inj h; cases h2; simp [AMap.get_set]

theorem info_of_cached {w : World S} {p : Str} {i : Info} (h : AMap.get w.infos p = some i) :
    info O w p = (w, .ok i) := by simp [info, h]

/-- The cache only grows. -/
theorem info_grows (w : World S) (p : Str) {q : Str} {i : Info} (h : AMap.get w.infos q = some i) :
    AMap.get (info O w p).1.infos q = some i := by
  unfold info
  split
  · exact h
  · rename_i hn
    split
    · exact h
    · by_cases hq : q = p
      · subst hq; rw [hn] at h; cases h
      · simp only; rw [AMap.get_set_ne _ _ hq]; exact h

/-- What `locate` found. -/
theorem locate_ok {w w' : World S} {name : Str} {pt : Path} {her : Info}
    (h : locate E O w name = (w', .ok (pt, her))) :
    E.parse w.here name = .ok pt ∧ info O w pt.pkg = (w', .ok her) := by
  unfold locate parse at h
  split at h
  · exact absurd (Prod.mk.inj h).2 (by simp)
  · rename_i p hp
    split at h
    · exact absurd (Prod.mk.inj h).2 (by simp)
    · rename_i w2 i hi
      obtain ⟨rfl, h2⟩ := Prod.mk.inj h
      cases h2
      exact ⟨hp, hi⟩

theorem locate_of {w w' : World S} {name : Str} {pt : Path} {her : Info} (hp : E.parse w.here name = .ok pt)
    (hi : info O w pt.pkg = (w', .ok her)) : locate E O w name = (w', .ok (pt, her)) := by
  simp [locate, parse, hp, hi]

/-- `locate` changes the world as one `Info` does, or not at all. -/
theorem locate_world (w : World S) (name : Str) :
    (locate E O w name).1 = w ∨ ∃ p, (locate E O w name).1 = (info O w p).1 := by
  unfold locate
  split
  · exact Or.inl rfl
  · rename_i pt _
    right
    refine ⟨pt.pkg, ?_⟩
    split <;> (rename_i h; rw [h])

/-- A property of the world that no call to the outside and no `Info` ends. -/
structure Stable (O : Host S) (I : World S → Prop) : Prop where
  create : ∀ w p, I w → I { w with host := (O.create p w.host).1 }
  openFile : ∀ w p, I w → I { w with host := (O.openFile p w.host).1 }
  fstat : ∀ w fd, I w → I { w with host := (O.fstat fd w.host).1 }
  readdir : ∀ w fd c, I w → I { w with host := (O.readdir fd c w.host).1 }
  close : ∀ w fd, I w → I { w with host := (O.close fd w.host).1 }
  stat : ∀ w p, I w → I { w with host := (O.stat p w.host).1 }
  mkdirAll : ∀ w p m, I w → I { w with host := (O.mkdirAll p m w.host).1 }
  remove : ∀ w p, I w → I { w with host := (O.remove p w.host).1 }
  removeAll : ∀ w p, I w → I { w with host := (O.removeAll p w.host).1 }
  tree : ∀ w p, I w → I { w with host := (O.tree p w.host).1 }
  info : ∀ w p, I w → I (info O w p).1

namespace Stable

variable {I : World S → Prop}

theorem locate (hs : Stable O I) (w : World S) (name : Str) (h : I w) : I (locate E O w name).1 := by
  rcases locate_world (E := E) (O := O) w name with e | ⟨p, e⟩
  · rw [e]; exact h
  · rw [e]; exact hs.info w p h

theorem wrapFile (hs : Stable O I) (w : World S) (pt : Path) (her : Info) (fd : Nat) (h : I w) :
    I (wrapFile O w pt her fd).1 := by
  have := hs.fstat w fd h
  unfold Stdos.wrapFile
  generalize O.fstat fd w.host = m at this
  obtain ⟨h', r⟩ := m
  cases r <;> exact this

theorem createOp (hs : Stable O I) (w : World S) (name : Str) (h : I w) : I (Stdos.create E O w name).1 := by
  have h1 := hs.locate (E := E) w name h
  unfold Stdos.create
  generalize Stdos.locate E O w name = m at h1
  obtain ⟨w1, r⟩ := m
  cases r with
  | error e => exact h1
  | ok x =>
    obtain ⟨pt, her⟩ := x
    have h2 := hs.create w1 (GoPath.join2 her.dir pt.name) h1
    simp only
    generalize O.create (GoPath.join2 her.dir pt.name) w1.host = m at h2
    obtain ⟨h', r⟩ := m
    cases r with
    | error e => exact h2
    | ok fd => exact hs.wrapFile _ _ _ _ h2

theorem openOp (hs : Stable O I) (w : World S) (name : Str) (h : I w) : I (Stdos.openFile E O w name).1 := by
  have h1 := hs.locate (E := E) w name h
  unfold Stdos.openFile
  generalize Stdos.locate E O w name = m at h1
  obtain ⟨w1, r⟩ := m
  cases r with
  | error e => exact h1
  | ok x =>
    obtain ⟨pt, her⟩ := x
    have h2 := hs.openFile w1 (GoPath.join2 her.dir pt.name) h1
    simp only
    generalize O.openFile (GoPath.join2 her.dir pt.name) w1.host = m at h2
    obtain ⟨h', r⟩ := m
    cases r with
    | error e => exact h2
    | ok fd => exact hs.wrapFile _ _ _ _ h2

theorem statOp (hs : Stable O I) (w : World S) (name : Str) (h : I w) : I (Stdos.stat E O w name).1 := by
  have h1 := hs.locate (E := E) w name h
  unfold Stdos.stat
  generalize Stdos.locate E O w name = m at h1
  obtain ⟨w1, r⟩ := m
  cases r with
  | error e => exact h1
  | ok x =>
    obtain ⟨pt, her⟩ := x
    have h2 := hs.stat w1 (GoPath.join2 her.dir pt.name) h1
    simp only
    generalize O.stat (GoPath.join2 her.dir pt.name) w1.host = m at h2
    obtain ⟨h', r⟩ := m
    cases r <;> exact h2

theorem mkdirAllOp (hs : Stable O I) (w : World S) (name : Str) (perm : Nat) (h : I w) :
    I (Stdos.mkdirAll E O w name perm).1 := by
  have h1 := hs.locate (E := E) w name h
  unfold Stdos.mkdirAll
  generalize Stdos.locate E O w name = m at h1
  obtain ⟨w1, r⟩ := m
  cases r with
  | error e => exact h1
  | ok x => exact hs.mkdirAll w1 _ perm h1

theorem removeOp (hs : Stable O I) (w : World S) (name : Str) (h : I w) : I (Stdos.remove E O w name).1 := by
  have h1 := hs.locate (E := E) w name h
  unfold Stdos.remove
  generalize Stdos.locate E O w name = m at h1
  obtain ⟨w1, r⟩ := m
  cases r with
  | error e => exact h1
  | ok x => exact hs.remove w1 _ h1

theorem removeAllOp (hs : Stable O I) (w : World S) (name : Str) (h : I w) :
    I (Stdos.removeAll E O w name).1 := by
  have h1 := hs.locate (E := E) w name h
  unfold Stdos.removeAll
  generalize Stdos.locate E O w name = m at h1
  obtain ⟨w1, r⟩ := m
  cases r with
  | error e => exact h1
  | ok x => exact hs.removeAll w1 _ h1

theorem walkFn {T : Type} (hs : Stable O I) (wf : Str → Mem.Details → T → T × Option Err) (pkg path : Str)
    (n : Disk.Node) (s : World S × T) (h : I s.1) : I (Stdos.walkFn E O wf pkg path n s).1.1 := by
  unfold Stdos.walkFn
  split
  · exact h
  · rename_i pt _
    have h1 := hs.info s.1 pt.pkg h
    generalize Stdos.info O s.1 pt.pkg = m at h1
    obtain ⟨w1, r⟩ := m
    cases r <;> exact h1

end Stable

mutual
/-- What a callback keeps, the walk keeps. -/
theorem walkNode_keeps {T : Type} {cb : Disk.WalkFn T} {J : T → Prop} (hc : ∀ p n s, J s → J (cb p n s).1)
    (path : Str) : ∀ (n : Disk.Node) (s : T), J s → J (Disk.walkNode cb path n s).1
  | .file d b, s, h => by simpa [Disk.walkNode] using hc path (.file d b) s h
  | .dir d kids, s, h => by
    have h1 := hc path (.dir d kids) s h
    simp only [Disk.walkNode]
    generalize cb path (.dir d kids) s = m at h1
    obtain ⟨s', r⟩ := m
    cases r with
    | some e => exact h1
    | none => exact walkKids_keeps hc path kids s' h1

theorem walkKids_keeps {T : Type} {cb : Disk.WalkFn T} {J : T → Prop} (hc : ∀ p n s, J s → J (cb p n s).1)
    (path : Str) : ∀ (kids : List (Str × Disk.Node)) (s : T), J s → J (Disk.walkKids cb path kids s).1
  | [], s, h => by simpa [Disk.walkKids] using h
  | (name, n) :: rest, s, h => by
    have h1 := walkNode_keeps hc (GoPath.join2 path name) n s h
    simp only [Disk.walkKids]
    generalize Disk.walkNode cb (GoPath.join2 path name) n s = m at h1
    obtain ⟨s', r⟩ := m
    cases r with
    | none => exact walkKids_keeps hc path rest s' h1
    | some e =>
      simp only
      split
      · exact walkKids_keeps hc path rest s' h1
      · exact h1
end

theorem diskWalk_keeps {T : Type} {cb : Disk.WalkFn T} {J : T → Prop} (hc : ∀ p n s, J s → J (cb p n s).1)
    (root : Str) (n : Disk.Node) (s : T) (h : J s) : J (Disk.walk cb root n s).1 := by
  have h1 := walkNode_keeps hc root n s h
  unfold Disk.walk
  split
  · rename_i e; rw [e] at h1; exact h1
  · exact h1

namespace Stable

variable {I : World S → Prop}

theorem walkOp {T : Type} (hs : Stable O I) (w : World S) (p : Str)
    (wf : Str → Mem.Details → T → T × Option Err) (t : T) (h : I w) : I (Stdos.walk E O w p wf t).1 := by
  have h1 := hs.locate (E := E) w p h
  unfold Stdos.walk
  generalize Stdos.locate E O w p = m at h1
  obtain ⟨w1, r⟩ := m
  cases r with
  | error e => exact h1
  | ok x =>
    obtain ⟨pt, her⟩ := x
    have h2 := hs.tree w1 (GoPath.join2 her.dir pt.name) h1
    simp only
    generalize O.tree (GoPath.join2 her.dir pt.name) w1.host = m at h2
    obtain ⟨h', r⟩ := m
    cases r with
    | error e => exact h2
    | ok n =>
      have h3 := diskWalk_keeps (cb := Stdos.walkFn E O wf pt.pkg) (J := fun s => I s.1)
        (fun p n s hs' => hs.walkFn wf pt.pkg p n s hs') (GoPath.join2 her.dir pt.name) n
        ({ w1 with host := h' }, t) h2
      simp only
      generalize Disk.walk (Stdos.walkFn E O wf pt.pkg) (GoPath.join2 her.dir pt.name) n
        ({ w1 with host := h' }, t) = m at h3
      obtain ⟨⟨w2, t'⟩, r⟩ := m
      exact h3

theorem closeOp (hs : Stable O I) (w : World S) (f : File) (h : I w) : I (Stdos.closeFile O w f).1 :=
  hs.close w f.fd h

theorem fileOpenOp (hs : Stable O I) (w : World S) (f : File) (name : Str) (h : I w) :
    I (Stdos.fileOpen E O w f name).1 := hs.openOp w _ h

theorem fileStatOp (hs : Stable O I) (w : World S) (f : File) (h : I w) : I (Stdos.fileStat O w f).1 := by
  unfold Stdos.fileStat
  split
  · exact h
  · have h1 := hs.fstat w f.fd h
    generalize O.fstat f.fd w.host = m at h1
    obtain ⟨h', r⟩ := m
    cases r <;> exact h1

theorem dirOpenOp (hs : Stable O I) (w : World S) (d name : Str) (h : I w) :
    I (Stdos.dirOpen E O w d name).1 := by
  have h1 := hs.openOp (E := E) w d h
  unfold Stdos.dirOpen
  generalize Stdos.openFile E O w d = m at h1
  obtain ⟨w1, r⟩ := m
  cases r with
  | error e => exact h1
  | ok f => exact hs.fileOpenOp w1 f name h1

theorem keep_world (files : List File) (m : World S × Except Err File) : (keep files m).world = m.1 := by
  obtain ⟨w, r⟩ := m
  cases r <;> rfl

theorem step (hs : Stable O I) (s : Prog S) (op : Op) (h : I s.world) : I (Stdos.step E O s op).world := by
  cases op with
  | info p => exact hs.info _ p h
  | create n => rw [Stdos.step, keep_world]; exact hs.createOp _ n h
  | openFile n => rw [Stdos.step, keep_world]; exact hs.openOp _ n h
  | stat n => exact hs.statOp _ n h
  | mkdirAll p m => exact hs.mkdirAllOp _ p m h
  | remove n => exact hs.removeOp _ n h
  | removeAll n => exact hs.removeAllOp _ n h
  | walk p wf => exact hs.walkOp _ p _ _ h
  | fileOpen k n =>
    simp only [Stdos.step]
    split
    · exact h
    · rw [keep_world]; exact hs.fileOpenOp _ _ n h
  | fileStat k =>
    simp only [Stdos.step]
    split
    · exact h
    · exact hs.fileStatOp _ _ h
  | fileReaddir k c =>
    simp only [Stdos.step]
    split
    · exact h
    · exact hs.readdir _ _ c h
  | close k =>
    simp only [Stdos.step]
    split
    · exact h
    · exact hs.closeOp _ _ h
  | dirOpen d n => rw [Stdos.step, keep_world]; exact hs.dirOpenOp _ d n h

theorem run (hs : Stable O I) (ops : List Op) : ∀ s : Prog S, I s.world → I (Stdos.run E O s ops).world := by
  induction ops with
  | nil => intro s h; exact h
  | cons op ops ih => intro s h; exact ih _ (hs.step s op h)

end Stable

/-- The directory the Pkger was made for is in the cache from the beginning. -/
theorem new_cached (her : Info) (h : S) : AMap.get (new her h).infos her.importPath = some her := by
  simp [new, AMap.get_set]

/-- A property of `here` and of the cache alone is stable as soon as `Info` keeps it. -/
theorem stable_of_info {I : Info → AMap Str Info → Prop}
    (hi : ∀ w p, I w.here w.infos → I (info O w p).1.here (info O w p).1.infos) :
    Stable O (fun w => I w.here w.infos) where
  create _ _ h := h
  openFile _ _ h := h
  fstat _ _ h := h
  readdir _ _ _ h := h
  close _ _ h := h
  stat _ _ h := h
  mkdirAll _ _ _ h := h
  remove _ _ h := h
  removeAll _ _ h := h
  tree _ _ h := h
  info := hi

/-- `here` never changes. -/
theorem run_here (E : Env) (O : Host S) (s : Prog S) (ops : List Op) :
    (run E O s ops).world.here = s.world.here :=
  (stable_of_info (O := O) (I := fun a _ => a = s.world.here) (fun w p h => by rw [info_here]; exact h)).run ops s rfl

/-- What was cached stays cached. -/
theorem run_cached (E : Env) (O : Host S) (s : Prog S) (ops : List Op) {p : Str} {i : Info}
    (h : AMap.get s.world.infos p = some i) : AMap.get (run E O s ops).world.infos p = some i :=
  (stable_of_info (O := O) (I := fun _ m => AMap.get m p = some i)
    (fun w q hw => info_grows w q hw)).run ops s h

end Stdos
end Verif
