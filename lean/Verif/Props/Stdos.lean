import Verif.Lemmas.Stdos
import Verif.Props.FileTree
import Verif.Props.Serial

/-! C48 - C51, C65: the Pkger that works on the disk. -/

namespace Verif
namespace Props

open Stdos
open Mem (Details newFileInfo)
open Disk.Node (tree WF)

variable {S : Type}

/-! ### Package lookups (C51) -/

/-- The questions to the Go tool so far. -/
abbrev asked (w : World (S × List (Str × Bool))) : List (Str × Bool) := w.host.2

/-- What one `Info` does to the record of questions. -/
theorem info_asked (O : Host S) (w : World (S × List (Str × Bool))) (p : Str) :
    (∃ i, AMap.get w.infos p = some i ∧ info (O.watched .questions) w p = (w, .ok i)) ∨
    (AMap.get w.infos p = none ∧
      ((∃ i h, (O.package p w.host.1) = (h, .ok i) ∧
          info (O.watched .questions) w p =
            ({ w with host := (h, asked w ++ [(p, true)]), infos := AMap.set w.infos p i }, .ok i)) ∨
        (∃ e h, (O.package p w.host.1) = (h, .error e) ∧
          info (O.watched .questions) w p = ({ w with host := (h, asked w ++ [(p, false)]) }, .error e)))) := by
  unfold info
  cases hg : AMap.get w.infos p with
  | some i => exact Or.inl ⟨i, rfl, rfl⟩
  | none =>
    right
    refine ⟨rfl, ?_⟩
    simp only [Host.watched, Watch.questions]
    cases ho : O.package p w.host.1 with
    | mk h r =>
      cases r with
      | ok i => exact Or.inl ⟨i, h, rfl, rfl⟩
      | error e => exact Or.inr ⟨e, h, rfl, rfl⟩

/-- The invariant behind C51. -/
structure Lookups (own : Str) (w : World (S × List (Str × Bool))) : Prop where
  ownKnown : ∃ i, AMap.get w.infos own = some i
  known : ∀ p, (p, true) ∈ asked w → ∃ i, AMap.get w.infos p = some i
  once : (asked w).Pairwise fun a b => a.2 = true → a.1 ≠ b.1
  notOwn : ∀ b, (own, b) ∉ asked w

theorem lookups_stable (O : Host S) (own : Str) : Stable (O.watched .questions) (Lookups own) where
  create w p h := by
    refine ⟨h.ownKnown, ?_, ?_, ?_⟩ <;> simp only [asked, Host.watched, Watch.questions] <;> split
    all_goals first | exact h.known | exact h.once | exact h.notOwn
  openFile w p h := by
    refine ⟨h.ownKnown, ?_, ?_, ?_⟩ <;> simp only [asked, Host.watched, Watch.questions] <;> split
    all_goals first | exact h.known | exact h.once | exact h.notOwn
  fstat w p h := ⟨h.ownKnown, h.known, h.once, h.notOwn⟩
  readdir w p c h := ⟨h.ownKnown, h.known, h.once, h.notOwn⟩
  close w p h := ⟨h.ownKnown, h.known, h.once, h.notOwn⟩
  stat w p h := ⟨h.ownKnown, h.known, h.once, h.notOwn⟩
  mkdirAll w p m h := ⟨h.ownKnown, h.known, h.once, h.notOwn⟩
  remove w p h := ⟨h.ownKnown, h.known, h.once, h.notOwn⟩
  removeAll w p h := ⟨h.ownKnown, h.known, h.once, h.notOwn⟩
  tree w p h := ⟨h.ownKnown, h.known, h.once, h.notOwn⟩
  info w p h := by
    have hgrow : ∀ q, (∃ i, AMap.get w.infos q = some i) →
        ∃ i, AMap.get (info (O.watched .questions) w p).1.infos q = some i := by
      rintro q ⟨i, hi⟩
      exact ⟨i, info_grows w p hi⟩
    have hnew : AMap.get w.infos p = none → ∀ b,
        (asked w ++ [(p, b)]).Pairwise (fun (a b : Str × Bool) => a.2 = true → a.1 ≠ b.1) := by
      intro hn b
      rw [List.pairwise_append]
      refine ⟨h.once, by simp, ?_⟩
      intro a ha c hc hat
      simp only [List.mem_singleton] at hc
      subst hc
      intro e
      obtain ⟨i, hi⟩ := h.known a.1 (by rw [← hat]; exact ha)
      have e' : a.1 = p := e
      rw [e', hn] at hi
      cases hi
    have hown : AMap.get w.infos p = none → p ≠ own := by
      rintro hn rfl
      obtain ⟨i, hi⟩ := h.ownKnown
      rw [hn] at hi
      cases hi
    rcases info_asked O w p with ⟨i, _, e⟩ | ⟨hn, ⟨i, h', _, e⟩ | ⟨er, h', _, e⟩⟩
    · rw [e]; exact h
    · have hg := hgrow
      rw [e] at hg ⊢
      refine ⟨hg _ h.ownKnown, ?_, hnew hn true, ?_⟩
      · intro q hq
        rcases List.mem_append.mp hq with hq | hq
        · exact hg q (h.known q hq)
        · simp only [List.mem_singleton, Prod.mk.injEq, and_true] at hq
          subst hq
          exact ⟨i, by simp⟩
      · intro b hb
        rcases List.mem_append.mp hb with hb | hb
        · exact h.notOwn b hb
        · simp only [List.mem_singleton, Prod.mk.injEq] at hb
          exact hown hn hb.1.symm
    · rw [e]
      refine ⟨h.ownKnown, ?_, hnew hn false, ?_⟩
      · intro q hq
        rcases List.mem_append.mp hq with hq | hq
        · exact h.known q hq
        · simp at hq
      · intro b hb
        rcases List.mem_append.mp hb with hb | hb
        · exact h.notOwn b hb
        · simp only [List.mem_singleton, Prod.mk.injEq] at hb
          exact hown hn hb.1.symm

/-- **C51** (at most once). Whatever a program does with a disk Pkger, and whatever the operating system and the
Go tool answer: after the Go tool answered for a package it is never asked for that package again, and it is
never asked for the package the Pkger was made for. -/
theorem C51_asked_once (E : Env) (O : Host S) (her : Info) (h : S) (ops : List Op) :
    let q := (run E (O.watched .questions) ⟨new her (h, []), []⟩ ops).world.host.2
    q.Pairwise (fun a b => a.2 = true → a.1 ≠ b.1) ∧ ∀ e ∈ q, e.1 ≠ her.importPath := by
  have := (lookups_stable O her.importPath).run (E := E) ops ⟨new her (h, []), []⟩
    ⟨⟨her, new_cached her _⟩, by simp [asked, new], by simp [asked, new], by simp [asked, new]⟩
  refine ⟨this.once, ?_⟩
  rintro ⟨p, b⟩ he rfl
  exact this.notOwn b he

/-- **C51** (stable). An answer given once is given again after any further use of the Pkger, and giving it
changes nothing, in particular asks nobody. -/
theorem C51_answer_stable (E : Env) (O : Host S) (s : Prog S) (ops : List Op) {p : Str} {i : Info} {w' : World S}
    (h : info O s.world p = (w', .ok i)) :
    info O (run E O ⟨w', s.files⟩ ops).world p = ((run E O ⟨w', s.files⟩ ops).world, .ok i) :=
  info_of_cached (run_cached E O _ ops (info_cached h))

/-- **C51** (own package). The package the Pkger was made for is always known. -/
theorem C51_own_package (E : Env) (O : Host S) (her : Info) (h : S) (ops : List Op) :
    info O (run E O ⟨new her h, []⟩ ops).world her.importPath =
      ((run E O ⟨new her h, []⟩ ops).world, .ok her) :=
  info_of_cached (run_cached E O _ ops (new_cached her h))

/-- **C51** (failures). A failed lookup was the Go tool's own failure and leaves the cache as it was, so the same
lookup made next asks again, and answers what the tool then answers. -/
theorem C51_failure_not_cached (O : Host S) (w : World (S × List (Str × Bool))) (p : Str) {e : Err}
    {w' : World (S × List (Str × Bool))} (h : info (O.watched .questions) w p = (w', .error e)) :
    w'.infos = w.infos ∧ w'.host = ((O.package p w.host.1).1, w.host.2 ++ [(p, false)]) ∧
    (O.package p w.host.1).2 = .error e ∧
    (info (O.watched .questions) w' p).2 = (O.package p w'.host.1).2 ∧
    ∃ b, (info (O.watched .questions) w' p).1.host.2 = w.host.2 ++ [(p, false), (p, b)] := by
  rcases info_asked O w p with ⟨i, _, e'⟩ | ⟨hn, ⟨i, h', _, e'⟩ | ⟨er, h', he, e'⟩⟩
  · rw [e'] at h; exact absurd (Prod.mk.inj h).2 (by simp)
  · rw [e'] at h; exact absurd (Prod.mk.inj h).2 (by simp)
  · rw [e'] at h
    obtain ⟨rfl, h2⟩ := Prod.mk.inj h
    cases h2
    refine ⟨rfl, by rw [he], by rw [he], ?_⟩
    rcases info_asked O { w with host := (h', asked w ++ [(p, false)]) } p with
      ⟨i, hi, _⟩ | ⟨_, ⟨i, h2, hp, e2⟩ | ⟨er2, h2, hp, e2⟩⟩
    · simp only [hn] at hi; cases hi
    · exact ⟨by rw [e2]; simp only [hp], true, by rw [e2]; simp [asked]⟩
    · exact ⟨by rw [e2]; simp only [hp], false, by rw [e2]; simp [asked]⟩

/-- A first answer is the Go tool's. -/
theorem C51_first_answer (O : Host S) (w : World S) (p : Str) (h : AMap.get w.infos p = none) :
    (info O w p).2 = (O.package p w.host).2 := by
  simp only [info, h]
  generalize O.package p w.host = m
  obtain ⟨h', r⟩ := m
  cases r <;> rfl

/-! Example: `lib` is asked for once although it is used three times, an unknown package each time, `app` never. -/
example : (run Demo.env (Demo.host.watched .questions) ⟨new Demo.info ((), []), []⟩
    [.info (b! "lib"), .stat (b! "lib:/x"), .info (b! "no"), .openFile (b! "/a"), .info (b! "no"),
      .info (b! "lib"), .info (b! "app")]).world.host.2 =
    [(b! "lib", true), (b! "no", false), (b! "no", false)] := by decide +kernel

/-! ### Paths handed to the operating system (C48) -/

/-- The operations that take a name. -/
inductive Kind where
  | create | openFile | stat | mkdirAll (perm : Nat) | remove | removeAll | walk (wf : Str → Details → Option Err)

/-- Using one of them. -/
def access (E : Env) (O : Host S) (w : World S) (name : Str) : Kind → World S
  | .create => (create E O w name).1
  | .openFile => (openFile E O w name).1
  | .stat => (stat E O w name).1
  | .mkdirAll perm => (mkdirAll E O w name perm).1
  | .remove => (remove E O w name).1
  | .removeAll => (removeAll E O w name).1
  | .walk wf => (walk E O w name (fun p d (t : Unit) => (t, wf p d)) ()).1

/-- The paths handed to the operating system so far. -/
abbrev handed (w : World (S × List Str)) : List Str := w.host.2

theorem info_handed (O : Host S) (w : World (S × List Str)) (p : Str) :
    handed (info (O.watched .paths) w p).1 = handed w := by
  unfold info
  split
  · rfl
  · simp only [Host.watched, Watch.paths]
    split
    · rename_i h
      split at h <;> · obtain ⟨h1, _⟩ := Prod.mk.inj h; simp only [← h1]
    · rename_i h
      split at h <;> · obtain ⟨h1, _⟩ := Prod.mk.inj h; simp only [← h1]

theorem wrapFile_handed (O : Host S) (w : World (S × List Str)) (pt : Path) (her : Info) (fd : Nat) :
    handed (wrapFile (O.watched .paths) w pt her fd).1 = handed w := by
  unfold wrapFile
  simp only [Host.watched, Watch.paths]
  split <;> (rename_i h; obtain ⟨h1, _⟩ := Prod.mk.inj h; simp only [← h1])

/-- Exactly what each operation hands to the operating system once the name is parsed and the package known. -/
theorem access_handed (E : Env) (O : Host S) (w : World (S × List Str)) (name : Str) {pt : Path} {her : Info}
    (hp : E.parse w.here name = .ok pt) (hi : (info (O.watched .paths) w pt.pkg).2 = .ok her) (k : Kind) :
    handed (access E (O.watched .paths) w name k) = handed w ++
      [match k with
        | .mkdirAll _ => GoPath.join2 her.dir name
        | _ => GoPath.join2 her.dir pt.name] := by
  have h0 := info_handed O w pt.pkg
  obtain ⟨w1, hi1⟩ : ∃ w1, info (O.watched .paths) w pt.pkg = (w1, .ok her) := ⟨_, Prod.ext rfl hi⟩
  rw [hi1] at h0
  have hl := locate_of (E := E) hp hi1
  cases k with
  | create =>
    simp only [access, create, hl]
    generalize hm : (O.watched .paths).create (GoPath.join2 her.dir pt.name) w1.host = m
    simp only [Host.watched, Watch.paths] at hm
    obtain ⟨h', r⟩ := m
    split at hm <;> (obtain ⟨rfl, rfl⟩ := Prod.mk.inj hm; simp only [wrapFile_handed]; simp [handed, ← h0])
  | openFile =>
    simp only [access, openFile, hl]
    generalize hm : (O.watched .paths).openFile (GoPath.join2 her.dir pt.name) w1.host = m
    simp only [Host.watched, Watch.paths] at hm
    obtain ⟨h', r⟩ := m
    split at hm <;> (obtain ⟨rfl, rfl⟩ := Prod.mk.inj hm; simp only [wrapFile_handed]; simp [handed, ← h0])
  | stat =>
    simp only [access, stat, hl]
    generalize hm : (O.watched .paths).stat (GoPath.join2 her.dir pt.name) w1.host = m
    simp only [Host.watched, Watch.paths] at hm
    obtain ⟨h', r⟩ := m
    obtain ⟨rfl, rfl⟩ := Prod.mk.inj hm
    split <;> (rename_i h; obtain ⟨rfl, _⟩ := Prod.mk.inj h; simp [handed, ← h0])
  | mkdirAll perm => simp only [access, mkdirAll, hl]; simp [Host.watched, Watch.paths, handed, ← h0]
  | remove => simp only [access, remove, hl]; simp [Host.watched, Watch.paths, handed, ← h0]
  | removeAll => simp only [access, removeAll, hl]; simp [Host.watched, Watch.paths, handed, ← h0]
  | walk wf =>
    simp only [access, walk, hl]
    generalize hm : (O.watched .paths).tree (GoPath.join2 her.dir pt.name) w1.host = m
    simp only [Host.watched, Watch.paths] at hm
    obtain ⟨h', r⟩ := m
    obtain ⟨rfl, rfl⟩ := Prod.mk.inj hm
    split
    · rename_i h; obtain ⟨rfl, _⟩ := Prod.mk.inj h; simp [handed, ← h0]
    · rename_i h n hh
      obtain ⟨rfl, _⟩ := Prod.mk.inj hh
      have hk := diskWalk_keeps
        (cb := walkFn E (O.watched .paths) (fun p d (t : Unit) => (t, wf p d)) pt.pkg)
        (J := fun s => handed s.1 = handed w ++ [GoPath.join2 her.dir pt.name]) (by
          intro p n s hs
          unfold walkFn
          split
          · exact hs
          · rename_i q _
            have := info_handed O s.1 q.pkg
            generalize info (O.watched .paths) s.1 q.pkg = m at this
            obtain ⟨w2, r⟩ := m
            cases r <;> (simp only at this ⊢; rw [this]; exact hs))
        (GoPath.join2 her.dir pt.name) n
        (({ w1 with host := ((O.tree (GoPath.join2 her.dir pt.name) w1.host.1).1,
            handed w1 ++ [GoPath.join2 her.dir pt.name]) } : World (S × List Str)), ()) (by simp [handed, ← h0])
      exact hk

/-- If the name cannot be parsed or the package is unknown, nothing is handed over. -/
theorem access_nothing (E : Env) (O : Host S) (w : World (S × List Str)) (name : Str) {e : Err}
    (h : (locate E (O.watched .paths) w name).2 = .error e) (k : Kind) :
    handed (access E (O.watched .paths) w name k) = handed w := by
  have h0 : handed (locate E (O.watched .paths) w name).1 = handed w := by
    rcases locate_world (E := E) (O := O.watched .paths) w name with e | ⟨p, e⟩
    · rw [e]
    · rw [e]; exact info_handed O w p
  obtain ⟨w1, hl⟩ : ∃ w1, locate E (O.watched .paths) w name = (w1, .error e) := ⟨_, Prod.ext rfl h⟩
  rw [hl] at h0
  cases k <;> simp only [access, create, openFile, stat, mkdirAll, remove, removeAll, walk, hl] <;> exact h0

/-- **C48**, as stated: whatever the name, once it is parsed and its package is known, each operation hands the
operating system the package's directory followed by the package-relative name, cleaned as an absolute name. -/
def C48_statement (E : Env) : Prop :=
  ∀ (S : Type) (O : Host S) (w : World (S × List Str)) (name : Str) (pt : Path) (her : Info) (ds : List Str) (k : Kind),
    ParseLaws E w.here → E.parse w.here name = .ok pt → (info (O.watched .paths) w pt.pkg).2 = .ok her →
    GoPath.Good ds → her.dir = GoPath.mk ds →
    handed (access E (O.watched .paths) w name k) =
      handed w ++ [GoPath.mk (ds ++ GoPath.rootedElems (Str.slash :: pt.name))]

/-- **C48 is false**: `MkdirAll` joins the package directory with the argument as given (pkging/stdos/stdos.go:94), so
`MkdirAll("/../../x")` leaves the package directory. -/
theorem C48_mkdirAll_refuted : ¬ C48_statement Demo.env := by
  intro h
  have := h Unit Demo.host (new Demo.info ((), [])) (b! "/../../x") ⟨b! "app", b! "/x"⟩ Demo.info
    [b! "src", b! "app"] (.mkdirAll 0o755) Demo.laws (by decide +kernel) (by decide +kernel) (by decide +kernel)
    (by decide +kernel)
  revert this
  decide +kernel

/-- **C48** (a second violation, if `Parse` is as reconstructed): backslashes become slashes after cleaning, so a
name can climb out of the package directory for every operation; here `Stat("\..\..\etc\passwd")` asks for
`/etc/passwd`. -/
theorem C48_backslash_refuted :
    handed (access Demo.env (Demo.host.watched .paths) (new Demo.info ((), [])) (b! "\\..\\..\\etc\\passwd") .stat) =
      [b! "/etc/passwd"] := by decide +kernel

/-- **C48** (what holds, exactly). For every name and whatever the host answers, every operation but `MkdirAll` hands
over exactly the package's directory joined with the parsed name, if the name can be parsed and the package is
known, and nothing otherwise. -/
theorem C48_exact_partial (E : Env) (O : Host S) (w : World (S × List Str)) (name : Str) (k : Kind)
    (hk : ∀ m, k ≠ .mkdirAll m) :
    (∃ pt her, E.parse w.here name = .ok pt ∧ (info (O.watched .paths) w pt.pkg).2 = .ok her ∧
      handed (access E (O.watched .paths) w name k) = handed w ++ [GoPath.join2 her.dir pt.name]) ∨
    handed (access E (O.watched .paths) w name k) = handed w := by
  cases hl : locate E (O.watched .paths) w name with
  | mk w1 r =>
    cases r with
    | error e => exact Or.inr (access_nothing E O w name (by rw [hl]) k)
    | ok x =>
      obtain ⟨pt, her⟩ := x
      obtain ⟨hp, hi⟩ := locate_ok hl
      refine Or.inl ⟨pt, her, hp, by rw [hi], ?_⟩
      rw [access_handed E O w name hp (by rw [hi]) k]
      cases k with
      | mkdirAll m => exact absurd rfl (hk m)
      | _ => rfl

/-- **C48** (what holds: inside). For every ordinary name - rooted, with any number of `..`, `.` and empty elements -
every operation but `MkdirAll` hands over one path, which is the module's directory followed by the cleaned name. -/
theorem C48_inside_partial (E : Env) (O : Host S) (w : World (S × List Str)) (name : Str) (k : Kind)
    (hk : ∀ m, k ≠ .mkdirAll m) (hl : ParseLaws E w.here) (ho : Ordinary w.here name) {her : Info} {ds : List Str}
    (hi : (info (O.watched .paths) w w.here.module.path).2 = .ok her) (hg : GoPath.Good ds)
    (hd : her.dir = GoPath.mk ds) :
    handed (access E (O.watched .paths) w name k) = handed w ++ [GoPath.mk (ds ++ GoPath.rootedElems name)] := by
  have hp := ho.parse hl
  rw [access_handed E O w name hp hi k, hd]
  have : GoPath.join2 (GoPath.mk ds) (GoPath.mk (GoPath.rootedElems name)) =
      GoPath.mk (ds ++ GoPath.rootedElems name) := GoPath.join2_mk hg (GoPath.good_rootedElems name)
  cases k with
  | mkdirAll m => exact absurd rfl (hk m)
  | _ => simp only [this]

/-- **C48** (what holds for other packages): `pkg:/a/b` with plain elements. -/
theorem C48_qualified_partial (E : Env) (O : Host S) (w : World (S × List Str)) (k : Kind)
    (hk : ∀ m, k ≠ .mkdirAll m) (hl : ParseLaws E w.here) {pkg : Str} {cs : List Str} (hpk : PlainPkg pkg)
    (hcs : Plain cs) (hc : Clear w.here (GoPath.mk cs)) {her : Info} {ds : List Str}
    (hi : (info (O.watched .paths) w pkg).2 = .ok her) (hg : GoPath.Good ds) (hd : her.dir = GoPath.mk ds) :
    handed (access E (O.watched .paths) w (pkg ++ Str.colon :: GoPath.mk cs) k) =
      handed w ++ [GoPath.mk (ds ++ cs)] := by
  rw [access_handed E O w _ (hl.qualified pkg cs hpk hcs hc) hi k, hd]
  have := GoPath.join2_mk hg hcs.good
  cases k with
  | mkdirAll m => exact absurd rfl (hk m)
  | _ => simp only [this]

/-- **C48** (`MkdirAll`, what holds): a clean name without package. -/
theorem C48_mkdirAll_partial (E : Env) (O : Host S) (w : World (S × List Str)) (perm : Nat)
    (hl : ParseLaws E w.here) {cs : List Str} (ho : Ordinary w.here (GoPath.mk cs)) (hcs : GoPath.Good cs)
    {her : Info} {ds : List Str} (hi : (info (O.watched .paths) w w.here.module.path).2 = .ok her)
    (hg : GoPath.Good ds) (hd : her.dir = GoPath.mk ds) :
    handed (access E (O.watched .paths) w (GoPath.mk cs) (.mkdirAll perm)) = handed w ++ [GoPath.mk (ds ++ cs)] := by
  rw [access_handed E O w _ (ho.parse hl) hi (.mkdirAll perm), hd]
  simp only [GoPath.join2_mk hg hcs]

/-- A callback that also writes down where it was called. -/
def tracing {T : Type} (cb : Disk.WalkFn T) : Disk.WalkFn (T × List Str) := fun p n s =>
  match cb p n s.1 with
  | (t, r) => ((t, s.2 ++ [p]), r)

/-- Every path in the list is the given place or below it. -/
def AllBelow (ds : List Str) (l : List Str) : Prop := ∀ p ∈ l, ∃ rel, GoPath.Good rel ∧ p = GoPath.mk (ds ++ rel)

mutual
theorem walkNode_below {T : Type} (cb : Disk.WalkFn T) (ds : List Str) (hg : GoPath.Good ds) :
    ∀ (n : Disk.Node) (rel : List Str) (s : T × List Str), WF n → GoPath.Good rel → AllBelow ds s.2 →
      AllBelow ds (Disk.walkNode (tracing cb) (GoPath.mk (ds ++ rel)) n s).1.2
  | .file d b, rel, s, _, hr, hs => by
    simp only [Disk.walkNode, tracing]
    intro p hp
    rcases List.mem_append.mp hp with hp | hp
    · exact hs p hp
    · exact ⟨rel, hr, by simpa using hp⟩
  | .dir d kids, rel, s, hw, hr, hs => by
    simp only [Disk.walkNode]
    have h1 : AllBelow ds (tracing cb (GoPath.mk (ds ++ rel)) (.dir d kids) s).1.2 := by
      intro p hp
      simp only [tracing] at hp
      rcases List.mem_append.mp hp with hp | hp
      · exact hs p hp
      · exact ⟨rel, hr, by simpa using hp⟩
    generalize tracing cb (GoPath.mk (ds ++ rel)) (.dir d kids) s = m at h1
    obtain ⟨s', r⟩ := m
    cases r with
    | some e => exact h1
    | none => exact walkKids_below cb ds hg kids rel s' hw.2 hr h1

theorem walkKids_below {T : Type} (cb : Disk.WalkFn T) (ds : List Str) (hg : GoPath.Good ds) :
    ∀ (kids : List (Str × Disk.Node)) (rel : List Str) (s : T × List Str), Disk.Node.WFKids kids → GoPath.Good rel →
      AllBelow ds s.2 → AllBelow ds (Disk.walkKids (tracing cb) (GoPath.mk (ds ++ rel)) kids s).1.2
  | [], rel, s, _, _, hs => by simpa [Disk.walkKids] using hs
  | (name, n) :: rest, rel, s, hw, hr, hs => by
    simp only [Disk.walkKids]
    have hgn : GoPath.Good (rel ++ [name]) := GoPath.good_append.mpr ⟨hr, GoPath.good_cons.mpr ⟨hw.1, GoPath.good_nil⟩⟩
    have hj : GoPath.join2 (GoPath.mk (ds ++ rel)) name = GoPath.mk (ds ++ (rel ++ [name])) := by
      have := Disk.joinAll_mk (GoPath.good_append.mpr ⟨hg, hr⟩) (GoPath.good_cons.mpr ⟨hw.1, GoPath.good_nil⟩)
      simpa [Disk.joinAll] using this
    have h1 := walkNode_below cb ds hg n (rel ++ [name]) s hw.2.1 hgn hs
    rw [hj]
    generalize Disk.walkNode (tracing cb) (GoPath.mk (ds ++ (rel ++ [name]))) n s = m at h1
    obtain ⟨s', r⟩ := m
    cases r with
    | none => exact walkKids_below cb ds hg rest rel s' hw.2.2 hr h1
    | some e =>
      simp only
      split
      · exact walkKids_below cb ds hg rest rel s' hw.2.2 hr h1
      · exact h1
end

/-- **C48** (the rest of a walk). Whatever the callback answers, `filepath.Walk` started inside a directory looks only at
places inside that directory; together with `C48_inside_partial`, which gives the start, this confines `Walk`. -/
theorem C48_walk_below {T : Type} (cb : Disk.WalkFn T) {ds : List Str} (hg : GoPath.Good ds) {n : Disk.Node} (hw : WF n)
    (t : T) : ∀ p ∈ (Disk.walk (tracing cb) (GoPath.mk ds) n (t, [])).1.2,
      ∃ rel, GoPath.Good rel ∧ p = GoPath.mk (ds ++ rel) := by
  have h1 := walkNode_below cb ds hg n [] (t, []) hw GoPath.good_nil (by intro p hp; cases hp)
  rw [List.append_nil] at h1
  unfold Disk.walk
  split
  · rename_i e; rw [e] at h1; exact h1
  · exact h1

/-! Example: a request full of `..` stays inside. -/
example : Ordinary Demo.info (b! "/a/../../../etc//./passwd") := by decide +kernel
example : handed (access Demo.env (Demo.host.watched .paths) (new Demo.info ((), [])) (b! "/a/../../../etc//./passwd")
    .openFile) = [b! "/src/app/etc/passwd"] := by decide +kernel
example : handed (access Demo.env (Demo.host.watched .paths) (new Demo.info ((), [])) (b! "lib:/a/b") .remove) =
    [b! "/src/lib/a/b"] := by decide +kernel
example : handed (access Demo.env (Demo.host.watched .paths) (new Demo.info ((), [])) (b! "/a/b") (.mkdirAll 0o755)) =
    [b! "/src/app/a/b"] := by decide +kernel

/-! ### Walk (C49) -/

/-- A user's callback that writes down what it is told. -/
def noting : Str → Details → List (Str × Details) → List (Str × Details) × Option Err :=
  fun p d l => (l ++ [(p, d)], none)

/-- What the callback does at an entry inside the package's directory. -/
theorem walkFn_inside {T : Type} (E : Env) (O : Host S) (wf : Str → Details → T → T × Option Err) {pkg : Str}
    {w : World S} (hl : ParseLaws E w.here) (hpk : PlainPkg pkg) {her : Info} {ds : List Str} (hne : ds ≠ [])
    (hd : her.dir = GoPath.mk ds) (hc : AMap.get w.infos pkg = some her) {cs : List Str} (hp : Plain (ds ++ cs))
    (n : Disk.Node) (t : T) :
    walkFn E O wf pkg (GoPath.mk (ds ++ cs)) n (w, t) =
      ((w, (wf (Path.str ⟨pkg, GoPath.mk cs⟩) (newFileInfo n.details) t).1),
        (wf (Path.str ⟨pkg, GoPath.mk cs⟩) (newFileInfo n.details) t).2) := by
  obtain ⟨m, hm⟩ := hl.qualifiedPkg pkg (ds ++ cs) hpk hp
  have hname : Path.str ⟨pkg, Str.replaceByte (Str.trimPrefix (GoPath.mk (ds ++ cs)) her.dir) Str.backslash Str.slash⟩ =
      Path.str ⟨pkg, GoPath.mk cs⟩ := by
    rw [hd, trimPrefix_relName hne]
    unfold relName
    by_cases h : cs = []
    · subst h; rfl
    · rw [if_neg h, Str.replaceByte_of_notMem]
      intro hm
      have := (plain_append.mp hp).2
      unfold GoPath.mk at hm
      rcases List.mem_cons.mp hm with hm | hm
      · revert hm; decide
      · rcases HereParse.mem_joinSlash hm with hm | ⟨e, he, hm⟩
        · revert hm; decide
        · exact (this e he).2.2.1 hm
  simp only [walkFn, parse, hm, info_of_cached hc]
  rw [hname]

/-- Everything a walk reports when the user's callback never objects. -/
theorem walk_reports (E : Env) (O : Host S) {w w1 : World S} {name : Str} {pt : Path} {her : Info} {ds cs : List Str}
    {h : S} {n : Disk.Node} (hl : ParseLaws E w.here) (hloc : locate E O w name = (w1, .ok (pt, her)))
    (hpk : PlainPkg pt.pkg) (hne : ds ≠ []) (hd : her.dir = GoPath.mk ds) (hn : pt.name = GoPath.mk cs)
    (hp : ∀ e ∈ tree n, Plain (ds ++ cs ++ e.1)) (ht : O.tree (GoPath.mk (ds ++ cs)) w1.host = (h, .ok n)) :
    walk E O w name noting [] = ({ w1 with host := h },
      (tree n).map fun e => (Path.str ⟨pt.pkg, GoPath.mk (cs ++ e.1)⟩, newFileInfo e.2.details), none) := by
  obtain ⟨hp0, hi⟩ := locate_ok hloc
  have hcache := info_cached hi
  have hh : w1.here = w.here := by have := info_here (O := O) w pt.pkg; rw [hi] at this; exact this
  have hroot : Plain (ds ++ cs) := by
    have : ([], n) ∈ tree n := by cases n <;> simp [tree]
    simpa using hp _ this
  have hg := plain_append.mp hroot
  have hfp : GoPath.join2 her.dir pt.name = GoPath.mk (ds ++ cs) := by
    rw [hd, hn, GoPath.join2_mk hg.1.good hg.2.good]
  have hvis : Disk.visits (fun _ => false) (GoPath.mk (ds ++ cs)) n =
      (tree n).map fun e => (GoPath.mk (ds ++ (cs ++ e.1)), e.2) := by
    rw [Disk.visits_tree]
    apply List.map_congr_left
    intro e he
    rw [Disk.joinAll_mk hroot.good (plain_append.mp (hp e he)).2.good, List.append_assoc]
  let cb : Disk.WalkFn (World S × List (Str × Details)) := walkFn E O noting pt.pkg
  have hcb : ∀ r n' t, Plain (ds ++ r) → cb (GoPath.mk (ds ++ r)) n' ({ w1 with host := h }, t) =
      (({ w1 with host := h }, t ++ [(Path.str ⟨pt.pkg, GoPath.mk r⟩, newFileInfo n'.details)]), none) := by
    intro r n' t hr
    exact walkFn_inside E O noting (w := { w1 with host := h }) (by rw [hh]; exact hl) hpk hne hd hcache hr n' t
  have hb : Disk.Behaves cb (fun _ => false) (fun s => s.1 = { w1 with host := h })
      (fun e => ∃ r, Plain (ds ++ r) ∧ e.1 = GoPath.mk (ds ++ r)) := by
    constructor
    · rintro p n' ⟨w', t⟩ hs ⟨r, hr, rfl⟩
      simp only at hs
      subst hs
      rw [hcb r n' t hr]
      simp
    · rintro p n' ⟨w', t⟩ hs ⟨r, hr, rfl⟩
      simp only at hs
      subst hs
      rw [hcb r n' t hr]
  have hw := Disk.walk_visits hb (GoPath.mk (ds ++ cs)) n ({ w1 with host := h }, []) rfl (by
    rw [hvis]
    intro e he
    obtain ⟨x, hx, rfl⟩ := List.mem_map.mp he
    exact ⟨cs ++ x.1, by have := hp x hx; rwa [List.append_assoc] at this, rfl⟩)
  have hrun : ∀ (l : List (List Str × Disk.Node)) (t : List (Str × Details)), (∀ e ∈ l, Plain (ds ++ cs ++ e.1)) →
      Disk.runCb cb (l.map fun e => (GoPath.mk (ds ++ (cs ++ e.1)), e.2)) ({ w1 with host := h }, t) =
        ({ w1 with host := h },
          t ++ l.map fun e => (Path.str ⟨pt.pkg, GoPath.mk (cs ++ e.1)⟩, newFileInfo e.2.details)) := by
    intro l
    induction l with
    | nil => intro t _; simp [Disk.runCb]
    | cons e l ih =>
      intro t hpl
      have h1 := hcb (cs ++ e.1) e.2 t (by have := hpl e (by simp); rwa [List.append_assoc] at this)
      have := ih (t ++ [(Path.str ⟨pt.pkg, GoPath.mk (cs ++ e.1)⟩, newFileInfo e.2.details)])
        (fun x hx => hpl x (by simp [hx]))
      simp only [Disk.runCb, List.map_cons, List.foldl_cons] at this ⊢
      rw [h1]
      simp only
      rw [this]
      simp
  simp only [walk, hloc, hfp, ht]
  rw [hw, hvis, hrun _ _ hp]
  simp

/-- **C49**, as stated: if the walk reports the string `s` for the entry found at `mk (ds ++ cs ++ rel)`, then `Open` and
`Stat` of `s` go to exactly that place - for a tree of plain names. -/
def C49_statement (E : Env) : Prop :=
  ∀ (S : Type) (O : Host S) (w w1 : World S) (name : Str) (pt : Path) (her : Info) (ds cs : List Str) (h : S)
    (n : Disk.Node), ParseLaws E w.here → locate E O w name = (w1, .ok (pt, her)) → PlainPkg pt.pkg → ds ≠ [] →
    her.dir = GoPath.mk ds → pt.name = GoPath.mk cs → (∀ e ∈ tree n, Plain (ds ++ cs ++ e.1)) → n.WF →
    O.tree (GoPath.mk (ds ++ cs)) w1.host = (h, .ok n) →
    ∀ (k : Nat) (e : List Str × Disk.Node) (s : Str) (d : Details), (tree n)[k]? = some e →
      (walk E O w name noting []).2.1[k]? = some (s, d) →
      ∀ q, E.parse w.here s = .ok q → q.pkg = pt.pkg ∧ GoPath.join2 her.dir q.name = GoPath.mk (ds ++ cs ++ e.1)

/-- **C49 is false** (with `Parse` as reconstructed, which strips the package's own directory from the front of a name):
the file `src/app/x` inside the package in directory `/src/app` is reported as `app:/src/app/x`, which opens the file
`x` at the top. -/
theorem C49_refuted : ¬ C49_statement Demo.env := by
  intro h
  have := h Unit Demo.host (new Demo.info ()) (new Demo.info ()) (b! "/") ⟨b! "app", b! "/"⟩ Demo.info
    [b! "src", b! "app"] [] ()
    (.dir ⟨b! "d", 0, 0o755, 4, true⟩ [(b! "src", .dir ⟨b! "src", 0, 0o755, 4, true⟩
      [(b! "app", .dir ⟨b! "app", 0, 0o755, 4, true⟩ [(b! "x", .file Demo.details (b! "abc"))])])])
    Demo.laws rfl (by decide) (by decide) (by decide) (by decide) (by
      intro e he
      simp only [tree, Disk.Node.treeKids, List.map_cons, List.map_nil, List.mem_cons, List.append_nil,
        List.not_mem_nil, or_false] at he
      rcases he with rfl | rfl | rfl | rfl <;> decide) (by decide +kernel) rfl 3
    ([b! "src", b! "app", b! "x"], .file Demo.details (b! "abc")) (b! "app:/src/app/x") Demo.details rfl
    (by decide +kernel) ⟨b! "app", b! "/x"⟩ (by decide +kernel)
  revert this
  decide +kernel

/-- **C49** (what holds). A walk over a tree of plain names, by a callback that never objects, reports every entry once,
in lexical order, each with its details; and for every entry whose name does not repeat the module's own
directory, the reported string, given back at any later time to any operation but `MkdirAll`, makes that operation
go to exactly the place on disk where the entry was found. -/
theorem C49_reports_partial (E : Env) (O : Host S) {w w1 : World (S × List Str)} {name : Str} {pt : Path} {her : Info}
    {ds cs : List Str} {h : S × List Str} {n : Disk.Node} (hl : ParseLaws E w.here)
    (hloc : locate E (O.watched .paths) w name = (w1, .ok (pt, her))) (hpk : PlainPkg pt.pkg) (hne : ds ≠ [])
    (hd : her.dir = GoPath.mk ds) (hn : pt.name = GoPath.mk cs) (hp : ∀ e ∈ tree n, Plain (ds ++ cs ++ e.1))
    (ht : (O.watched .paths).tree (GoPath.mk (ds ++ cs)) w1.host = (h, .ok n)) :
    (walk E (O.watched .paths) w name noting []).2 =
      ((tree n).map (fun e => (Path.str ⟨pt.pkg, GoPath.mk (cs ++ e.1)⟩, e.2.details)), none) ∧
    ∀ e ∈ tree n, Clear w.here (GoPath.mk (cs ++ e.1)) → ∀ (files : List File) (ops : List Op) (k : Kind),
      (∀ m, k ≠ .mkdirAll m) →
      let w3 := (run E (O.watched .paths) ⟨(walk E (O.watched .paths) w name noting []).1, files⟩ ops).world
      handed (access E (O.watched .paths) w3 (Path.str ⟨pt.pkg, GoPath.mk (cs ++ e.1)⟩) k) =
        handed w3 ++ [GoPath.mk (ds ++ cs ++ e.1)] := by
  have hw := walk_reports E (O.watched .paths) hl hloc hpk hne hd hn hp ht
  refine ⟨by rw [hw]; rfl, ?_⟩
  intro e he hc files ops k hk
  obtain ⟨hp0, hi⟩ := locate_ok hloc
  have hcache := info_cached hi
  have hh : w1.here = w.here := by have := info_here (O := O.watched .paths) w pt.pkg; rw [hi] at this; exact this
  rw [hw]
  simp only
  have hh3 := run_here E (O.watched .paths) ⟨{ w1 with host := h }, files⟩ ops
  have hc3 := run_cached E (O.watched .paths) ⟨{ w1 with host := h }, files⟩ ops (p := pt.pkg) (i := her) hcache
  generalize (run E (O.watched .paths) ⟨{ w1 with host := h }, files⟩ ops).world = w3 at hh3 hc3
  simp only [hh] at hh3
  have hpl := hp e he
  rw [List.append_assoc] at hpl
  have hpl' := plain_append.mp hpl
  rw [qualified_str (q := ⟨pt.pkg, GoPath.mk (cs ++ e.1)⟩) hpk rfl, List.append_assoc]
  exact C48_qualified_partial E O w3 k hk (by rw [hh3]; exact hl) hpk hpl'.2 (by rw [hh3]; exact hc)
    (by rw [info_of_cached hc3]) hpl'.1.good hd

/-! Example: the tree on the demo disk, walked from `/a` of package `lib`. -/
example : (walk Demo.env (Demo.host.watched .paths) (new Demo.info ((), [])) (b! "lib:/a") noting []).2.1.map (·.1) =
    [b! "lib:/a", b! "lib:/a/src", b! "lib:/a/src/app", b! "lib:/a/src/app/x"] := by decide +kernel
example : locate Demo.env (Demo.host.watched .paths) (new Demo.info ((), [])) (b! "lib:/a") =
    ({ (new Demo.info ((), [])) with infos := [(b! "lib", Demo.libInfo), (b! "app", Demo.info)] },
      .ok (⟨b! "lib", b! "/a"⟩, Demo.libInfo)) := rfl
example : PlainPkg (b! "lib") ∧ Clear Demo.info (b! "/a/src/app/x") ∧
    Plain ([b! "src", b! "lib"] ++ [b! "a"] ++ [b! "src", b! "app", b! "x"]) := by decide +kernel

/-! ### Open handles (C50) -/

/-- The files that are open. -/
abbrev handles (w : World (S × List Nat)) : List Nat := w.host.2

theorem info_handles (O : Host S) (w : World (S × List Nat)) (p : Str) :
    handles (info (O.watched .handles) w p).1 = handles w := by
  unfold info
  split
  · rfl
  · simp only [Host.watched, Watch.handles]
    split
    · rename_i h
      split at h <;> · obtain ⟨h1, _⟩ := Prod.mk.inj h; simp only [← h1]
    · rename_i h
      split at h <;> · obtain ⟨h1, _⟩ := Prod.mk.inj h; simp only [← h1]

theorem locate_handles (E : Env) (O : Host S) (w : World (S × List Nat)) (name : Str) :
    handles (locate E (O.watched .handles) w name).1 = handles w := by
  rcases locate_world (E := E) (O := O.watched .handles) w name with e | ⟨p, e⟩
  · rw [e]
  · rw [e]; exact info_handles O w p

theorem wrapFile_handles (O : Host S) (w : World (S × List Nat)) (pt : Path) (her : Info) (fd : Nat) :
    handles (wrapFile (O.watched .handles) w pt her fd).1 = handles w ∧
    ∀ f, (wrapFile (O.watched .handles) w pt her fd).2 = .ok f → f.fd = fd := by
  unfold wrapFile
  generalize hm : (O.watched .handles).fstat fd w.host = m
  simp only [Host.watched, Watch.handles] at hm
  obtain ⟨h', r⟩ := m
  obtain ⟨rfl, rfl⟩ := Prod.mk.inj hm
  split
  · rename_i h; obtain ⟨rfl, _⟩ := Prod.mk.inj h; exact ⟨rfl, by simp⟩
  · rename_i h; obtain ⟨rfl, _⟩ := Prod.mk.inj h; exact ⟨rfl, by simp⟩

/-- A successful `Open` leaves one more file open, the one it returns. -/
theorem openFile_handles (E : Env) (O : Host S) {w w' : World (S × List Nat)} {name : Str} {f : File}
    (h : openFile E (O.watched .handles) w name = (w', .ok f)) : handles w' = f.fd :: handles w := by
  have h0 := locate_handles E O w name
  unfold openFile at h
  generalize locate E (O.watched .handles) w name = m at h h0
  obtain ⟨w1, r⟩ := m
  cases r with
  | error e => exact absurd (Prod.mk.inj h).2 (by simp)
  | ok x =>
    obtain ⟨pt, her⟩ := x
    simp only at h h0
    generalize hm : (O.watched .handles).openFile (GoPath.join2 her.dir pt.name) w1.host = m at h
    simp only [Host.watched, Watch.handles] at hm
    obtain ⟨h', r⟩ := m
    split at hm
    · obtain ⟨rfl, rfl⟩ := Prod.mk.inj hm
      simp only at h
      rename_i h1 fd _
      have := wrapFile_handles O { w1 with host := (h1, fd :: w1.host.2) } pt her fd
      erw [h] at this
      rw [this.1, this.2 f rfl, ← h0]
    · obtain ⟨rfl, rfl⟩ := Prod.mk.inj hm
      exact absurd (Prod.mk.inj h).2 (by simp)

/-- A failed `Open` never closes anything. -/
theorem openFile_handles_error (E : Env) (O : Host S) {w w' : World (S × List Nat)} {name : Str} {e : Err}
    (h : openFile E (O.watched .handles) w name = (w', .error e)) :
    handles w' = handles w ∨ ∃ fd, handles w' = fd :: handles w := by
  have h0 := locate_handles E O w name
  unfold openFile at h
  generalize locate E (O.watched .handles) w name = m at h h0
  obtain ⟨w1, r⟩ := m
  cases r with
  | error e => obtain ⟨rfl, _⟩ := Prod.mk.inj h; exact Or.inl h0
  | ok x =>
    obtain ⟨pt, her⟩ := x
    simp only at h h0
    generalize hm : (O.watched .handles).openFile (GoPath.join2 her.dir pt.name) w1.host = m at h
    simp only [Host.watched, Watch.handles] at hm
    obtain ⟨h', r⟩ := m
    split at hm
    · obtain ⟨rfl, rfl⟩ := Prod.mk.inj hm
      simp only at h
      rename_i h1 fd _
      have := wrapFile_handles O { w1 with host := (h1, fd :: w1.host.2) } pt her fd
      erw [h] at this
      exact Or.inr ⟨fd, by rw [this.1, ← h0]⟩
    · obtain ⟨rfl, rfl⟩ := Prod.mk.inj hm
      obtain ⟨rfl, _⟩ := Prod.mk.inj h
      exact Or.inl h0

theorem closeFile_handles (O : Host S) (w : World (S × List Nat)) (f : File) :
    handles (closeFile (O.watched .handles) w f).1 = (handles w).erase f.fd := rfl

/-- **C50**, as stated: when `pkger.Dir(d).Open(name)` has failed, or has succeeded and the file has been closed, the open
files are the ones that were open before. -/
def C50_statement : Prop :=
  ∀ (E : Env) (S : Type) (O : Host S) (w w' : World (S × List Nat)) (d name : Str),
    (∀ e, dirOpen E (O.watched .handles) w d name = (w', .error e) → handles w' = handles w) ∧
    (∀ f, dirOpen E (O.watched .handles) w d name = (w', .ok f) →
      handles (closeFile (O.watched .handles) w' f).1 = handles w)

/-- **C50** (how it fails). Every successful `pkger.Dir(d).Open(name)` on the disk leaves exactly one file open after the
caller has closed what it got: the directory (pkger.go:34-40). -/
theorem C50_leaks_one (E : Env) (O : Host S) {w w' : World (S × List Nat)} {d name : Str} {f : File}
    (h : dirOpen E (O.watched .handles) w d name = (w', .ok f)) :
    ∃ dir w1, openFile E (O.watched .handles) w d = (w1, .ok dir) ∧
      handles (closeFile (O.watched .handles) w' f).1 = dir.fd :: handles w := by
  unfold dirOpen at h
  cases ho : openFile E (O.watched .handles) w d with
  | mk w1 r =>
    rw [ho] at h
    cases r with
    | error e => exact absurd (Prod.mk.inj h).2 (by simp)
    | ok dir =>
      refine ⟨dir, w1, rfl, ?_⟩
      have h1 := openFile_handles E O ho
      have h2 := openFile_handles E O (show openFile E _ w1 _ = (w', .ok f) from h)
      rw [closeFile_handles, h2, List.erase_cons_head, h1]

/-- **C50 is false.** -/
theorem C50_refuted : ¬ C50_statement := by
  intro h
  obtain ⟨f, hf⟩ : ∃ f, (dirOpen Demo.env (Demo.host.watched .handles) (new Demo.info ((), [])) (b! "/public")
      (b! "/index.html")).2 = .ok f := ⟨_, rfl⟩
  have h1 := Prod.ext (x := dirOpen Demo.env (Demo.host.watched .handles) (new Demo.info ((), [])) (b! "/public")
      (b! "/index.html")) (y := (_, .ok f)) rfl hf
  obtain ⟨dir, w1, _, h2⟩ := C50_leaks_one Demo.env Demo.host h1
  rw [(h Demo.env Unit Demo.host _ _ _ _).2 f h1] at h2
  exact absurd (congrArg List.length h2) (by simp)

/-- A server answering requests, each for a file of the directory `d`: it opens it and closes it again. -/
def serveAll (E : Env) (O : Host S) (d : Str) (w : World S) (names : List Str) : World S :=
  names.foldl (fun w name =>
    match dirOpen E O w d name with
    | (w', .error _) => w'
    | (w', .ok f) => (closeFile O w' f).1) w

/-- The number of requests that were answered. -/
def answered (E : Env) (O : Host S) (d : Str) : World S → List Str → Nat
  | _, [] => 0
  | w, name :: names =>
    match dirOpen E O w d name with
    | (w', .error _) => answered E O d w' names
    | (w', .ok f) => answered E O d (closeFile O w' f).1 names + 1

/-- **C50** (how it fails over time). The number of open files grows with every request answered. -/
theorem C50_leaks_grow (E : Env) (O : Host S) (d : Str) (names : List Str) : ∀ w : World (S × List Nat),
    (handles w).length + answered E (O.watched .handles) d w names ≤
      (handles (serveAll E (O.watched .handles) d w names)).length := by
  induction names with
  | nil => intro w; simp [answered, serveAll]
  | cons name names ih =>
    intro w
    simp only [answered, serveAll, List.foldl_cons]
    cases hd : dirOpen E (O.watched .handles) w d name with
    | mk w' r =>
      cases r with
      | error e =>
        refine Nat.le_trans (Nat.add_le_add_right ?_ _) (ih w')
        unfold dirOpen at hd
        cases ho : openFile E (O.watched .handles) w d with
        | mk w1 r =>
          rw [ho] at hd
          cases r with
          | error e =>
            obtain ⟨rfl, _⟩ := Prod.mk.inj hd
            rcases openFile_handles_error E O ho with h | ⟨fd, h⟩ <;> rw [h] <;> simp
          | ok dir =>
            have h1 := openFile_handles E O ho
            rcases openFile_handles_error E O (show openFile E _ w1 _ = (w', .error e) from hd) with h | ⟨fd, h⟩ <;>
              rw [h, h1] <;> simp <;> omega
      | ok f =>
        have h1 := ih (closeFile (O.watched .handles) w' f).1
        obtain ⟨dir, w1, _, h2⟩ := C50_leaks_one E O hd
        rw [h2] at h1
        simp only [List.length_cons] at h1
        have : (handles w).length + (answered E (O.watched .handles) d
            (closeFile (O.watched .handles) w' f).1 names + 1) =
            (handles w).length + 1 + answered E (O.watched .handles) d
              (closeFile (O.watched .handles) w' f).1 names := by omega
        simp only [this]
        exact h1

/-- **C50** (what holds). If the directory itself cannot be found or opened, nothing stays open; and a file opened
directly with `Open` and closed leaves nothing behind. -/
theorem C50_no_dir_partial (E : Env) (O : Host S) (w : World (S × List Nat)) (d name : Str)
    (h : ∀ pt her w1, locate E (O.watched .handles) w d = (w1, .ok (pt, her)) →
      ∃ e, (O.openFile (GoPath.join2 her.dir pt.name) w1.host.1).2 = .error e) :
    ∃ e w', dirOpen E (O.watched .handles) w d name = (w', .error e) ∧ handles w' = handles w := by
  have h0 := locate_handles E O w d
  unfold dirOpen openFile
  generalize hm : locate E (O.watched .handles) w d = m at h0
  obtain ⟨w1, r⟩ := m
  cases r with
  | error e => exact ⟨e, w1, rfl, h0⟩
  | ok x =>
    obtain ⟨pt, her⟩ := x
    obtain ⟨e, he⟩ := h pt her w1 hm
    have : (O.watched .handles).openFile (GoPath.join2 her.dir pt.name) w1.host =
        (((O.openFile (GoPath.join2 her.dir pt.name) w1.host.1).1, w1.host.2), .error e) := by
      simp only [Host.watched, Watch.handles]
      generalize O.openFile (GoPath.join2 her.dir pt.name) w1.host.1 = m at he
      obtain ⟨h', r⟩ := m
      simp only at he
      subst he
      rfl
    simp only [this]
    exact ⟨e, _, rfl, h0⟩

/-- **C50** (what holds, second part): see `C50_no_dir_partial`. -/
theorem C50_open_close_partial (E : Env) (O : Host S) {w w' : World (S × List Nat)} {name : Str} {f : File}
    (h : openFile E (O.watched .handles) w name = (w', .ok f)) :
    handles (closeFile (O.watched .handles) w' f).1 = handles w := by
  rw [closeFile_handles, openFile_handles E O h, List.erase_cons_head]

/-! Example: three answered requests leave three handles of the directory `/src/app/public` (its number on the demo disk
is 15) open. -/
example : handles (serveAll Demo.env (Demo.host.watched .handles) (b! "/public") (new Demo.info ((), []))
    [b! "/a", b! "/b", b! "/a"]) = [15, 15, 15] := by decide +kernel
example : answered Demo.env (Demo.host.watched .handles) (b! "/public") (new Demo.info ((), []))
    [b! "/a", b! "/b", b! "/a"] = 3 := by decide +kernel

/-! ### Directory handles on disk (C65) -/

/-- **C65**, as stated: for a handle `f` of a directory, `f.Open(name)` goes to the directory of `f`'s package, followed by
`f`'s name, followed by the cleaned name asked for. -/
def C65_statement (E : Env) : Prop :=
  ∀ (S : Type) (O : Host S) (w : World (S × List Str)) (f : File) (name : Str) (ds cs : List Str),
    ParseLaws E w.here → AMap.get w.infos f.path.pkg = some f.her → GoPath.Good ds → f.her.dir = GoPath.mk ds →
    Plain cs → f.path.name = GoPath.mk cs → GoPath.rooted name = true →
    handed (fileOpen E (O.watched .paths) w f name).1 =
      handed w ++ [GoPath.mk (ds ++ cs ++ GoPath.rootedElems name)]

/-- A program with a handle of `/public`, in the module (`f`) and in `lib` (`g`). -/
def pubFile : File := ⟨3, none, Demo.info, ⟨b! "app", b! "/public"⟩⟩
def libFile : File := ⟨4, none, Demo.libInfo, ⟨b! "lib", b! "/public"⟩⟩
def libWorld : World (Unit × List Str) := (info (Demo.host.watched .paths) (new Demo.info ((), [])) (b! "lib")).1

/-- **C65 is false**: `..` is resolved after joining (pkging/stdos/file.go:48), so a request can leave the directory. -/
theorem C65_dotdot_refuted : ¬ C65_statement Demo.env := by
  intro h
  have := h Unit Demo.host (new Demo.info ((), [])) pubFile (b! "/../secret") [b! "src", b! "app"] [b! "public"]
    Demo.laws (by decide +kernel) (by decide) (by decide) (by decide) (by decide) (by decide)
  revert this
  decide +kernel

/-- **C65** (second violation): the handle's package is dropped (pkging/stdos/file.go:48-49), so a handle of a directory of
`lib` opens the module's files instead. -/
theorem C65_package_refuted :
    AMap.get libWorld.infos (b! "lib") = some Demo.libInfo ∧
    handed (fileOpen Demo.env (Demo.host.watched .paths) libWorld libFile (b! "/a")).1 = [b! "/src/app/public/a"] := by
  decide +kernel

/-- **C65** (what holds). For a handle of a directory of the current module and a clean rooted name - which is what
`net/http` asks for - `f.Open(name)` goes to exactly that place below the directory. -/
theorem C65_clean_partial (E : Env) (O : Host S) (w : World (S × List Str)) (f : File) {ds cs rel : List Str}
    (hl : ParseLaws E w.here) (hm : f.path.pkg = w.here.module.path) (hi : AMap.get w.infos f.path.pkg = some f.her)
    (hg : GoPath.Good ds) (hd : f.her.dir = GoPath.mk ds) (hn : f.path.name = GoPath.mk cs) (hp : Plain (cs ++ rel))
    (hc : Clear w.here (GoPath.mk (cs ++ rel))) :
    handed (fileOpen E (O.watched .paths) w f (GoPath.mk rel)).1 = handed w ++ [GoPath.mk (ds ++ cs ++ rel)] := by
  have hp' := plain_append.mp hp
  have hj : GoPath.join2 f.path.name (GoPath.mk rel) = GoPath.mk (cs ++ rel) := by
    rw [hn, GoPath.join2_mk hp'.1.good hp'.2.good]
  have hord : Ordinary w.here (GoPath.mk (cs ++ rel)) :=
    ordinary_mk (fun e he => ⟨(hp e he).1, (hp e he).2.1, (hp e he).2.2.1, (hp e he).2.2.2.2⟩) hc
  have := C48_inside_partial E O w (GoPath.mk (cs ++ rel)) .openFile (by intro m h; cases h) hl hord (her := f.her)
    (by rw [← hm, info_of_cached hi]) hg hd
  rw [GoPath.rootedElems_mk hp.good] at this
  unfold fileOpen
  rw [hj, List.append_assoc]
  exact this

example : handed (fileOpen Demo.env (Demo.host.watched .paths) (new Demo.info ((), [])) pubFile (b! "/a/b")).1 =
    [b! "/src/app/public/a/b"] := by decide +kernel
example : pubFile.path.pkg = Demo.info.module.path ∧ Plain ([b! "public"] ++ [b! "a", b! "b"]) ∧
    Clear Demo.info (b! "/public/a/b") := by decide +kernel

end Props
end Verif
