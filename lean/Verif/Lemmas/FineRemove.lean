import Verif.Lemmas.FineWrite

/-! Which entries a goroutine stores and deletes, and removing while others are at work. -/

namespace Verif
namespace Fine

open Mem Code

/-- The access stores an entry at `q`. -/
def Acc.Stores : {β : Type} → Acc β → Path → Prop
  | _, .store k _, q => k = q
  | _, _, _ => False

/-- The access deletes the entry at `q`. -/
def Acc.Deletes : {β : Type} → Acc β → Path → Prop
  | _, .delete k, q => k = q
  | _, _, _ => False

/-- The code stores entries at the paths `St` and deletes entries at the paths `De` only. -/
def Code.Within (St De : Path → Prop) : {α : Type} → Code α → Prop
  | _, .ret _ => True
  | _, .acc a k => (∀ q, a.Stores q → St q) ∧ (∀ q, a.Deletes q → De q) ∧ ∀ r, (k r).Within St De
  | _, .range _ body k => (∀ p, (body p).Within St De) ∧ ∀ l, (k l).Within St De

variable {St De : Path → Prop} {α β : Type}

theorem Code.Within.mono {St' De' : Path → Prop} (h1 : ∀ q, St q → St' q) (h2 : ∀ q, De q → De' q) {c : Code α}
    (h : c.Within St De) : c.Within St' De' := by
  induction c with
  | ret a => trivial
  | acc a k ih => exact ⟨fun q hq => h1 q (h.1 q hq), fun q hq => h2 q (h.2.1 q hq), fun r => ih r (h.2.2 r)⟩
  | range st body k ihb ih => exact ⟨fun p => ihb p (h.1 p), fun l => ih l (h.2 l)⟩

theorem Code.Within.bind {c : Code α} {f : α → Code β} (h : c.Within St De) (hf : ∀ a, (f a).Within St De) :
    (c.bind f).Within St De := by
  induction c with
  | ret a => exact hf a
  | acc a k ih => exact ⟨h.1, h.2.1, fun r => ih r (h.2.2 r) hf⟩
  | range st body k _ ih => exact ⟨h.1, fun l => ih l (h.2 l) hf⟩

/-- An access that neither stores nor deletes. -/
theorem within_look {a : Acc β} {k : β → Code α} (h1 : ∀ q, ¬ a.Stores q) (h2 : ∀ q, ¬ a.Deletes q)
    (h : ∀ r, (k r).Within St De) : (Code.acc a k).Within St De :=
  ⟨fun q hq => absurd hq (h1 q), fun q hq => absurd hq (h2 q), h⟩

/-- Neither stores nor deletes. -/
local macro "look" : tactic => `(tactic| (refine within_look (fun _ h => h) (fun _ h => h) fun r => ?_))

theorem within_open (E : Env) (here : Info) (name : Str) : (openC E here name).Within St De := by
  unfold openC
  split
  · trivial
  · look
    split
    · trivial
    · look
      split
      · trivial
      · look; look; trivial

theorem within_fileStat (id : Nat) : (fileStatC id).Within St De := by
  unfold fileStatC
  look
  split
  · trivial
  · look
    split <;> trivial

theorem within_fileName (id : Nat) : (fileNameC id).Within St De := by
  unfold fileNameC
  look
  trivial

theorem within_stat (E : Env) (here : Info) (name : Str) : (statC E here name).Within St De := by
  unfold statC
  split
  · trivial
  · look
    split
    · exact within_fileStat _
    · trivial

theorem within_walkLoop {T : Type} (cb : Str → Details → T → T × Option Err) (root : Path) (ks : List Path) :
    ∀ (skip : Str) (s : T), (walkLoopC cb root ks skip s).Within St De := by
  induction ks with
  | nil => exact fun _ _ => trivial
  | cons k ks ih =>
    intro skip s
    simp only [walkLoopC]
    split
    · exact ih _ _
    · split
      · exact ih _ _
      · split
        · exact ih _ _
        · look
          split
          · trivial
          · refine (within_fileStat _).bind fun r => ?_
            split
            · trivial
            · trivial
            · split
              · exact ih _ _
              · exact ih _ _
              · trivial

theorem within_walk {T : Type} (E : Env) (here : Info) (cb : Str → Details → T → T × Option Err) (s : T) (p : Str) :
    (walkC E here cb s p).Within St De := by
  unfold walkC keysC
  refine Code.Within.bind ⟨fun _ => trivial, fun _ => trivial⟩ fun ks => ?_
  split
  · trivial
  · exact within_walkLoop cb _ _ _ _

theorem within_readdir (E : Env) (here : Info) (id : Nat) (count : Int) : (readdirC E here id count).Within St De := by
  unfold readdirC
  look
  split
  · trivial
  · refine (within_walk E here _ _ _).bind fun r => ?_
    obtain ⟨infos, r⟩ := r
    simp only
    split
    · trivial
    · trivial
    · split
      · trivial
      · split <;> trivial

theorem within_ensure {id : Nat} {k : FileObj → Code α} (h : ∀ f, (k f).Within St De) : (ensureReaderC id k).Within St De := by
  unfold ensureReaderC
  look
  split
  · look; look; exact h _
  · look; exact h _

theorem within_read (id n : Nat) : (readC id n).Within St De := by
  refine within_ensure fun f => ?_
  split
  · look; trivial
  · trivial

theorem within_seek (id : Nat) (off whence : Int) : (seekC id off whence).Within St De := by
  refine within_ensure fun f => ?_
  split
  · look; trivial
  · trivial

theorem within_closed (id : Nat) (a : α) : (closedC id a).Within St De := by
  unfold closedC
  look; look; trivial

theorem within_close (id : Nat) : (closeC id).Within St De := by
  unfold closeC
  look
  split
  · exact within_closed _ _
  · look; look
    split
    · exact within_closed _ _
    · look; look; look
      exact within_closed _ _

theorem within_fileOpen (E : Env) (here : Info) (id : Nat) (name : Str) : (fileOpenC E here id name).Within St De := by
  unfold fileOpenC
  look
  split
  · trivial
  · split
    · trivial
    · split
      · trivial
      · refine (within_open E here _).bind fun r => ?_
        split
        · trivial
        · trivial
        · refine (within_fileStat _).bind fun r => ?_
          split
          · trivial
          · trivial
          · split
            · look; look; trivial
            · trivial

theorem within_mkdirAllF (E : Env) (here : Info) (n : Nat) : ∀ (s : Str) (perm : Nat),
    (mkdirAllFC E here n s perm).Within (Makes E here s) De := by
  induction n with
  | zero => exact fun _ _ => trivial
  | succ n ih =>
    intro s perm
    simp only [mkdirAllFC]
    split
    · trivial
    · rename_i pt hpt
      refine Code.Within.bind ?_ fun r => ?_
      · split
        · rename_i hd
          exact (ih _ _).mono (fun q hq => .above hpt hd hq) fun _ h => h
        · trivial
      · split
        · trivial
        · trivial
        · look; look
          exact ⟨fun q hq => by cases hq; exact .self hpt, fun _ h => h.elim, fun _ => trivial⟩

theorem within_info (p : Str) : (infoC p).Within St De := by
  unfold infoC
  look
  split <;> trivial

theorem within_create (E : Env) (here : Info) (name : Str) :
    (createC E here name).Within (fun q => Makes E here GoPath.rootS q ∨ E.parse here name = .ok q) De := by
  unfold createC
  refine ((within_mkdirAllF E here _ _ _).mono (fun q hq => Or.inl hq) fun _ h => h).bind fun r => ?_
  split
  · trivial
  · split
    · trivial
    · rename_i pt hpt
      refine (within_info _).bind fun r => ?_
      split
      · trivial
      · trivial
      · refine Code.Within.bind ?_ fun r => ?_
        · split
          · exact within_stat _ _ _
          · trivial
        · split
          · trivial
          · trivial
          · look; look
            exact ⟨fun q hq => by cases hq; exact Or.inr hpt, fun _ h => h.elim, fun _ => trivial⟩

theorem within_handle {hs : List Nat} {k : Nat} {f : Nat → Code (List Nat × Client.Ans)} (h : ∀ id, (f id).Within St De) :
    (withHandleC hs k f).Within St De := by
  unfold withHandleC
  split
  · trivial
  · exact h _

theorem within_obtained {hs : List Nat} {c : Code (Res Nat)} (h : c.Within St De) : (obtainedC hs c).Within St De := by
  refine h.bind fun r => ?_
  split <;> trivial

theorem within_reads (E : Env) (here : Info) (hs : List Nat) (c : Client.Call) : (readsC E here hs c).Within St De := by
  cases c with
  | openFile name => exact within_obtained (within_open E here name)
  | openIn k name => exact within_handle fun id => within_obtained (within_fileOpen E here id name)
  | stat name => exact (within_stat E here name).bind fun _ => trivial
  | fileStat k => exact within_handle fun id => (within_fileStat id).bind fun _ => trivial
  | readdir k count => exact within_handle fun id => (within_readdir E here id count).bind fun _ => trivial
  | read k n => exact within_handle fun id => (within_read id n).bind fun _ => trivial
  | seek k off whence => exact within_handle fun id => (within_seek id off whence).bind fun _ => trivial
  | close k => exact within_handle fun id => (within_close id).bind fun _ => trivial
  | walk p => exact (within_walk E here _ _ _).bind fun _ => trivial
  | fileName k => exact within_handle fun id => (within_fileName id).bind fun _ => trivial

theorem within_remove (E : Env) (here : Info) (name : Str) :
    (removeC E here name).Within St (fun q => E.parse here name = .ok q) := by
  unfold removeC
  split
  · trivial
  · rename_i pt hpt
    look
    split
    · trivial
    · exact ⟨fun _ h => h.elim, fun q hq => by cases hq; exact hpt, fun _ => trivial⟩

theorem within_removeAll (E : Env) (here : Info) (name : Str) :
    (removeAllC E here name).Within St (fun q => ∃ pt, E.parse here name = .ok pt ∧ Str.hasPrefix q.name pt.name = true) := by
  unfold removeAllC
  split
  · trivial
  · rename_i pt hpt
    refine ⟨fun p => ?_, fun _ => trivial⟩
    simp only
    split
    · rename_i hpre
      exact ⟨fun _ h => h.elim, fun q hq => by cases hq; exact ⟨pt, hpt, hpre⟩, fun _ => trivial⟩
    · trivial

/-- A call stores and deletes only what it says. -/
theorem within_call (E : Env) (here : Info) (hs : List Nat) (c : Call) :
    (callC E here hs c).Within (c.Stores E here) (c.Deletes E here) := by
  cases c with
  | reads c => exact (within_reads E here hs c).bind fun _ => trivial
  | create name => exact (within_obtained (within_create E here name)).bind fun _ => trivial
  | write k b =>
    simp only [callC]
    split
    · trivial
    · refine Code.Within.bind ?_ fun _ => trivial
      unfold writeC
      look; look; trivial
  | mkdirAll p perm => exact (within_mkdirAllF E here _ _ _).bind fun _ => trivial
  | remove name => exact (within_remove E here name).bind fun _ => trivial
  | removeAll name => exact (within_removeAll E here name).bind fun _ => trivial

theorem within_prog (E : Env) (here : Info) : ∀ (c : Prog α) (hs : List Nat),
    (c.All fun c => (∀ q, c.Stores E here q → St q) ∧ ∀ q, c.Deletes E here q → De q) → (c.code E here hs).Within St De
  | .ret _, _, _ => trivial
  | .step c k, hs, h => ((within_call E here hs c).mono h.1.1 h.1.2).bind fun r => within_prog E here (k r.2) r.1 (h.2 r.2)

/-! ### A path nobody stores -/

/-- What is deleted is not there. -/
def Gone (q : Path) (g : Glob) : Prop := q ∈ g.gone → AMap.get g.w.files q = none

/-- The entry `q` does not come back. -/
structure NoMore (q : Path) (g g' : Glob) : Prop where
  absent : AMap.get g.w.files q = none → AMap.get g'.w.files q = none
  gone : Gone q g → Gone q g'

theorem NoMore.ticks {q : Path} {g g' : Glob} (h : Ticks g g') : NoMore q g g' := by
  obtain ⟨now, rfl⟩ := h
  exact ⟨fun h => h, fun h => h⟩

theorem NoMore.acc {q : Path} {t : Nat} {a : Acc β} (h : ¬ a.Stores q) (g : Glob) : NoMore q g (a.run t g).1 := by
  cases a with
  | store k id =>
    have he : q ≠ k := fun e => h e.symm
    have : AMap.get (AMap.set g.w.files k id) q = AMap.get g.w.files q := AMap.get_set_ne _ _ he
    exact ⟨fun h => this.trans h, fun h hq => this.trans (h hq)⟩
  | delete k =>
    by_cases he : q = k
    · subst he
      have : AMap.get (AMap.erase g.w.files q) q = none := by rw [AMap.get_erase, if_pos rfl]
      exact ⟨fun _ => this, fun _ _ => this⟩
    · have : AMap.get (AMap.erase g.w.files k) q = AMap.get g.w.files q := AMap.get_erase_ne _ he
      refine ⟨fun h => this.trans h, fun h hq => this.trans (h ?_)⟩
      rcases List.mem_append.mp hq with hq | hq
      · exact hq
      · simp at hq; exact absurd hq he
  | load k => exact ⟨fun h => h, fun h => h⟩
  | loadInfo p => exact ⟨fun h => h, fun h => h⟩
  | alloc f => exact ⟨fun h => h, fun h => h⟩
  | get id => exact ⟨fun h => h, fun h => h⟩
  | setReader id r => exact ⟨fun h => h, fun h => h⟩
  | setWriter id b => exact ⟨fun h => h, fun h => h⟩
  | setData id b => exact ⟨fun h => h, fun h => h⟩
  | setSize id n => exact ⟨fun h => h, fun h => h⟩
  | setModTime id n => exact ⟨fun h => h, fun h => h⟩
  | now => exact ⟨fun h => h, fun h => h⟩

/-- Not there, and not to come back. -/
def Absent (q : Path) (g : Glob) : Prop := AMap.get g.w.files q = none ∧ Gone q g

theorem Absent.stable (q : Path) : Stable (NoMore q) (Absent q) := fun _ _ h hr => ⟨hr.absent h.1, hr.gone h.2⟩

theorem Gone.stable (q : Path) : Stable (NoMore q) (Gone q) := fun _ _ h hr => hr.gone h

/-- Code that does not store `q` keeps what is stable. -/
theorem within_safe {q : Path} (hq : ¬ St q) {t : Nat} {P : Glob → Prop} (hP : Stable (NoMore q) P) {c : Code α}
    (h : c.Within St De) : Safe t (NoMore q) (Any (NoMore q)) c P (fun _ => P) := by
  induction c with
  | ret a => exact fun g hg => hg
  | acc a k ih =>
    refine ⟨fun _ => P, fun _ => hP, fun g hg => ?_, fun r => ih r (h.2.2 r)⟩
    have := NoMore.acc (t := t) (fun hs => hq (h.1 q hs)) g
    exact ⟨this, hP g _ hg this⟩
  | range st body k ihb ih =>
    exact ⟨fun _ => P, fun _ _ => P, fun _ => P, fun _ => hP, fun _ _ => hP, fun _ => hP, fun _ h => h,
      fun _ _ _ h _ => h, fun _ p => ihb p (h.1 p), fun _ _ h _ => h, fun l => ih l (h.2 l)⟩

/-- After `RemoveAll` a path below the one named is not there. -/
theorem removeAll_safe (E : Env) (here : Info) {name : Str} {pt q : Path} (hp : E.parse here name = .ok pt)
    (hpre : Str.hasPrefix q.name pt.name = true) {t : Nat} :
    Safe t (NoMore q) (Any (NoMore q)) (removeAllC E here name) (Gone q) (fun r g => r = .ok () ∧ Absent q g) := by
  unfold removeAllC
  rw [hp]
  refine ⟨fun st g => Gone q g ∧ (q ∈ st.start ∧ q ∉ st.seen ∨ Absent q g), fun st p g => Gone q g ∧ (q ∈ st.start ∧ q ∉ st.seen ∨ Absent q g),
    fun _ => Absent q, ?_, ?_, fun _ => Absent.stable q, ?_, ?_, ?_, ?_, ?_⟩
  · exact fun st g g' h hr => ⟨hr.gone h.1, h.2.imp (fun h => h) fun h => Absent.stable q g g' h hr⟩
  · exact fun st p g g' h hr => ⟨hr.gone h.1, h.2.imp (fun h => h) fun h => Absent.stable q g g' h hr⟩
  · intro g hg
    refine ⟨hg, ?_⟩
    by_cases h : q ∈ AMap.keys g.w.files
    · exact Or.inl ⟨h, fun h => (by cases h)⟩
    · refine Or.inr ⟨?_, hg⟩
      cases e : AMap.get g.w.files q with
      | none => rfl
      | some id => exact absurd ((AMap.mem_keys_iff _ _).mpr ⟨id, e⟩) h
  · exact fun st p g h _ => h
  · intro st p
    by_cases he : p = q
    · subst he
      simp only [if_pos hpre]
      refine ⟨fun _ => Absent p, fun _ => Absent.stable p, ?_, fun _ g h => ⟨h.2, Or.inr h⟩⟩
      intro g hg
      have := NoMore.acc (t := t) (a := .delete p) (q := p) (fun h => h) g
      refine ⟨this, ?_, this.gone hg.1⟩
      show AMap.get (AMap.erase g.w.files p) p = none
      rw [AMap.get_erase, if_pos rfl]
    · have hmem : ∀ {g : Glob}, (Gone q g ∧ (q ∈ st.start ∧ q ∉ st.seen ∨ Absent q g)) →
          Gone q g ∧ (q ∈ st.start ∧ q ∉ st.seen ++ [p] ∨ Absent q g) := by
        rintro g ⟨h1, h2⟩
        refine ⟨h1, h2.imp (fun h => ⟨h.1, ?_⟩) fun h => h⟩
        intro hm
        rcases List.mem_append.mp hm with hm | hm
        · exact h.2 hm
        · simp at hm; exact he hm.symm
      have hst : Stable (NoMore q) (fun g => Gone q g ∧ (q ∈ st.start ∧ q ∉ st.seen ∨ Absent q g)) := fun g g' h hr =>
        ⟨hr.gone h.1, h.2.imp (fun h => h) fun h => Absent.stable q g g' h hr⟩
      refine (within_safe (St := fun _ => False) (De := fun _ => True) (fun h => h) hst ?_).mono (fun _ h => h) fun _ g h => hmem h
      simp only
      split
      · exact ⟨fun _ h => h, fun _ _ => trivial, fun _ => trivial⟩
      · trivial
  · intro st g h he
    rcases h.2 with h2 | h2
    · rcases he q h2.1 with h3 | h3
      · exact absurd h3 h2.2
      · exact ⟨h.1 (List.mem_of_mem_drop h3), h.1⟩
    · exact h2
  · exact fun l g h => ⟨rfl, h⟩

/-- After `Remove` the path is not there. -/
theorem remove_safe (E : Env) (here : Info) {name : Str} {q : Path} (hp : E.parse here name = .ok q) {t : Nat} :
    Safe t (NoMore q) (Any (NoMore q)) (removeC E here name) (Gone q)
      (fun r g => (r = .ok () ∨ r = .err (.pathError .noSuchFile)) ∧ Absent q g) := by
  unfold removeC
  rw [hp]
  refine ⟨fun r g => Gone q g ∧ (r = none → Absent q g), ?_, ?_, ?_⟩
  · exact fun r g g' h hr => ⟨hr.gone h.1, fun e => Absent.stable q g g' (h.2 e) hr⟩
  · exact fun g hg => ⟨NoMore.acc (a := .load q) (fun h => h) g, hg, fun e => ⟨e, hg⟩⟩
  · intro r
    cases r with
    | none => exact fun g h => ⟨Or.inr rfl, h.2 rfl⟩
    | some id =>
      refine ⟨fun _ => Absent q, fun _ => Absent.stable q, ?_, fun _ g h => ⟨Or.inl rfl, h⟩⟩
      intro g hg
      have := NoMore.acc (t := t) (a := .delete q) (q := q) (fun h => h) g
      refine ⟨this, ?_, this.gone hg.1⟩
      show AMap.get (AMap.erase g.w.files q) q = none
      rw [AMap.get_erase, if_pos rfl]

end Fine
end Verif
