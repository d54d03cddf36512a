import Verif.Model.Http
import Verif.Lemmas.Client
import Verif.Props.FileOpen
import Verif.Props.Read

/-! How the file server's programs run. -/

namespace Verif
namespace Http

open Mem Client Spec Props

/-! ### Single calls -/

theorem exec_read (E : Env) {w : World} {hs : List Nat} {k id : Nat} (h : hs[k]? = some id) (n : Nat) :
    (Client.read k n).exec E w hs = ((Mem.read w id n).1, hs, ((Mem.read w id n).2.1, (Mem.read w id n).2.2)) := by
  simp [Client.read, Prog.exec, call, withHandle, h]

theorem exec_seekStart (E : Env) {w : World} {hs : List Nat} {k id : Nat} (h : hs[k]? = some id) (off : Int) :
    (seekStart k off).exec E w hs = ((Mem.seek w id off 0).1, hs, (Mem.seek w id off 0).2.2) := by
  simp [seekStart, Prog.exec, call, withHandle, h]

theorem exec_stat (E : Env) {w : World} {hs : List Nat} {k id : Nat} (h : hs[k]? = some id) {d : Details}
    (hd : (w.heap id).info = some d) : (Client.stat k).exec E w hs = (w, hs, .ok d) := by
  simp [Client.stat, Prog.exec, call, withHandle, h, detailsOf, hd]

theorem exec_readdir (E : Env) {w : World} {hs : List Nat} {k id : Nat} (h : hs[k]? = some id) (n : Int) :
    (Client.readdir k n).exec E w hs = (w, hs, Mem.readdir E w id n) := by
  simp [Client.readdir, Prog.exec, call, withHandle, h]

/-! ### Reading from a position -/

theorem read_atPos {w : World} {id : Nat} {content : Str} {pos : Int} (h : AtPos (w.heap id) content pos) (n : Nat) :
    AtPos ((Mem.read w id n).1.heap id) content (pos + (Mem.read w id n).2.1.length) ∧
      (pos < content.length → (Mem.read w id n).2.1 = (content.drop pos.toNat).take n ∧ (Mem.read w id n).2.2 = none) ∧
      (¬ pos < content.length → (Mem.read w id n).2.1 = [] ∧ (Mem.read w id n).2.2 ≠ none) := by
  by_cases hne : content = []
  · subst hne
    obtain ⟨h1, h2, h3 | h3⟩ := h
    · have he : ensureReader (w.heap id) = w.heap id := by simp [ensureReader, h3.1, h1]
      have hro : readObj (w.heap id) n = (w.heap id, [], some .unableToRead) := by
        unfold readObj
        simp only [he, h3.1]
      simp only [Mem.read, hro, setObj, upd_self, List.length_nil]
      refine ⟨⟨h1, by omega, Or.inl ⟨h3.1, by omega⟩⟩, fun hp => by simp at hp; omega, fun _ => by simp⟩
    · have he : ensureReader (w.heap id) = w.heap id := by simp [ensureReader, h3]
      have hro : readObj (w.heap id) n = ({ w.heap id with reader := some ([], pos) }, [], some .eof) := by
        unfold readObj
        have : pos ≥ 0 := h2
        simp only [he, h3, readerRead, List.length_nil]
        simp [this]
      simp only [Mem.read, hro, setObj, upd_self, List.length_nil]
      refine ⟨⟨h1, by omega, Or.inr (by simp)⟩, fun hp => by simp at hp; omega, fun _ => by simp⟩
  · obtain ⟨h1, h2⟩ := callHandle_spec hne h (.read n)
    simp only [callHandle] at h1 h2
    simp only [cursorStep] at h1 h2
    by_cases hp : pos < content.length
    · rw [if_pos hp] at h1 h2
      simp only [Out.read.injEq] at h1
      rw [h1.1, h1.2]
      exact ⟨h2, fun _ => ⟨rfl, rfl⟩, fun hn => absurd hp hn⟩
    · rw [if_neg hp] at h1 h2
      simp only [Out.read.injEq] at h1
      rw [h1.1, h1.2]
      exact ⟨by simpa using h2, fun hn => absurd hn hp, fun _ => by simp⟩

theorem seek_atPos {w : World} {id : Nat} {content : Str} {pos : Int} (h : AtPos (w.heap id) content pos) {off : Int}
    (h0 : 0 ≤ off) (hle : off ≤ content.length) :
    AtPos ((Mem.seek w id off 0).1.heap id) content off ∧ (Mem.seek w id off 0).2.2 = none := by
  by_cases hne : content = []
  · subst hne
    have hz : off = 0 := by simp at hle; omega
    subst hz
    obtain ⟨h1, h2, h3 | h3⟩ := h
    · have he : ensureReader (w.heap id) = w.heap id := by simp [ensureReader, h3.1, h1]
      have hso : seekObj (w.heap id) 0 0 = (w.heap id, 0, none) := by
        unfold seekObj
        simp only [he, h3.1]
      simp only [Mem.seek, hso, setObj, upd_self]
      exact ⟨⟨h1, Int.le_refl 0, Or.inl ⟨h3.1, rfl⟩⟩, trivial⟩
    · have he : ensureReader (w.heap id) = w.heap id := by simp [ensureReader, h3]
      have hso : seekObj (w.heap id) 0 0 = ({ w.heap id with reader := some ([], 0) }, 0, none) := by
        unfold seekObj
        simp only [he, h3]
        simp [readerSeek]
      simp only [Mem.seek, hso, setObj, upd_self]
      exact ⟨⟨h1, Int.le_refl 0, Or.inr rfl⟩, trivial⟩
  · obtain ⟨h1, h2⟩ := callHandle_spec hne h (.seek off 0)
    simp only [callHandle] at h1 h2
    simp only [cursorStep, seekTarget, if_pos h0] at h1 h2
    simp only [Out.seek.injEq] at h1
    exact ⟨h2, h1.2⟩

theorem readFull_exec (E : Env) {hs : List Nat} {k id : Nat} (hk : hs[k]? = some id) {content : Str} :
    ∀ (fuel n : Nat) {w : World} {pos : Int}, AtPos (w.heap id) content pos →
      ∃ w' b pos', (readFull k fuel n).exec E w hs = (w', hs, b) ∧ AtPos (w'.heap id) content pos'
  | 0, n, w, pos, h => ⟨w, [], pos, rfl, h⟩
  | fuel + 1, n, w, pos, h => by
    unfold readFull
    by_cases hn : n = 0
    · rw [if_pos hn]; exact ⟨w, [], pos, rfl, h⟩
    · rw [if_neg hn, Prog.exec_bind, exec_read E hk]
      obtain ⟨h1, _⟩ := read_atPos h n
      simp only
      revert h1
      generalize Mem.read w id n = m
      obtain ⟨w1, b, e⟩ := m
      intro h1
      simp only at h1 ⊢
      cases e with
      | some e => exact ⟨w1, b, _, rfl, h1⟩
      | none =>
        simp only
        obtain ⟨w2, b2, pos2, e1, e2⟩ := readFull_exec E hk fuel (n - b.length) h1
        refine ⟨w2, b ++ b2, pos2, ?_, e2⟩
        rw [Prog.exec_bind, e1]
        rfl

/-- Buffers are not empty, and not larger than what is left. -/
def Server.Ok (S : Server) : Prop := ∀ n, 0 < n → 0 < S.chunk n ∧ S.chunk n ≤ n

theorem copyN_exec (E : Env) {S : Server} (hS : S.Ok) {hs : List Nat} {k id : Nat} (hk : hs[k]? = some id)
    {content : Str} : ∀ (fuel n : Nat) {w : World} {pos : Int}, AtPos (w.heap id) content pos → n ≤ fuel →
      pos + n ≤ content.length →
      ∃ w', (copyN S k fuel n).exec E w hs = (w', hs, (content.drop pos.toNat).take n) ∧
        AtPos (w'.heap id) content (pos + n)
  | 0, n, w, pos, h, hf, _ => by
    have : n = 0 := by omega
    subst this
    exact ⟨w, by simp [copyN], by simpa using h⟩
  | fuel + 1, n, w, pos, h, hf, hle => by
    unfold copyN
    by_cases hn : n = 0
    · subst hn; rw [if_pos rfl]; exact ⟨w, by simp, by simpa using h⟩
    · rw [if_neg hn, Prog.exec_bind, exec_read E hk]
      obtain ⟨h1, h2, _⟩ := read_atPos h (S.chunk n)
      have hp0 := h.2.1
      have hp : pos < content.length := by omega
      obtain ⟨hb, he⟩ := h2 hp
      obtain ⟨c1, c2⟩ := hS n (by omega)
      simp only
      revert h1 hb he
      generalize Mem.read w id (S.chunk n) = m
      obtain ⟨w1, b, e⟩ := m
      intro h1 hb he
      simp only at h1 hb he ⊢
      subst he
      simp only
      have hbl : b.length = S.chunk n := by
        rw [hb, List.length_take, List.length_drop]
        omega
      have hpt : (pos + (b.length : Int)).toNat = pos.toNat + b.length := by omega
      obtain ⟨w2, e1, e2⟩ := copyN_exec E hS hk fuel (n - b.length) h1 (by omega) (by omega)
      refine ⟨w2, ?_, ?_⟩
      · rw [Prog.exec_bind, e1]
        simp only [Prog.exec_pure]
        have : b ++ List.take (n - b.length) (List.drop (pos + ↑b.length).toNat content) =
            List.take n (List.drop pos.toNat content) := by
          rw [hpt, ← List.drop_drop]
          have hb' : b = (content.drop pos.toNat).take b.length := by rw [hbl]; exact hb
          generalize hc : content.drop pos.toNat = c at hb'
          have hnn : n = b.length + (n - b.length) := by omega
          conv => rhs; rw [hnn, List.take_add]
          rw [← hb']
        rw [this]
      · have : pos + (b.length : Int) + ((n - b.length : Nat) : Int) = pos + n := by omega
        rw [← this]; exact e2

theorem copyParts_exec (E : Env) {S : Server} (hS : S.Ok) {hs : List Nat} {k id : Nat} (hk : hs[k]? = some id)
    {content : Str} : ∀ (rs : List (Int × Int)) {w : World} {pos : Int}, AtPos (w.heap id) content pos →
      (∀ r ∈ rs, 0 ≤ r.1 ∧ 0 ≤ r.2 ∧ r.1 + r.2 ≤ content.length) →
      ∃ w', (copyParts S k rs).exec E w hs =
        (w', hs, rs.map fun r => (r, (content.drop r.1.toNat).take r.2.toNat))
  | [], w, pos, h, _ => ⟨w, rfl⟩
  | (s, l) :: rs, w, pos, h, hr => by
    obtain ⟨r1, r2, r3⟩ := hr (s, l) (by simp)
    simp only at r1 r2 r3
    obtain ⟨h1, h2⟩ := seek_atPos h r1 (by omega)
    unfold copyParts
    rw [Prog.exec_bind, exec_seekStart E hk]
    simp only [h2]
    have hl : ((l.toNat : Nat) : Int) = l := by omega
    obtain ⟨w1, e1, e2⟩ := copyN_exec E hS hk l.toNat l.toNat h1 (Nat.le_refl _) (by omega)
    rw [Prog.exec_bind, e1]
    have hlen : ¬ ((content.drop s.toNat).take l.toNat).length < l.toNat := by
      rw [List.length_take, List.length_drop]; omega
    simp only [if_neg hlen]
    obtain ⟨w2, e3⟩ := copyParts_exec E hS hk rs e2 (fun r h' => hr r (List.mem_cons_of_mem _ h'))
    refine ⟨w2, ?_⟩
    rw [Prog.exec_bind, e3]
    rfl

/-! ### Opening -/

/-- The Pkger is as before but for new file objects. -/
structure Grows (w w' : World) : Prop where
  here : w'.here = w.here
  files : w'.files = w.files
  next : w.next ≤ w'.next
  heap : ∀ j, j < w.next → w'.heap j = w.heap j

theorem Grows.refl (w : World) : Grows w w := ⟨rfl, rfl, Nat.le_refl _, fun _ _ => rfl⟩

theorem Grows.alloc (w : World) (f : FileObj) : Grows w (Mem.alloc w f).1 :=
  ⟨rfl, rfl, Nat.le_succ _, fun j hj => by simp only [Mem.alloc]; rw [upd_ne _ _ (Nat.ne_of_lt hj)]⟩

theorem Grows.trans {w w' w'' : World} (h : Grows w w') (h' : Grows w' w'') : Grows w w'' :=
  ⟨h'.here.trans h.here, h'.files.trans h.files, Nat.le_trans h.next h'.next, fun j hj => by
    rw [h'.heap j (Nat.lt_of_lt_of_le hj h.next), h.heap j hj]⟩

theorem Grows.lookup {w w' : World} (h : Grows w w') (hwf : WF w) (q : Path) : Mem.lookup w' q = Mem.lookup w q := by
  unfold Mem.lookup
  rw [h.files]
  cases hg : AMap.get w.files q with
  | none => rfl
  | some id => simp only [Option.map_some, h.heap id (hwf.bound q id hg).1]

theorem Grows.stored {w w' : World} (h : Grows w w') (q : Path) : Stored w' q ↔ Stored w q := by
  unfold Stored
  rw [h.files]

theorem Grows.hasDetails {w w' : World} (h : Grows w w') (hwf : WF w) (q : Path) (d : Details) :
    HasDetails w' q d ↔ HasDetails w q d := by
  unfold HasDetails
  rw [h.lookup hwf q]

theorem grows_openFile (E : Env) (w : World) (name : Str) : Grows w (Mem.openFile E w name).1 := by
  rcases Client.openFile_cases E w name with ⟨h1, _⟩ | ⟨f, _, h1⟩
  · rw [h1]; exact Grows.refl w
  · rw [h1]; exact Grows.alloc w f

theorem grows_fileOpen (E : Env) (w : World) (id : Nat) (name : Str) : Grows w (fileOpen E w id name).1 := by
  unfold fileOpen
  simp only
  cases E.parse (w.heap id).here name with
  | error e => exact Grows.refl w
  | ok pt0 =>
    simp only
    by_cases hown : pt0 = (w.heap id).path
    · simp only [if_pos hown]; exact Grows.refl w
    · simp only [if_neg hown]
      by_cases hp : (w.heap id).pkging = false
      · simp only [if_pos hp]; exact Grows.refl w
      · simp only [if_neg hp]
        have hg := grows_openFile E w (Path.str ⟨pt0.pkg, GoPath.join2 (w.heap id).path.name pt0.name⟩)
        revert hg
        generalize Mem.openFile E w (Path.str ⟨pt0.pkg, GoPath.join2 (w.heap id).path.name pt0.name⟩) = m
        obtain ⟨w1, r⟩ := m
        intro hg
        cases r with
        | err e => exact hg
        | panic => exact hg
        | ok di =>
          simp only
          cases hi : (w1.heap di).info with
          | none => exact hg
          | some d =>
            simp only
            by_cases hd : d.isDir = true
            · simp only [if_pos hd]; exact hg.trans (Grows.alloc w1 _)
            · simp only [if_neg hd]; exact hg

/-- Handle `id` serves the directory `/d₁/.../dₙ` of module `m`: it has been given out, is a handle of that directory,
and its details are still those of the directory. -/
structure Root (E : Env) (i : Info) (w : World) (id : Nat) (m : Str) (ds : List Str) : Prop where
  dir : DirHandle E i w id ⟨m, GoPath.mk ds⟩
  module : (w.heap id).here.module.path = m
  details : ∃ d, (w.heap id).info = some d ∧ HasDetails w ⟨m, GoPath.mk ds⟩ d ∧ d.isDir = true
  plain : Plain ds
  plainPkg : PlainPkg m
  laws : ParseLaws E i
  lawsHere : ParseLaws E (w.heap id).here

theorem DirHandle.grow {E : Env} {i : Info} {w w' : World} {id : Nat} {root : Path} (h : DirHandle E i w id root)
    (hg : Grows w w') (hh : Held E i w' id) : DirHandle E i w' id root := by
  have e := hg.heap id h.held.lt
  exact ⟨hh, by rw [e]; exact h.path, by rw [e]; exact h.parent⟩

theorem Root.grow {E : Env} {i : Info} {w w' : World} {id : Nat} {m : Str} {ds : List Str} (h : Root E i w id m ds)
    (hg : Grows w w') (hh : Held E i w' id) : Root E i w' id m ds := by
  have e := hg.heap id h.dir.held.lt
  have hwf := h.dir.held.reached.inv.wf
  refine ⟨DirHandle.grow h.dir hg hh, by rw [e]; exact h.module, ?_, h.plain, h.plainPkg, h.laws, by rw [e]; exact h.lawsHere⟩
  obtain ⟨d, h1, h2, h3⟩ := h.details
  exact ⟨d, by rw [e]; exact h1, (hg.hasDetails hwf _ d).mpr h2, h3⟩

/-- What a request may ask for, relative to the served directory. -/
structure Asked (E : Env) (i : Info) (w : World) (id : Nat) (ds cs : List Str) : Prop where
  plain : Plain cs
  clear : Clear i (GoPath.mk (ds ++ cs))
  clearHere : Clear (w.heap id).here (GoPath.mk cs)
  /-- Not the served directory's own path. -/
  own : cs = [] ∨ cs ≠ ds

theorem fileOpen_root (E : Env) {i : Info} {w : World} {id : Nat} {m : Str} {ds cs : List Str}
    (hroot : Root E i w id m ds) (ha : Asked E i w id ds cs) :
    (¬ Stored w ⟨m, GoPath.mk (ds ++ cs)⟩ → (fileOpen E w id (GoPath.mk cs)).2 = .err .notExist) ∧
    ∀ f d, lookup w ⟨m, GoPath.mk (ds ++ cs)⟩ = some f → f.info = some d →
      ∃ w' h, fileOpen E w id (GoPath.mk cs) = (w', .ok h) ∧ Grows w w' ∧ Held E i w' id ∧
        (w'.heap h).info = some d ∧ (d.isDir = false → AtPos (w'.heap h) f.bytes 0) ∧
        (d.isDir = true → DirHandle E i w' h ⟨m, GoPath.mk (ds ++ cs)⟩) := by
  have hid := hroot.dir.held
  have hr := hid.reached
  have hm := hroot.module
  have hp0 : E.parse (w.heap id).here (GoPath.mk cs) = .ok ⟨m, GoPath.mk cs⟩ := by
    have := (ordinary_mk ha.plain.ord ha.clearHere).parse hroot.lawsHere
    rw [GoPath.rootedElems_mk ha.plain.good, hm] at this
    exact this
  by_cases hown : (⟨m, GoPath.mk cs⟩ : Path) = (w.heap id).path
  · rw [hroot.dir.path] at hown
    injection hown with _ hown
    have hcs := GoPath.mk_injective ha.plain.good hroot.plain.good hown
    have hnil : cs = [] ∧ ds = [] := by
      rcases ha.own with h | h
      · exact ⟨h, by rw [← hcs]; exact h⟩
      · exact absurd hcs h
    obtain ⟨rfl, rfl⟩ := hnil
    have ho : fileOpen E w id (GoPath.mk []) = (w, .ok id) := by
      simp only [fileOpen, hp0]
      rw [if_pos hroot.dir.path.symm]
    obtain ⟨d, h1, h2, h3⟩ := hroot.details
    constructor
    · intro hns
      exact absurd (HasDetails.stored h2) hns
    · intro f d' hf hfd
      have : d' = d := HasDetails.unique ⟨f, hf, hfd⟩ h2
      subst this
      exact ⟨w, id, ho, Grows.refl w, hid, h1, fun h => by rw [h3] at h; (cases h), fun _ => hroot.dir⟩
  · have hpne : m ≠ [] := by
      intro h
      have := hroot.plainPkg.1
      rw [h] at this
      exact this (by decide)
    have hpl : Plain (ds ++ cs) := plain_append.mpr ⟨hroot.plain, ha.plain⟩
    have hback : E.parse i (Path.str ⟨m, GoPath.mk (ds ++ cs)⟩) = .ok ⟨m, GoPath.mk (ds ++ cs)⟩ := by
      have := hroot.laws.qualified _ _ hroot.plainPkg hpl ha.clear
      unfold Path.str
      rw [if_neg hpne, if_neg (by simp [GoPath.mk])]
      exact this
    have hdn : (w.heap id).path.name = GoPath.mk ds := by rw [hroot.dir.path]
    obtain ⟨h1, h2⟩ := Props.fileOpen_cases E hr hp0 hown hid.pkging (pt := ⟨m, GoPath.mk (ds ++ cs)⟩)
      (by simp only [hdn, GoPath.join2_mk hroot.plain.good ha.plain.good]) hback
    refine ⟨h1, ?_⟩
    intro f d hf hfd
    obtain ⟨w', h, e1, e2, e3, e4, e5, e6, e7, e8⟩ := h2 f d hf hfd
    have hstep : step E w (.fileOpen id (GoPath.mk cs)) = w' := by simp [step, e1]
    have hg : Grows w w' := by
      have := grows_fileOpen E w id (GoPath.mk cs)
      rw [e1] at this
      exact this
    have hh : Held E i w' id := by
      have := hid.run [.fileOpen id (GoPath.mk cs)] (by intro o ho; simp at ho; subst ho; trivial)
      rw [run_cons, run_nil, hstep] at this
      exact this
    refine ⟨w', h, e1, hg, hh, e3, ?_, ?_⟩
    · intro hdir
      exact ⟨e4 hdir, Int.le_refl 0, Or.inl ⟨e6, rfl⟩⟩
    · intro hdir
      refine ⟨hstep ▸ hr.held (o := .fileOpen id (GoPath.mk cs)) trivial (e8 hdir) (hstep.symm ▸ e7), e2, ?_⟩
      rw [e5 hdir, hdn]
      by_cases hcs0 : cs = []
      · left; simp [hcs0]
      · right
        intro hpre
        have h1 := (IsUnder.prefix ⟨ds, cs, hpl.good, rfl, rfl⟩)
        have h2 : (GoPath.mk ds : Str) = GoPath.mk (ds ++ cs) :=
          (h1.eq_of_length (Nat.le_antisymm h1.length_le hpre.length_le))
        have h3 := GoPath.mk_injective hroot.plain.good hpl.good h2
        exact hcs0 (by simpa using h3)

end Http
end Verif
