import Verif.Model.LoadFiles
import Verif.Props.Script

/-! C116: copying a directory of the disk into a Pkger. -/

namespace Verif
namespace Props

open FileSys Script
open LoadFiles hiding loadFiles
open Spec hiding Out
open Disk (Node)
open Disk.Node (WF WFKids)
open Stdos (Host)
open DiskClient (Io)

/-! ### What there should be -/

/-- The last element begins with a dot. -/
def Hidden (es : List Str) : Prop := ∃ cs s, es = cs ++ [46 :: s]

/-- The files `fs` and, at `es`, all of the directory `n` that is not hidden. -/
def Loaded (fs : Fs) (es : List Str) (n : Node) (fs' : Fs) : Prop :=
  (∀ cs e, shape n cs = some e → ¬ Hidden (es ++ cs) → fs' (es ++ cs) = some e) ∧
    ∀ q, (∀ cs, q = es ++ cs → shape n cs = none ∨ Hidden q) → fs' q = fs q

/-- All that is in a hidden directory is hidden. -/
def Clean (es : List Str) (n : Node) : Prop :=
  ∀ cs ds, n.find (cs ++ ds) ≠ none → Hidden (es ++ cs) → Hidden (es ++ cs ++ ds)

theorem hidden_iff {es : List Str} : hidden es = true ↔ Hidden es := by
  unfold hidden Hidden
  constructor
  · intro h
    split at h
    · rename_i s hs
      rw [List.getLast?_eq_some_iff] at hs
      obtain ⟨cs, hs⟩ := hs
      exact ⟨cs, s, hs⟩
    · cases h
  · rintro ⟨cs, s, rfl⟩
    simp

theorem hidden_not {es : List Str} : hidden es = false ↔ ¬ Hidden es := by
  rw [← hidden_iff]
  simp

theorem loaded_unique {fs f1 f2 : Fs} {es : List Str} {n : Node} (h1 : Loaded fs es n f1) (h2 : Loaded fs es n f2) : f1 = f2 := by
  funext q
  by_cases hq : ∀ cs, q = es ++ cs → shape n cs = none ∨ Hidden q
  · rw [h1.2 q hq, h2.2 q hq]
  · obtain ⟨cs, hq⟩ := Classical.not_forall.mp hq
    obtain ⟨rfl, hq⟩ := Classical.not_imp.mp hq
    rw [not_or] at hq
    cases hs : shape n cs with
    | none => exact absurd hs hq.1
    | some e => rw [h1.1 cs e hs hq.2, h2.1 cs e hs hq.2]

/-! ### The program does it -/

/-- The program does what both Pkgers do alike, and ends so. -/
def Goes {α : Type} (c : Info) (rel : List Str) (fs : Fs) (p : Plan α) (fs' : Fs) (r : α) : Prop :=
  Complies c rel fs p ∧ Runs fs p fs' r

theorem Goes.step {α : Type} {c : Info} {rel : List Str} {fs fs1 fs' : Fs} {a : Script.Act} {o : Out} {k : Out → Plan α} {r : α}
    (hf : Fits c rel fs a) (hd : Does fs a fs1 o) (h : Goes c rel fs1 (k o) fs' r) : Goes c rel fs (.act a k) fs' r := by
  refine ⟨⟨hf, ?_⟩, .act hd h.2⟩
  intro f2 o2 h2
  obtain ⟨e1, e2⟩ := does_unique hd h2
  subst e1
  subst e2
  exact h.1

theorem find_cons_kid {d : Mem.Details} {kids : List (Str × Node)} (hn : (kids.map (·.1)).Nodup) {x : Str} {n : Node}
    (hm : (x, n) ∈ kids) (cs : List Str) : (Node.dir d kids).find (x :: cs) = n.find cs := by
  rw [Node.find, Disk.find_kid hn hm]

mutual
/-- Nothing is done for what is hidden with all that is in it. -/
theorem load_hidden (cut : Str → List Str) : ∀ (n : Node) (es : List Str) (k : Plan Bool), WF n →
    (∀ ds, n.find ds ≠ none → Hidden (es ++ ds)) → load cut es n k = k
  | .file d b, es, k, _, h => by
    have := h [] (by simp [Node.find])
    rw [List.append_nil] at this
    rw [load, if_pos (hidden_iff.mpr this)]
  | .dir d kids, es, k, hw, h => by
    have := h [] (by simp [Node.find])
    rw [List.append_nil] at this
    rw [load, if_pos (hidden_iff.mpr this)]
    refine loadKids_hidden cut kids es k hw.2 ?_
    intro x n hm ds hf
    have := h (x :: ds) (by rw [find_cons_kid hw.1 hm]; exact hf)
    simpa using this

theorem loadKids_hidden (cut : Str → List Str) : ∀ (kids : List (Str × Node)) (es : List Str) (k : Plan Bool), WFKids kids →
    (∀ x n, (x, n) ∈ kids → ∀ ds, n.find ds ≠ none → Hidden (es ++ [x] ++ ds)) → loadKids cut es kids k = k
  | [], _, _, _, _ => by rw [loadKids]
  | (x, n) :: rest, es, k, hw, h => by
    rw [loadKids, load_hidden cut n _ _ hw.2.1 (h x n List.mem_cons_self),
      loadKids_hidden cut rest es k hw.2.2 fun y m hm => h y m (List.mem_cons_of_mem _ hm)]
end

/-- `es` is free and what is above it are directories. -/
structure Room (fs : Fs) (es : List Str) : Prop where
  above : ∀ a, a <+: es → a ≠ es → fs a = some .dir
  free : ∀ q, es <+: q → fs q = none

theorem Room.notOver {fs : Fs} {es : List Str} (h : Room fs es) : ¬ OverFile fs es := by
  rintro ⟨a, b, h1, h2⟩
  by_cases ha : a = es
  · rw [ha, h.free es (List.prefix_refl _)] at h2; cases h2
  · rw [h.above a h1 ha] at h2; cases h2

theorem Room.mkdirs {fs : Fs} {es : List Str} (h : Room fs es) : fs.mkdirs es = fs.set es .dir := by
  funext q
  unfold Fs.mkdirs Fs.set
  by_cases h1 : q = es
  · subst h1; simp
  · by_cases h2 : q <+: es
    · rw [if_pos h2, if_neg h1, h.above q h2 h1]
    · rw [if_neg h2, if_neg h1]

theorem prefix_snoc {a es : List Str} {x : Str} (h : a <+: es ++ [x]) (hne : a ≠ es ++ [x]) : a <+: es := by
  rcases List.prefix_concat_iff.mp h with h | h
  · exact absurd h hne
  · exact h

/-- What loading one entry of a directory changes is there only. -/
theorem loaded_other {fs fs' : Fs} {es : List Str} {n : Node} (h : Loaded fs es n fs') {q : List Str} (hq : ¬ es <+: q) :
    fs' q = fs q :=
  h.2 q fun cs e => absurd ⟨cs, e.symm⟩ hq

theorem loaded_dir {fs f1 fs' : Fs} {es : List Str} {d : Mem.Details} (hv : ¬ Hidden es)
    (h : f1 = fs.set es .dir) {kids : List (Str × Node)}
    (h1 : ∀ cs e, cs ≠ [] → shape (.dir d kids) cs = some e → ¬ Hidden (es ++ cs) → fs' (es ++ cs) = some e)
    (h2 : ∀ q, (∀ cs, cs ≠ [] → q = es ++ cs → shape (.dir d kids) cs = none ∨ Hidden q) → fs' q = f1 q) :
    Loaded fs es (.dir d kids) fs' := by
  subst h
  constructor
  · intro cs e hs hh
    by_cases hc : cs = []
    · subst hc
      have : e = .dir := by
        have : shape (.dir d kids) [] = some .dir := rfl
        rw [this] at hs
        exact (Option.some.inj hs).symm
      subst this
      rw [List.append_nil, h2 es]
      · simp [Fs.set]
      · intro cs hc he
        exact absurd (by simpa using he) hc
    · exact h1 cs e hc hs hh
  · intro q hq
    rw [h2 q fun cs _ => hq cs]
    have : q ≠ es := by
      rintro rfl
      rcases hq [] (by simp) with h | h
      · cases h
      · exact hv h
    simp [Fs.set, this]

mutual
/-- Loading one path, which is not hidden or has nothing in it that is not. -/
theorem goes_load {c : Info} {rel : List Str} {cut : Str → List Str} (hcut : ∀ b, (cut b).flatten = b) :
    ∀ (n : Node) (es : List Str) (fs : Fs), WF n → Clean es n → Room fs es → rel <+: es → (rel ≠ es ∨ n.isDir = true) → es ≠ [] →
      (∀ cs, n.find cs ≠ none → Plain (es ++ cs) ∧ Clear c (GoPath.mk (es ++ cs))) →
      ∃ f1, Loaded fs es n f1 ∧ ∀ (k : Plan Bool) fs' r, Goes c rel f1 k fs' r → Goes c rel fs (load cut es n k) fs' r
  | .file d b, es, fs, hw, hcl, hroom, hrel, hne, hes, hp => by
    by_cases hh : Hidden es
    · refine ⟨fs, ⟨?_, fun _ _ => rfl⟩, ?_⟩
      · intro cs e hs hv
        cases cs with
        | nil => rw [List.append_nil] at hv; exact absurd hh hv
        | cons x cs => cases hs
      · intro k fs' r h
        rw [load, if_pos (hidden_iff.mpr hh)]
        exact h
    · refine ⟨fs.set es (.file b), ⟨?_, ?_⟩, ?_⟩
      · intro cs e hs hv
        cases cs with
        | nil =>
          have : shape (.file d b) [] = some (.file b) := rfl
          rw [this] at hs
          rw [List.append_nil, ← hs]
          simp [Fs.set]
        | cons x cs => cases hs
      · intro q hq
        have : q ≠ es := by
          rintro rfl
          rcases hq [] (by simp) with h | h
          · cases h
          · exact hh h
        simp [Fs.set, this]
      · intro k fs' r h
        rw [load, if_neg (by rw [hidden_iff]; exact hh)]
        have hpp := hp [] (by simp [Node.find])
        rw [List.append_nil] at hpp
        have hdrop : fs es.dropLast = some .dir := by
          refine hroom.above _ (List.dropLast_prefix _) ?_
          intro he
          have := congrArg List.length he
          rw [List.length_dropLast] at this
          have := List.length_pos_iff.mpr hes
          omega
        have hfree := hroom.free es (List.prefix_refl _)
        have hd : Does fs (.put es (cut b)) (fs.set es (.file (cut b).flatten)) (.done true) :=
          .put es (cut b) hdrop (by rw [hfree]; simp)
        rw [hcut] at hd
        refine Goes.step ⟨⟨hes, hpp.1, hpp.2⟩, hrel, ?_, ?_, ?_⟩ hd ?_
        · rcases hne with h | h
          · exact fun e => h e.symm
          · cases h
        · intro b; rw [hdrop]; simp
        · rw [hfree]; simp
        · exact h
  | .dir d kids, es, fs, hw, hcl, hroom, hrel, hne, hes, hp => by
    by_cases hh : Hidden es
    · have hall : ∀ ds, (Node.dir d kids).find ds ≠ none → Hidden (es ++ ds) := by
        intro ds hf
        have := hcl [] ds hf (by simpa using hh)
        simpa using this
      refine ⟨fs, ⟨?_, fun _ _ => rfl⟩, ?_⟩
      · intro cs e hs hv
        exact absurd (hall cs fun h0 => by rw [shape_none.mpr h0] at hs; cases hs) hv
      · intro k fs' r h
        rw [load_hidden cut _ _ _ hw hall]
        exact h
    · have hpp := hp [] (by simp [Node.find])
      rw [List.append_nil] at hpp
      obtain ⟨f1, h1, h2, h3⟩ := goes_kids hcut kids es (fs.set es .dir) d hw.1 hw.2
        (by
          intro x n hm cs ds hf hx
          have := hcl (x :: cs) ds (by rw [List.cons_append, find_cons_kid hw.1 hm]; exact hf) (by simpa using hx)
          simpa using this)
        (by
          intro a ha
          by_cases hae : a = es
          · simp [Fs.set, hae]
          · simp only [Fs.set, hae, if_false]; exact hroom.above a ha hae)
        (by
          intro x _ q hq
          have hqe : q ≠ es := by
            rintro rfl
            have := hq.length_le
            simp at this
            omega
          simp only [Fs.set, hqe, if_false]
          exact hroom.free q ((List.prefix_append es [x]).trans hq))
        hrel
        (by
          intro x n hm cs hf
          have := hp (x :: cs) (by rw [find_cons_kid hw.1 hm]; exact hf)
          simpa using this)
      refine ⟨f1, loaded_dir hh rfl h1 h2, ?_⟩
      intro k fs' r h
      rw [load, if_neg (by rw [hidden_iff]; exact hh)]
      have hd : Does fs (.mkdirAll es d.mode) (fs.mkdirs es) (.done true) := .mkdirAll es d.mode hroom.notOver
      rw [hroom.mkdirs] at hd
      exact Goes.step ⟨⟨hes, hpp.1, hpp.2⟩, hrel, hroom.notOver⟩ hd (h3 k fs' r h)

/-- Loading the entries of a directory. -/
theorem goes_kids {c : Info} {rel : List Str} {cut : Str → List Str} (hcut : ∀ b, (cut b).flatten = b) :
    ∀ (kids : List (Str × Node)) (es : List Str) (fs : Fs) (d : Mem.Details), (kids.map (·.1)).Nodup → WFKids kids →
      (∀ x n, (x, n) ∈ kids → Clean (es ++ [x]) n) → (∀ a, a <+: es → fs a = some .dir) →
      (∀ x ∈ kids.map (·.1), ∀ q, es ++ [x] <+: q → fs q = none) → rel <+: es →
      (∀ x n, (x, n) ∈ kids → ∀ cs, n.find cs ≠ none → Plain (es ++ [x] ++ cs) ∧ Clear c (GoPath.mk (es ++ [x] ++ cs))) →
      ∃ f1, (∀ cs e, cs ≠ [] → shape (.dir d kids) cs = some e → ¬ Hidden (es ++ cs) → f1 (es ++ cs) = some e) ∧
        (∀ q, (∀ cs, cs ≠ [] → q = es ++ cs → shape (.dir d kids) cs = none ∨ Hidden q) → f1 q = fs q) ∧
        ∀ (k : Plan Bool) fs' r, Goes c rel f1 k fs' r → Goes c rel fs (loadKids cut es kids k) fs' r
  | [], es, fs, d, hn, hw, hcl, hab, hfree, hrel, hp => by
    refine ⟨fs, ?_, fun _ _ => rfl, fun k fs' r h => by rw [loadKids]; exact h⟩
    intro cs e hc hs
    cases cs with
    | nil => exact absurd rfl hc
    | cons x cs => cases hs
  | (x, n) :: rest, es, fs, d, hn, hw, hcl, hab, hfree, hrel, hp => by
    simp only [List.map_cons, List.nodup_cons] at hn
    have hsplit : ∀ (y : Str) (cs : List Str), y ≠ x → shape (.dir d ((x, n) :: rest)) (y :: cs) = shape (.dir d rest) (y :: cs) := by
      intro y cs hy
      unfold shape
      have : (x == y) = false := by simpa using fun h => hy h.symm
      rw [Node.find, Node.find, List.find?_cons_of_neg (by simp [this])]
    have hsame : ∀ cs, shape (.dir d ((x, n) :: rest)) (x :: cs) = shape n cs := by
      intro cs
      unfold shape
      rw [Node.find, List.find?_cons_of_pos (by simp)]
    have hlong : rel ≠ es ++ [x] := by
      intro he
      have := hrel.length_le
      rw [he] at this
      simp at this
      omega
    obtain ⟨f1, h1, h2⟩ := goes_load (c := c) (rel := rel) hcut n (es ++ [x]) fs hw.2.1 (hcl x n List.mem_cons_self)
      ⟨fun a ha hae => hab a (prefix_snoc ha hae), hfree x (by simp)⟩ (hrel.trans (List.prefix_append _ _)) (Or.inl hlong)
      (by simp) (hp x n List.mem_cons_self)
    obtain ⟨f2, q1, q2, q3⟩ := goes_kids (c := c) (rel := rel) hcut rest es f1 d hn.2 hw.2.2
      (fun y m hm => hcl y m (List.mem_cons_of_mem _ hm))
      (by
        intro a ha
        rw [loaded_other h1, hab a ha]
        intro hx
        have := (hx.trans ha).length_le
        simp at this
        omega)
      (by
        intro y hy q hq
        rw [loaded_other h1, hfree y (by simp only [List.map_cons]; exact List.mem_cons_of_mem _ hy) q hq]
        intro hx
        obtain ⟨t1, rfl⟩ := hq
        obtain ⟨t2, ht⟩ := hx
        simp only [List.append_assoc, List.append_cancel_left_eq, List.singleton_append, List.cons.injEq] at ht
        rw [ht.1] at hn
        exact hn.1 hy)
      hrel (fun y m hm => hp y m (List.mem_cons_of_mem _ hm))
    refine ⟨f2, ?_, ?_, ?_⟩
    · intro cs e hc hs hv
      cases cs with
      | nil => exact absurd rfl hc
      | cons y cs =>
        by_cases hy : y = x
        · subst hy
          rw [hsame] at hs
          rw [q2]
          · have := h1.1 cs e hs (by simpa using hv)
            simpa using this
          · intro ds _ he
            have he := List.append_cancel_left he
            subst he
            left
            rw [shape_none, Node.find]
            have : rest.find? (fun e => e.1 == y) = none := by
              rw [List.find?_eq_none]
              intro e hmem
              simp only [beq_iff_eq]
              rintro rfl
              exact hn.1 (List.mem_map.mpr ⟨e, hmem, rfl⟩)
            rw [this]
        · rw [hsplit y cs hy] at hs
          exact q1 (y :: cs) e (by simp) hs hv
    · intro q hq
      rw [q2, h1.2]
      · intro cs he
        rw [List.append_assoc, List.singleton_append] at he
        rcases hq (x :: cs) (by simp) he with h | h
        · rw [hsame] at h; exact Or.inl h
        · exact Or.inr h
      · intro cs hc he
        cases cs with
        | nil => exact absurd rfl hc
        | cons y cs =>
          by_cases hy : y = x
          · left
            subst hy
            rw [shape_none, Node.find]
            have : rest.find? (fun e => e.1 == y) = none := by
              rw [List.find?_eq_none]
              intro e hmem
              simp only [beq_iff_eq]
              rintro rfl
              exact hn.1 (List.mem_map.mpr ⟨e, hmem, rfl⟩)
            rw [this]
          · rw [← hsplit y cs hy]
            exact hq _ hc he
    · intro k fs' r h
      rw [loadKids]
      exact h2 _ fs' r (q3 k fs' r h)
end

/-- What `LoadFiles` should do with the files `fs`. -/
theorem goes_loadFiles {c : Info} {rel : List Str} {cut : Str → List Str} (hcut : ∀ b, (cut b).flatten = b) {n : Node} (hw : WF n)
    (hdir : n.isDir = true) {es : List Str} (hes : es ≠ []) (hv : ¬ Hidden es) (hcl : Clean es n)
    (hp : ∀ cs, n.find cs ≠ none → Plain (es ++ cs) ∧ Clear c (GoPath.mk (es ++ cs))) (hrel : rel <+: es) {fs : Fs}
    (hover : ¬ OverFile fs es) (hfree : ∀ x q, es ++ [x] <+: q → fs q = none) :
    ∃ fs', Loaded (fs.mkdirs es) es n fs' ∧ Goes c rel fs (LoadFiles.loadFiles cut es n) fs' true := by
  have hany : (n.tree.any fun e => !hidden (es ++ e.1)) = true := by
    rw [List.any_eq_true]
    refine ⟨([], n), (Disk.mem_tree_iff _ _ _ hw).mpr (by cases n <;> rfl), ?_⟩
    rw [List.append_nil, hidden_not.mpr hv]
    rfl
  unfold LoadFiles.loadFiles
  rw [if_pos hdir, hany]
  cases n with
  | file => cases hdir
  | dir d kids =>
    have hpp := hp [] (by simp [Node.find])
    rw [List.append_nil] at hpp
    obtain ⟨f1, h1, h2, h3⟩ := goes_kids (c := c) (rel := rel) hcut kids es (fs.mkdirs es) d hw.1 hw.2
      (by
        intro x n hm cs ds hf hx
        have := hcl (x :: cs) ds (by rw [List.cons_append, find_cons_kid hw.1 hm]; exact hf) (by simpa using hx)
        simpa using this)
      (by intro a ha; simp [Fs.mkdirs, ha])
      (by
        intro x _ q hq
        have : ¬ q <+: es := by
          intro h
          have := (hq.trans h).length_le
          simp at this
          omega
        simp only [Fs.mkdirs, this, if_false]
        exact hfree x q hq)
      hrel
      (by
        intro x n hm cs hf
        have := hp (x :: cs) (by rw [find_cons_kid hw.1 hm]; exact hf)
        simpa using this)
    refine ⟨f1, loaded_dir hv ?_ h1 h2, ?_⟩
    · funext q
      by_cases hq : q = es
      · subst hq; simp [Fs.set, Fs.mkdirs]
      · simp [Fs.set, hq]
    · rw [load, if_neg (by rw [hidden_iff]; exact hv)]
      exact Goes.step ⟨⟨hes, hpp.1, hpp.2⟩, hrel, hover⟩ (.mkdirAll es d.mode hover) (h3 _ f1 true ⟨trivial, .ret _ _⟩)

/-! ### Both Pkgers -/

variable {S : Type} {O : Host S} {I : Io S} {W : Writes S}

/-- **C116**, in part: `LoadFiles` works, in memory and on the disk, and then what is not hidden is there, with its
content, and nothing else has changed.  Missing: hidden directories with something in them that is not hidden, and places
where there is something. -/
theorem C116_loads_partial (E : Env) {U : Unix O I W} {c : Info} (hl : ParseLaws E c) (hi : InfoOk c)
    (hpk : c.importPath = c.module.path) {m : List Str} (hm : GoPath.Good m) (hdir : c.dir = GoPath.mk m) {rel : List Str}
    (hrel : GoPath.Good rel) {fs : Fs} {u : Stdos.World S} (hu : OnDisk U c m fs u) {w : Mem.World} (hw : InMem E c rel fs w)
    {cut : Str → List Str} (hcut : ∀ b, (cut b).flatten = b) {n : Node} (hn : WF n) (hnd : n.isDir = true) {es : List Str}
    (hes : es ≠ []) (hre : rel <+: es) (hv : ¬ Hidden es) (hcl : Clean es n)
    (hp : ∀ cs, n.find cs ≠ none → Plain (es ++ cs) ∧ Clear c (GoPath.mk (es ++ cs)))
    (hover : ¬ OverFile fs es) (hfree : ∀ x q, es ++ [x] <+: q → fs q = none) (fl : List Stdos.File) (hs : List Nat) :
    ∃ fs' u' fl' w' hs', disk E O I W (LoadFiles.loadFiles cut es n).prog u fl = (u', fl', true) ∧
      mem E (LoadFiles.loadFiles cut es n).prog w hs = (w', hs', true) ∧ OnDisk U c m fs' u' ∧ InMem E c rel fs' w' ∧
      Loaded (fs.mkdirs es) es n fs' := by
  obtain ⟨fs', h1, h2, h3⟩ := goes_loadFiles (c := c) (rel := rel) hcut hn hnd hes hv hcl hp hre hover hfree
  obtain ⟨u', fl', f2, r, e1, e2, e3⟩ := C97_disk E hl hm hdir _ hu h2.orderly fl
  obtain ⟨q1, q2⟩ := runs_unique h3 e2
  subst q1
  subst q2
  obtain ⟨w', hs', q1, q2⟩ := C97_mem_partial E hl hi hpk hrel h3 hw h2 hs
  exact ⟨fs', u', fl', w', hs', e1, q1, e3, q2, h1⟩

/-- **C116** for a Pkger just made, in part: whatever of the directory is not hidden is found in it under its name, as
what it is and with its content. -/
theorem C116_new_partial (E : Env) {c : Info} (hl : ParseLaws E c) (hi : InfoOk c) (hpk : c.importPath = c.module.path) (t : Int)
    {cut : Str → List Str} (hcut : ∀ b, (cut b).flatten = b) {n : Node} (hn : WF n) (hnd : n.isDir = true) {es : List Str}
    (hes : es ≠ []) (hv : ¬ Hidden es) (hcl : Clean es n)
    (hp : ∀ cs, n.find cs ≠ none → Plain (es ++ cs) ∧ Clear c (GoPath.mk (es ++ cs))) :
    ∃ w hs, mem E (LoadFiles.loadFiles cut es n).prog (Mem.new c t) [] = (w, hs, true) ∧
      (∀ cs k, n.find cs = some k → ¬ Hidden (es ++ cs) → ∃ f d, Mem.lookup w ⟨c.module.path, GoPath.mk (es ++ cs)⟩ = some f ∧
        f.info = some d ∧ d.name = (es ++ cs).getLast?.getD [] ∧ d.isDir = k.isDir ∧ f.bytes = k.data) ∧
      ∀ q, GoPath.Good q → q ≠ [] → Mem.lookup w ⟨c.module.path, GoPath.mk q⟩ ≠ none →
        q <+: es ∨ ∃ cs, q = es ++ cs ∧ n.find cs ≠ none ∧ ¬ Hidden q := by
  have ht : Tree (fun q => if q = [] then some .dir else none) := by
    refine ⟨by simp, ?_, ?_⟩
    · intro es x h; simp at h
    · intro es h
      by_cases he : es = []
      · subst he; decide
      · simp [he] at h
  have hw0 : InMem E c [] _ (Mem.new c t) := inMem_new E c t ht (by intro es he _; simp [he])
  obtain ⟨fs', h1, h2, h3⟩ := goes_loadFiles (c := c) (rel := []) hcut hn hnd hes hv hcl hp List.nil_prefix
    (fs := fun q => if q = [] then some .dir else none)
    (by
      rintro ⟨a, b, _, h⟩
      by_cases ha : a = [] <;> simp [ha] at h)
    (by
      rintro x q ⟨t, rfl⟩
      simp)
  obtain ⟨w, hs, q1, q2⟩ := C97_mem_partial E hl hi hpk (by decide) h3 hw0 h2 []
  refine ⟨w, hs, q1, ?_, ?_⟩
  · intro cs k hf hh
    have hg : GoPath.Good (es ++ cs) := (hp cs (by rw [hf]; simp)).1.good
    have hsh := q2.has (es ++ cs) hg (by simp [hes]) List.nil_prefix
    cases k with
    | file d b =>
      have : shape n cs = some (.file b) := by unfold shape; rw [hf]; rfl
      rw [h1.1 cs _ this hh] at hsh
      exact hsh
    | dir d kids =>
      have : shape n cs = some .dir := by unfold shape; rw [hf]; rfl
      rw [h1.1 cs _ this hh] at hsh
      exact hsh
  · intro q hg hne hl
    have hsh := q2.has q hg hne List.nil_prefix
    by_cases hq : ∀ cs, q = es ++ cs → shape n cs = none ∨ Hidden q
    · left
      rw [h1.2 q hq] at hsh
      by_cases hpre : q <+: es
      · exact hpre
      · simp only [Fs.mkdirs, hpre, hne, if_false] at hsh
        exact absurd hsh hl
    · right
      obtain ⟨cs, hq⟩ := Classical.not_forall.mp hq
      obtain ⟨e, hq⟩ := Classical.not_imp.mp hq
      rw [not_or] at hq
      exact ⟨cs, e, fun h => hq.1 (shape_none.mpr h), hq.2⟩

/-! ### What is missing -/

/-- **C116**, in full: `LoadFiles` works for every directory whose own name is not hidden, with a Pkger just made. -/
def C116_statement : Prop :=
  ∀ (E : Env) (c : Info) (t : Int) (n : Node) (es : List Str), ParseLaws E c → InfoOk c → c.importPath = c.module.path → WF n →
    n.isDir = true → es ≠ [] → ¬ Hidden es →
    (∀ cs, n.find cs ≠ none → Plain (es ++ cs) ∧ Clear c (GoPath.mk (es ++ cs))) →
    (mem E (LoadFiles.loadFiles (fun b => [b]) es n).prog (Mem.new c t) []).2.2 = true

/-- A directory with a hidden directory in it, which has a file that is not hidden. -/
def gitDir : Node := (Demo.dirNode (b! "www") [Demo.dirNode (b! ".git") [Demo.fileNode (b! "config") (b! "x")]]).2

theorem find_mem_tree {n : Node} (hw : WF n) {P : List Str → Prop} (h : ∀ e ∈ n.tree, P e.1) {cs : List Str} (hf : n.find cs ≠ none) :
    P cs := by
  cases hk : n.find cs with
  | none => exact absurd hk hf
  | some k => exact h _ ((Disk.mem_tree_iff _ _ _ hw).mpr hk)

/-- **C116** does not hold in full: `LoadFiles` does not make the hidden directory, but goes into it. -/
theorem C116_hidden_refuted : ¬ C116_statement := by
  intro h
  have := h Demo.env Demo.info 7 gitDir [b! "www"] Demo.laws Demo.info_ok rfl (by decide +kernel) rfl (by simp)
    (by rw [← hidden_iff]; decide)
    (fun cs hf => find_mem_tree (n := gitDir) (by decide +kernel) (P := fun cs => Plain ([b! "www"] ++ cs) ∧
      Clear Demo.info (GoPath.mk ([b! "www"] ++ cs))) (by decide +kernel) hf)
  exact absurd this (by decide +kernel)

/-- **C116**, in full, about modes: a directory copied in has the mode it had. -/
def C116_mode_statement : Prop :=
  ∀ (E : Env) (c : Info) (t : Int) (n : Node) (es cs : List Str) (k : Node) (f : Mem.FileObj) (d : Mem.Details), ParseLaws E c →
    InfoOk c → c.importPath = c.module.path → WF n → n.isDir = true → es ≠ [] → ¬ Hidden es → Clean es n →
    (∀ cs, n.find cs ≠ none → Plain (es ++ cs) ∧ Clear c (GoPath.mk (es ++ cs))) → n.find cs = some k → k.isDir = true →
    ¬ Hidden (es ++ cs) →
    Mem.lookup (mem E (LoadFiles.loadFiles (fun b => [b]) es n).prog (Mem.new c t) []).1 ⟨c.module.path, GoPath.mk (es ++ cs)⟩ = some f →
    f.info = some d → d.mode = k.details.mode

/-- A directory with mode 0755 and in it one with mode 0700. -/
def modesDir : Node := .dir ⟨b! "www", 0, 0o755, 0, true⟩ [(b! "own", .dir ⟨b! "own", 0, 0o700, 0, true⟩ [])]

/-- **C116** does not hold in full for modes: `MkdirAll` for a directory gives its mode to the directories above, which are
there (C16). -/
theorem C116_mode_refuted : ¬ C116_mode_statement := by
  intro h
  obtain ⟨f, hf⟩ : ∃ f, Mem.lookup (mem Demo.env (LoadFiles.loadFiles (fun b => [b]) [b! "www"] modesDir).prog (Mem.new Demo.info 7) []).1
      ⟨b! "app", b! "/www"⟩ = some f := Option.isSome_iff_exists.mp (by decide +kernel)
  obtain ⟨d, hd⟩ : ∃ d, f.info = some d := by
    have : ((Mem.lookup (mem Demo.env (LoadFiles.loadFiles (fun b => [b]) [b! "www"] modesDir).prog (Mem.new Demo.info 7) []).1
      ⟨b! "app", b! "/www"⟩).bind (·.info)).isSome = true := by decide +kernel
    rw [hf] at this
    exact Option.isSome_iff_exists.mp this
  have hm : ((Mem.lookup (mem Demo.env (LoadFiles.loadFiles (fun b => [b]) [b! "www"] modesDir).prog (Mem.new Demo.info 7) []).1
      ⟨b! "app", b! "/www"⟩).bind (·.info)).map (·.mode) = some 0o700 := by decide +kernel
  rw [hf, Option.bind_some, hd] at hm
  have hmode := h Demo.env Demo.info 7 modesDir [b! "www"] [] modesDir f d Demo.laws Demo.info_ok rfl (by decide +kernel) rfl (by simp)
    (by rw [← hidden_iff]; decide)
    (by
      intro cs ds hf hh
      exfalso
      have : ∀ e ∈ modesDir.tree, ∀ k ≤ e.1.length, hidden ([b! "www"] ++ e.1.take k) = false := by decide +kernel
      have := find_mem_tree (n := modesDir) (by decide +kernel) (P := fun cs => ∀ k ≤ cs.length,
        hidden ([b! "www"] ++ cs.take k) = false) this hf cs.length (by simp)
      rw [List.take_left, hidden_not] at this
      exact this hh)
    (fun cs hf => find_mem_tree (n := modesDir) (by decide +kernel) (P := fun cs => Plain ([b! "www"] ++ cs) ∧
      Clear Demo.info (GoPath.mk ([b! "www"] ++ cs))) (by decide +kernel) hf) rfl rfl (by rw [← hidden_iff]; decide) hf hd
  rw [Option.map_some, hmode] at hm
  exact absurd hm (by decide)

/-! ### Examples -/

/-- A directory with a hidden file, an empty hidden directory, and more. -/
def wwwDir : Node := (Demo.dirNode (b! "www") [Demo.dirNode (b! ".cache") [], Demo.fileNode (b! ".env") (b! "secret"),
  Demo.fileNode (b! "a.txt") (b! "hello"), Demo.dirNode (b! "doc") [Demo.fileNode (b! "index.html") (b! "<p>")]]).2

theorem wwwDir_clean : Clean [b! "tmp", b! "www"] wwwDir := by
  intro cs ds hf
  have : ∀ e ∈ wwwDir.tree, ∀ k ≤ e.1.length, hidden ([b! "tmp", b! "www"] ++ e.1.take k) = true →
      hidden ([b! "tmp", b! "www"] ++ e.1) = true := by decide +kernel
  have := find_mem_tree (n := wwwDir) (by decide +kernel) (P := fun cs => ∀ k ≤ cs.length,
    hidden ([b! "tmp", b! "www"] ++ cs.take k) = true → hidden ([b! "tmp", b! "www"] ++ cs) = true) this hf cs.length (by simp)
  rw [List.take_left, hidden_iff, hidden_iff] at this
  simpa using this

/-- The hypotheses of `C116_loads_partial` and `C116_new_partial` are met: copying into `/tmp/www`. -/
theorem wwwDir_loads : ∃ w hs, mem Demo.env (LoadFiles.loadFiles (fun b => [b]) [b! "tmp", b! "www"] wwwDir).prog
    (Mem.new Demo.info 7) [] = (w, hs, true) ∧
    (∃ f, Mem.lookup w ⟨b! "app", b! "/tmp/www/doc/index.html"⟩ = some f ∧ f.bytes = b! "<p>") ∧
    Mem.lookup w ⟨b! "app", b! "/tmp/www/.env"⟩ = none := by
  obtain ⟨w, hs, h1, h2, h3⟩ := C116_new_partial Demo.env Demo.laws Demo.info_ok rfl 7 (cut := fun b => [b]) (by simp) (n := wwwDir)
    (by decide +kernel) rfl (es := [b! "tmp", b! "www"]) (by simp) (by rw [← hidden_iff]; decide) wwwDir_clean
    (fun cs hf => find_mem_tree (n := wwwDir) (by decide +kernel) (P := fun cs => Plain ([b! "tmp", b! "www"] ++ cs) ∧
      Clear Demo.info (GoPath.mk ([b! "tmp", b! "www"] ++ cs))) (by decide +kernel) hf)
  refine ⟨w, hs, h1, ?_, ?_⟩
  · obtain ⟨f, d, q1, _, _, _, q2⟩ := h2 [b! "doc", b! "index.html"] _ rfl (by rw [← hidden_iff]; decide)
    exact ⟨f, q1, q2⟩
  · apply Classical.byContradiction
    intro hne
    rcases h3 [b! "tmp", b! "www", b! ".env"] (by decide) (by simp) hne with h | ⟨cs, e, _, hh⟩
    · revert h; decide
    · exact hh (by rw [← hidden_iff]; decide)

/-- On the disk, beside the module's own files. -/
example : ∃ fs' u' fl' w' hs', disk Demo.env machine machineIo machineWrites
      (LoadFiles.loadFiles (fun b => [b]) [b! "tmp", b! "www"] wwwDir).prog (Stdos.new Demo.info (Machine.of (siteDisk siteApp))) [] =
        (u', fl', true) ∧
    mem Demo.env (LoadFiles.loadFiles (fun b => [b]) [b! "tmp", b! "www"] wwwDir).prog (siteMem siteApp) [] = (w', hs', true) ∧
    OnDisk unix Demo.info [b! "src", b! "app"] fs' u' ∧ InMem Demo.env Demo.info [] fs' w' ∧
    Loaded ((shape siteApp.2).mkdirs [b! "tmp", b! "www"]) [b! "tmp", b! "www"] wwwDir fs' := by
  have hnone : ∀ q, [b! "tmp"] <+: q → shape siteApp.2 q = none := by
    rintro q ⟨t, rfl⟩
    rw [shape_none, Disk.find_append]
    rfl
  refine C116_loads_partial Demo.env Demo.laws Demo.info_ok rfl (by decide) (by decide) (by decide)
    (site_onDisk siteApp_ok rfl (by decide +kernel)) (site_inMem siteApp_ok rfl) (by simp) (by decide +kernel) rfl (by simp)
    List.nil_prefix (by rw [← hidden_iff]; decide) wwwDir_clean
    (fun cs hf => find_mem_tree (n := wwwDir) (by decide +kernel) (P := fun cs => Plain ([b! "tmp", b! "www"] ++ cs) ∧
      Clear Demo.info (GoPath.mk ([b! "tmp", b! "www"] ++ cs))) (by decide +kernel) hf) ?_ ?_ [] []
  · rw [← overFile_iff]; decide +kernel
  · intro x q hq
    exact hnone q ((by simp : [b! "tmp"] <+: [b! "tmp", b! "www"] ++ [x]).trans hq)

end Props
end Verif
