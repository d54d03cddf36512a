import Verif.Lemmas.FineWrite
import Verif.Props.Create
import Verif.Props.FineReaders

/-! C91, C92: goroutines that write files and are interrupted anywhere. -/

namespace Verif
namespace Props

open Mem Fine

namespace FineWriters

variable {α : Type}

/-- The goroutines with their programs; nobody has a handle yet. -/
def begin (E : Env) (w : World) (ps : Nat → Prog α) : Sys α := start E w fun u => ([], ps u)

theorem inv_begin {E : Env} {w : World} (hwf : WF w) {ps : Nat → Prog α} {S : Path → Str → Prop} {D : Path → Prop}
    (hS : ∀ q f, lookup w q = some f → S q f.bytes) : Fine.Inv S D (begin E w ps).g := by
  have hget : ∀ e ∈ w.files, AMap.get w.files e.1 = some e.2 := fun e he => AMap.get_of_mem hwf.nodup he
  refine ⟨fun q id h => AMap.get_mem h, fun e he => (hwf.bound _ _ (hget e he)).1, ?_, ?_, ?_, fun q hq => (by cases hq)⟩
  · intro e he
    obtain ⟨d, hd⟩ := (hwf.bound _ _ (hget e he)).2.2
    show (w.heap e.2).info ≠ none
    rw [hd]
    simp
  · intro e he
    refine hS e.1 (w.heap e.2) ?_
    unfold lookup
    rw [hget e he]
    rfl
  · intro e he _
    exact ⟨e.2, hget e he⟩

theorem hold_begin {E : Env} {w : World} (hwf : WF w) {ps : Nat → Prog α} {S : Path → Str → Prop} {D : Path → Prop}
    (hS : ∀ q f, lookup w q = some f → S q f.bytes) (t : Nat) : Hold S D t [] (begin E w ps).g :=
  ⟨inv_begin hwf hS, fun a ha => (by cases ha), fun a ha => (by cases ha)⟩

/-- Any content. -/
def anyS : Path → Str → Prop := fun _ _ => True

theorem writers_safe (E : Env) {i : Info} {w : World} (hr : Reached E i w) {ps : Nat → Prog α} {t : Nat} {name : Str} {p : Path}
    {bs : List Str} {yes no : α} (hp : E.parse i name = .ok p) (ht : ps t = writeAll name bs yes no) {D : Path → Prop}
    (hoth : ∀ u, u ≠ t → (ps u).All fun c => ¬ c.Stores E i p ∧ ¬ c.Deletes E i p ∧ ∀ q, c.Deletes E i q → ¬ D q) :
    SysSafe (fun u => Rely anyS D (fun q => u = t ∧ q = p) u) (fun u => Any (Guar anyS D (fun q => u = t ∨ q ≠ p) u))
      (fun u r g => u = t → (r = yes ∧ ∃ id f, Written p name bs.flatten f ∧
        Mine anyS D (fun q => u = t ∧ q = p) u p id f g) ∨ (r = no ∧ ¬ Sure E i w.infos (Stored w) D p)) (begin E w ps) := by
  have hwf := hr.inv.wf
  have hh : ∀ u, Hold anyS D u [] (begin E w ps).g := fun u => hold_begin hwf (fun _ _ _ => trivial) u
  constructor
  intro u
  by_cases hu : u = t
  · subst hu
    refine ⟨fun g => Hold anyS D u [] g ∧ Known w.infos (Stored w) g, fun g g' h hr =>
      ⟨Hold.stable [] g g' h.1 hr, Known.stable g g' h.2 hr⟩, ⟨hh u, rfl, fun q hq => ?_⟩, ?_⟩
    · obtain ⟨id, hid⟩ := hq
      exact ⟨id, AMap.get_mem hid⟩
    · show Safe u _ _ ((ps u).code E w.here []) _ _
      rw [ht, hr.here]
      exact (write_all E i hp (fun q _ => Or.inl rfl) (fun _ => trivial) w.infos (Stored w) yes no trivial).mono (fun _ h => h)
        fun r g h _ => h
  · refine ⟨Hold anyS D u [], Hold.stable [], hh u, ?_⟩
    show Safe u _ _ ((ps u).code E w.here []) _ _
    rw [hr.here]
    refine (hold_prog E i (fun _ => trivial) (ps u) [] ((hoth u hu).mono fun c hc => ?_)).mono (fun _ h => h)
      fun r g _ e => absurd e hu
    exact ⟨fun q hq => Or.inr (by rintro rfl; exact hc.1 hq), fun q hq => ⟨Or.inr (by rintro rfl; exact hc.2.1 hq), hc.2.2 q hq⟩,
      fun _ _ _ => trivial⟩

theorem writers_run (E : Env) {i : Info} {w : World} (hr : Reached E i w) {ps : Nat → Prog α} {t : Nat} {name : Str} {p : Path}
    {bs : List Str} {yes no : α} (hp : E.parse i name = .ok p) (ht : ps t = writeAll name bs yes no) {D : Path → Prop}
    (hoth : ∀ u, u ≠ t → (ps u).All fun c => ¬ c.Stores E i p ∧ ¬ c.Deletes E i p ∧ ∀ q, c.Deletes E i q → ¬ D q)
    (es : List Event) {r : α} (hret : ((begin E w ps).run es).code t = .ret r) :
    (r = yes ∧ ∃ f, lookup ((begin E w ps).run es).g.w p = some f ∧ Written p name bs.flatten f) ∨
      (r = no ∧ ¬ Sure E i w.infos (Stored w) D p) := by
  have h := (SysSafe.run (R := fun u => Rely anyS D (fun q => u = t ∧ q = p) u)
    (G := fun u => Any (Guar anyS D (fun q => u = t ∨ q ≠ p) u)) (fun u v huv _ _ g g' hg => Guar.rely huv (hg := hg) fun q hq => by
      rintro (h | h)
      · exact huv (hq.1.trans h.symm)
      · exact h hq.2) (fun u g g' h => Rely.ticks h) es (writers_safe E hr hp ht hoth)).ended hret rfl
  rcases h with ⟨h1, id, f, h2, h3⟩ | h
  · refine Or.inl ⟨h1, f, ?_, h2⟩
    unfold lookup
    rw [h3.there ⟨rfl, rfl⟩]
    exact congrArg some h3.obj
  · exact Or.inr h

/-- A goroutine can always go on to the end. -/
theorem can_end (s : Sys α) (t : Nat) : ∃ (picks : List (Option Path)) (a : α), (s.run (picks.map (Event.go t))).code t = .ret a := by
  obtain ⟨picks, g', a, h⟩ := finishes t (s.code t) s.g
  have key : ∀ (picks : List (Option Path)) (s : Sys α), ((s.run (picks.map (Event.go t))).g,
      (s.run (picks.map (Event.go t))).code t) = runAlone t picks (s.g, s.code t) := by
    intro picks
    induction picks with
    | nil => intro s; rfl
    | cons p picks ih =>
      intro s
      have := ih (s.step (.go t p))
      simp only [List.map_cons, Sys.run, List.foldl_cons, runAlone] at this ⊢
      rw [this]
      simp only [Sys.step, if_true]
  refine ⟨picks, a, ?_⟩
  have := key picks s
  rw [h] at this
  injection this

end FineWriters

open FineWriters

/-- **C91** (a file written is not lost).  One goroutine creates `name`, writes the pieces `bs` and closes; the others do
whatever they like with other paths, and everybody is interrupted between any two accesses to memory.  When the
goroutine has ended and `Create` had returned a file, the file is there with exactly the bytes written and their number as
its size, whatever the others do later. -/
theorem C91_kept {α : Type} (E : Env) {i : Info} {w : World} (hr : Reached E i w) (ps : Nat → Fine.Prog α) {t : Nat} {name : Str}
    {p : Path} {bs : List Str} {yes no : α} (hne : yes ≠ no) (hp : E.parse i name = .ok p)
    (ht : ps t = writeAll name bs yes no)
    (hoth : ∀ u, u ≠ t → (ps u).All fun c => ¬ c.Stores E i p ∧ ¬ c.Deletes E i p) (es : List Event)
    (hret : ((begin E w ps).run es).code t = .ret yes) :
    ∃ f, lookup ((begin E w ps).run es).g.w p = some f ∧ Written p name bs.flatten f := by
  rcases writers_run (D := fun _ => False) E hr hp ht
    (fun u hu => (hoth u hu).mono fun c hc => ⟨hc.1, hc.2, fun _ _ h => h⟩) es hret with h | h
  · exact h.2
  · exact absurd h.1 hne

/-- **C91** (`Create` succeeds).  If moreover the package is the Pkger's own and the directory of `p` is `/`, or is there and
nobody deletes it, `Create` returns a file. -/
theorem C91_created {α : Type} (E : Env) {i : Info} {w : World} (hl : ParseLaws E i) (hi : InfoOk i) (hr : Reached E i w)
    (ps : Nat → Fine.Prog α) {t : Nat} {name : Str} {p : Path} {bs : List Str} {yes no : α} (hp : E.parse i name = .ok p)
    (hpkg : p.pkg = i.importPath)
    (ht : ps t = writeAll name bs yes no)
    (hoth : ∀ u, u ≠ t → (ps u).All fun c => ¬ c.Stores E i p ∧ ¬ c.Deletes E i p)
    (hdir : GoPath.dir p.name = GoPath.rootS ∨ ∃ q, E.parse i (GoPath.dir p.name) = .ok q ∧ Stored w q ∧
      ∀ u, u ≠ t → (ps u).All fun c => ¬ c.Deletes E i q) (es : List Event) {r : α}
    (hret : ((begin E w ps).run es).code t = .ret r) :
    r = yes ∧ ∃ f, lookup ((begin E w ps).run es).g.w p = some f ∧ Written p name bs.flatten f := by
  have both : ∀ {φ ψ : Fine.Call → Prop} {c : Fine.Prog α}, c.All φ → c.All ψ → c.All fun x => φ x ∧ ψ x := by
    intro φ ψ c
    induction c with
    | ret a => exact fun _ _ => trivial
    | step c k ih => exact fun h1 h2 => ⟨⟨h1.1, h2.1⟩, fun a => ih a (h1.2 a) (h2.2 a)⟩
  have hroot : ∀ pt, E.parse i GoPath.rootS = .ok pt → (GoPath.split pt.name).1 = GoPath.rootS := by
    intro pt hpt
    have hh := hr.here
    have := chain_root (E := E) (w := w) (by rw [hh]; exact hl) (by rw [hh]; exact hi) hr.inv.wf (q := pt)
      (.self (by rw [hh]; exact hpt))
    rw [this]
    show (GoPath.split GoPath.rootS).1 = GoPath.rootS
    decide
  have hk : ∃ j, AMap.get w.infos p.pkg = some j := ⟨i, by rw [hr.infos.2, if_pos hpkg]⟩
  rcases hdir with hd | ⟨q, h1, h2, h3⟩
  · rcases writers_run (D := fun _ => False) E hr hp ht
      (fun u hu => (hoth u hu).mono fun c hc => ⟨hc.1, hc.2, fun _ _ h => h⟩) es hret with h | h
    · exact h
    · exact absurd ⟨hroot, hk, Or.inl hd⟩ h.2
  · rcases writers_run (D := fun x => x = q) E hr hp ht
      (fun u hu => (both (hoth u hu) (h3 u hu)).mono fun c hc => ⟨hc.1.1, hc.1.2, fun x hx e => hc.2 (e ▸ hx)⟩) es hret with h | h
    · exact h
    · exact absurd ⟨hroot, hk, Or.inr ⟨q, h1, h2, rfl⟩⟩ h.2

theorem all_writes {α : Type} {φ : Fine.Call → Prop} {k : Nat} {e : Fine.Prog α} (h : ∀ b, φ (.write k b)) (he : e.All φ) :
    ∀ bs : List Str, (writes k bs e).All φ
  | [] => he
  | b :: bs => ⟨h b, fun _ => all_writes h he bs⟩

theorem all_writeAll {α : Type} {φ : Fine.Call → Prop} {name : Str} {bs : List Str} {yes no : α} (h1 : φ (.create name))
    (h2 : ∀ k b, φ (.write k b)) (h3 : ∀ k, φ (.reads (.close k))) : (writeAll name bs yes no).All φ := by
  refine ⟨h1, fun a => ?_⟩
  simp only
  split
  · rename_i k
    have he : (Fine.Prog.step (.reads (.close k)) fun _ => Fine.Prog.ret yes).All φ := ⟨h3 k, fun _ => trivial⟩
    exact all_writes (fun b => h2 k b) he bs
  · trivial

/-- **C91** (all of them).  Any number of goroutines write files at different paths, none of them `/`, in directories that
are there or `/`.  However they interrupt each other, everyone that has ended has its file in place, and everyone can
end. -/
theorem C91_all {α : Type} (E : Env) {i : Info} {w : World} (hl : ParseLaws E i) (hi : InfoOk i) (hr : Reached E i w)
    (name : Nat → Str) (p : Nat → Path) (bs : Nat → List Str) (yes no : Nat → α)
    (hp : ∀ t, E.parse i (name t) = .ok (p t)) (hinj : ∀ t u, p t = p u → t = u) (hroot : ∀ t, p t ≠ rootOf i)
    (hpkg : ∀ t, (p t).pkg = i.importPath)
    (hdir : ∀ t, GoPath.dir (p t).name = GoPath.rootS ∨ ∃ q, E.parse i (GoPath.dir (p t).name) = .ok q ∧ Stored w q)
    (es : List Event) (t : Nat) :
    (∀ r, ((begin E w fun t => writeAll (name t) (bs t) (yes t) (no t)).run es).code t = .ret r → r = yes t ∧
      ∃ f, lookup ((begin E w fun t => writeAll (name t) (bs t) (yes t) (no t)).run es).g.w (p t) = some f ∧
        Written (p t) (name t) (bs t).flatten f) ∧
    ∃ picks : List (Option Path),
      ((begin E w fun t => writeAll (name t) (bs t) (yes t) (no t)).run (es ++ picks.map (Event.go t))).code t = .ret (yes t) := by
  have hmk : ∀ {s q}, Makes E i s q → Chain E w.here s q := by
    intro s q h
    rw [hr.here]
    induction h with
    | self h => exact .self h
    | above h hd _ ih => exact .up h hd ih
  have hno : ∀ u, u ≠ t → (writeAll (name u) (bs u) (yes u) (no u)).All fun c => ¬ c.Stores E i (p t) ∧ ¬ c.Deletes E i (p t) := by
    intro u hu
    refine all_writeAll ⟨?_, fun h => h⟩ (fun _ _ => ⟨fun h => h, fun h => h⟩) (fun _ => ⟨fun h => h, fun h => h⟩)
    rintro (h | h)
    · have hh := hr.here
      have := chain_root (E := E) (w := w) (by rw [hh]; exact hl) (by rw [hh]; exact hi) hr.inv.wf (hmk h)
      exact hroot t (this.trans (by rw [hh]))
    · rw [hp u] at h
      injection h with h
      exact hu (hinj _ _ h)
  have first : ∀ es r, ((begin E w fun t => writeAll (name t) (bs t) (yes t) (no t)).run es).code t = .ret r → r = yes t ∧
      ∃ f, lookup ((begin E w fun t => writeAll (name t) (bs t) (yes t) (no t)).run es).g.w (p t) = some f ∧
        Written (p t) (name t) (bs t).flatten f := by
    intro es r hret
    refine C91_created (t := t) E hl hi hr (fun t => writeAll (name t) (bs t) (yes t) (no t)) (hp t) (hpkg t) rfl hno ?_ es hret
    rcases hdir t with h | ⟨q, h1, h2⟩
    · exact Or.inl h
    · exact Or.inr ⟨q, h1, h2, fun u _ => all_writeAll (fun h => h) (fun _ _ h => h) (fun _ h => h)⟩
  refine ⟨first es, ?_⟩
  obtain ⟨picks, a, h⟩ := can_end ((begin E w fun t => writeAll (name t) (bs t) (yes t) (no t)).run es) t
  have e : (begin E w fun t => writeAll (name t) (bs t) (yes t) (no t)).run (es ++ picks.map (Event.go t)) =
      ((begin E w fun t => writeAll (name t) (bs t) (yes t) (no t)).run es).run (picks.map (Event.go t)) := List.foldl_append
  refine ⟨picks, ?_⟩
  rw [e, h, (first (es ++ picks.map (Event.go t)) a (by rw [e]; exact h)).1]

/-! ### Several goroutines writing the same file -/

/-- **C92** (no mixture).  Any number of goroutines create and write the same file `p`, others make directories, remove files and
read, everybody interrupted anywhere.  A goroutine that opens `p` and reads is told that there is no such file, or gets the
beginning of something in `S`: nothing, what was in `p` before, or everything one of the writers writes. -/
theorem C92_no_mixture_partial {α : Type} (E : Env) {i : Info} {w : World} (hr : Reached E i w) {ps : Nat → Fine.Prog α} {p : Path}
    {S : Str → Prop} (hnil : S []) (hold : ∀ f, lookup w p = some f → S f.bytes)
    (hps : ∀ u, ((ps u).All fun c => ¬ c.Creates E i p) ∨
      ∃ name bs yes no, ps u = writeAll name bs yes no ∧ E.parse i name = .ok p ∧ S bs.flatten)
    {t : Nat} {name : Str} {n : Nat} {fin : Fine.Ans → α} (hp : E.parse i name = .ok p) (ht : ps t = readOnce name n fin)
    (es : List Event) {r : α} (hret : ((begin E w ps).run es).code t = .ret r) :
    r = fin (.reads (.opened (.err .notExist))) ∨
      ∃ s, S s ∧ r = fin (.reads (.bytes (s.take n) (if s = [] then some .unableToRead else none))) := by
  let S' : Path → Str → Prop := fun q s => q = p → S s
  let no : Path → Prop := fun _ => False
  let all : Path → Prop := fun _ => True
  have hwf := hr.inv.wf
  have hh : ∀ u, Hold S' no u [] (begin E w ps).g := fun u =>
    hold_begin hwf (fun q f hf e => hold f (by rw [← e]; exact hf)) u
  have hsafe : SysSafe (fun u => Rely S' no no u) (fun u => Any (Guar S' no all u))
      (fun u r _ => u = t → r = fin (.reads (.opened (.err .notExist))) ∨
        ∃ s, S s ∧ r = fin (.reads (.bytes (s.take n) (if s = [] then some .unableToRead else none)))) (begin E w ps) := by
    constructor
    intro u
    by_cases hu : u = t
    · subst hu
      refine ⟨Hold S' no u [], Hold.stable [], hh u, ?_⟩
      show Safe u _ _ ((ps u).code E w.here []) _ _
      rw [ht, hr.here]
      refine (read_once E i hp (fun _ h => h) n fin).mono (fun _ h => h) fun r g h _ => ?_
      rcases h with h | ⟨s, h1, h2⟩
      · exact Or.inl h
      · exact Or.inr ⟨s, h1 rfl, h2⟩
    · rcases hps u with h | ⟨name', bs, yes, no', h1, h2, h3⟩
      · refine ⟨Hold S' no u [], Hold.stable [], hh u, ?_⟩
        show Safe u _ _ ((ps u).code E w.here []) _ _
        rw [hr.here]
        refine (hold_prog E i (fun _ _ => hnil) (ps u) [] (h.mono fun c hc => ?_)).mono (fun _ h => h) fun r g _ e => absurd e hu
        exact ⟨fun q _ => trivial, fun q _ => ⟨trivial, fun h => h⟩, fun q hq s e => absurd (e ▸ hq) hc⟩
      · refine ⟨fun g => Hold S' no u [] g ∧ Known w.infos no g, fun g g' h hr =>
          ⟨Hold.stable [] g g' h.1 hr, Known.stable g g' h.2 hr⟩, ⟨hh u, rfl, fun q hq => hq.elim⟩, ?_⟩
        show Safe u _ _ ((ps u).code E w.here []) _ _
        rw [h1, hr.here]
        exact (write_all E i h2 (fun q _ => trivial) (fun _ _ => hnil) w.infos no yes no' (fun _ => h3)).mono (fun _ h => h)
          fun r g _ e => absurd e hu
  exact (SysSafe.run (R := fun u => Rely S' no no u) (G := fun u => Any (Guar S' no all u))
    (fun u v huv _ _ g g' hg => Guar.rely huv (fun q hq => hq.elim) hg) (fun u g g' h => Rely.ticks h) es hsafe).ended hret rfl

/-- Open the file `name`, ask for its details and read up to `n` bytes. -/
def statRead (name : Str) (n : Nat) : Fine.Prog (List Fine.Ans) :=
  .step (.reads (.openFile name)) fun
    | .reads (.opened (.ok k)) =>
      .step (.reads (.fileStat k)) fun d => .step (.reads (.read k n)) fun b => .ret [d, b]
    | a => .ret [a]

/-- **C92** in full: moreover the size of the opened file is the number of its bytes. -/
def C92_statement (E : Env) : Prop :=
  ∀ (i : Info) (w : World) (ps : Nat → Fine.Prog (List Fine.Ans)) (p : Path), Reached E i w →
    (∀ f, lookup w p = some f → ∃ d, f.info = some d ∧ d.size = f.bytes.length) →
    (∀ u, ((ps u).All fun c => ¬ c.Creates E i p) ∨
      ∃ name bs yes no, ps u = writeAll name bs yes no ∧ E.parse i name = .ok p) →
    ∀ (t : Nat) (name : Str) (n : Nat) (es : List Event) (d : Details) (b : Str) (e : Option Err),
      E.parse i name = .ok p → ps t = statRead name n →
      ((begin E w ps).run es).code t = .ret [.reads (.details (.ok d)), .reads (.bytes b e)] → b.length < n → d.size = b.length

/-- One goroutine writes `/f`, another opens it, asks for its details and reads. -/
def sizeProgs : Nat → Fine.Prog (List Fine.Ans) := fun u =>
  if u = 0 then writeAll (b! "/f") [b! "ab", b! "cd"] [.wrote 1] []
  else if u = 1 then statRead (b! "/f") 9 else .ret []

/-- The second goroutine comes when the first, in `Close`, has put the bytes in place but not yet the size. -/
def sizeEvents : List Event := List.replicate 13 (.go 0 none) ++ List.replicate 12 (.go 1 none)

/-- The result of a goroutine that has ended. -/
def result {α : Type} : Code α → Option α
  | .ret a => some a
  | _ => none

theorem result_eq {α : Type} {c : Code α} {a : α} (h : result c = some a) : c = .ret a := by
  cases c with
  | ret x => injection h with h; rw [h]
  | acc x k => cases h
  | range st b k => cases h

/-- **C92 is false in full**: the size may be that of the content before. -/
theorem C92_refuted : ¬ C92_statement Demo.env := by
  intro h
  have := h Demo.info Demo.w0 sizeProgs ⟨b! "app", b! "/f"⟩ (Reached.ofNew 1000 [] (by simp)) (by
      intro f hf
      have : lookup Demo.w0 ⟨b! "app", b! "/f"⟩ = none := by decide +kernel
      rw [this] at hf
      cases hf) (by
      intro u
      unfold sizeProgs
      split
      · exact Or.inr ⟨_, _, _, _, rfl, by decide +kernel⟩
      · split
        · refine Or.inl ⟨fun h => h, fun a => ?_⟩
          simp only
          split
          · exact ⟨fun h => h, fun _ => ⟨fun h => h, fun _ => trivial⟩⟩
          · trivial
        · exact Or.inl trivial) 1 (b! "/f") 9 sizeEvents ⟨b! "f", 0, 0o644, 1000, false⟩ (b! "abcd") none (by decide +kernel) rfl
    (result_eq (by decide +kernel)) (by decide)
  revert this
  decide

/-! ### Cases -/

/-- Three goroutines write `/a`, `/d/b` and `/d/c`, a fourth makes and removes `/e` and walks about. -/
def writeProgs : Nat → Fine.Prog Nat := fun u =>
  if u = 0 then writeAll (b! "/a") [b! "one", b! "two"] 1 0
  else if u = 1 then writeAll (b! "/d/b") [b! "three"] 1 0
  else if u = 2 then writeAll (b! "/d/c") [] 1 0
  else if u = 3 then .step (.mkdirAll (b! "/e/f") 0o755) fun _ => .step (.reads (.walk (b! "/"))) fun _ =>
    .step (.removeAll (b! "/e")) fun _ => .ret 1
  else .ret 1

/-- Where there is a directory `/d`. -/
def dOps : List Op := [.mkdirAll (b! "/d") 0o755]

theorem makes_of (E : Env) (i : Info) {s : Str} {pt q : Path} (hp : E.parse i s = .ok pt)
    (h : Makes E i s q) : q = pt ∨ ((GoPath.split pt.name).1 ≠ GoPath.rootS ∧ Makes E i (GoPath.split pt.name).1 q) := by
  cases h with
  | self h => rw [hp] at h; injection h with h; exact Or.inl h.symm
  | above h hd h' =>
    rw [hp] at h
    injection h with h
    subst h
    exact Or.inr ⟨hd, h'⟩

theorem writeProgs_others {p : Path} (h : p = ⟨b! "app", b! "/a"⟩ ∨ p = ⟨b! "app", b! "/d/b"⟩ ∨ p = ⟨b! "app", b! "/d/c"⟩ ∨
      p = ⟨b! "app", b! "/d"⟩) {u : Nat} (hu : ∀ name bs, writeProgs u = writeAll name bs 1 0 → Demo.env.parse Demo.info name ≠ .ok p) :
    (writeProgs u).All fun c => ¬ c.Stores Demo.env Demo.info p ∧ ¬ c.Deletes Demo.env Demo.info p := by
  have pr : Demo.env.parse Demo.info GoPath.rootS = .ok ⟨b! "app", b! "/"⟩ := by decide +kernel
  have root : ¬ Makes Demo.env Demo.info GoPath.rootS p := by
    intro hm
    rcases makes_of _ _ pr hm with e | ⟨hd, _⟩
    · subst e; revert h; decide
    · exact hd (by decide)
  have wr : ∀ name bs, writeProgs u = writeAll name bs 1 0 →
      (writeAll name bs 1 0).All fun c => ¬ c.Stores Demo.env Demo.info p ∧ ¬ c.Deletes Demo.env Demo.info p := by
    intro name bs e
    refine all_writeAll ⟨?_, fun h => h⟩ (fun _ _ => ⟨fun h => h, fun h => h⟩) (fun _ => ⟨fun h => h, fun h => h⟩)
    rintro (hm | hm)
    · exact root hm
    · exact hu name bs e hm
  by_cases h0 : u = 0
  · subst h0; exact wr _ _ rfl
  by_cases h1 : u = 1
  · subst h1; exact wr _ _ rfl
  by_cases h2 : u = 2
  · subst h2; exact wr _ _ rfl
  by_cases h3 : u = 3
  · subst h3
    have pf : Demo.env.parse Demo.info (b! "/e/f") = .ok ⟨b! "app", b! "/e/f"⟩ := by decide +kernel
    have pe : Demo.env.parse Demo.info (b! "/e") = .ok ⟨b! "app", b! "/e"⟩ := by decide +kernel
    have pe' : Demo.env.parse Demo.info (GoPath.split (b! "/e/f")).1 = .ok ⟨b! "app", b! "/e"⟩ := by decide +kernel
    refine ⟨⟨?_, fun h => h⟩, fun _ => ⟨⟨fun h => h, fun h => h⟩, fun _ => ⟨⟨fun h => h, ?_⟩, fun _ => trivial⟩⟩⟩
    · intro hm
      rcases makes_of _ _ pf hm with e | ⟨_, hm⟩
      · subst e; revert h; decide
      · rcases makes_of _ _ pe' hm with e | ⟨hd, _⟩
        · subst e; revert h; decide
        · exact hd (by decide)
    · rintro ⟨pt, h5, h6⟩
      rw [pe] at h5
      injection h5 with h5
      subst h5
      rcases h with rfl | rfl | rfl | rfl <;> revert h6 <;> decide
  · unfold writeProgs
    rw [if_neg h0, if_neg h1, if_neg h2, if_neg h3]
    trivial

/-- They satisfy the hypotheses of `C91_created`, for the file `/d/b`. -/
example : Reached Demo.env Demo.info (Demo.after dOps) ∧ Demo.env.parse Demo.info (b! "/d/b") = .ok ⟨b! "app", b! "/d/b"⟩ ∧
    (∀ u, u ≠ 1 → (writeProgs u).All fun c =>
      ¬ c.Stores Demo.env Demo.info ⟨b! "app", b! "/d/b"⟩ ∧ ¬ c.Deletes Demo.env Demo.info ⟨b! "app", b! "/d/b"⟩) ∧
    Demo.env.parse Demo.info (GoPath.dir (b! "/d/b")) = .ok ⟨b! "app", b! "/d"⟩ ∧
    (AMap.get (Demo.after dOps).files ⟨b! "app", b! "/d"⟩).isSome = true := by
  refine ⟨Reached.ofNew 1000 dOps (by intro o ho; simp [dOps] at ho; subst ho; trivial), by decide +kernel, ?_,
    by decide +kernel, by decide +kernel⟩
  intro u hu
  refine writeProgs_others (Or.inr (Or.inl rfl)) ?_
  intro name bs e
  have : u = 0 ∨ u = 2 ∨ u = 3 ∨ 3 < u := by omega
  have inj : ∀ {n m : Str} {x y : List Str}, writeAll (α := Nat) n x 1 0 = writeAll m y 1 0 → n = m := by
    intro n m x y h
    injection h with h _
    injection h
  rcases this with rfl | rfl | rfl | h
  · rw [← inj (show writeAll _ _ _ _ = writeAll _ _ _ _ from e)]; decide +kernel
  · rw [← inj (show writeAll _ _ _ _ = writeAll _ _ _ _ from e)]; decide +kernel
  · cases e
  · unfold writeProgs at e
    rw [if_neg (by omega), if_neg (by omega), if_neg (by omega), if_neg (by omega)] at e
    cases e

/-- The four take turns, access by access. -/
def writeEnd : Sys Nat := (begin Demo.env (Demo.after dOps) writeProgs).run
  ((List.range 60).flatMap fun k => [Event.go 0 none, .go 1 none, .tick (Int.ofNat k), .go 2 none, .go 3 none])

/-- The three writers have ended and their files are there; the fourth is still in the middle of `Walk`. -/
example : (List.range 4).map (fun u => result (writeEnd.code u)) = [some 1, some 1, some 1, none] ∧
    [b! "/a", b! "/d/b", b! "/d/c"].map (fun n => (lookup writeEnd.g.w ⟨b! "app", n⟩).map fun f => f.bytes) =
      [some (b! "onetwo"), some (b! "three"), some []] := ⟨by decide +kernel, by decide +kernel⟩

/-- Two goroutines write `/f`, a third removes it, a fourth reads. -/
def sameProgs : Nat → Fine.Prog (List Fine.Ans) := fun u =>
  if u = 0 then writeAll (b! "/f") [b! "ab", b! "cd"] [.wrote 1] []
  else if u = 1 then writeAll (b! "app:/f") [b! "xyz"] [.wrote 1] []
  else if u = 2 then .step (.remove (b! "/f")) fun a => .ret [a]
  else if u = 3 then readOnce (b! "/f") 9 fun a => [a] else .ret []

/-- They satisfy the hypotheses of `C92_no_mixture_partial`. -/
example : ∀ u, ((sameProgs u).All fun c => ¬ c.Creates Demo.env Demo.info ⟨b! "app", b! "/f"⟩) ∨
      ∃ name bs yes no, sameProgs u = writeAll name bs yes no ∧ Demo.env.parse Demo.info name = .ok ⟨b! "app", b! "/f"⟩ ∧
        (fun s => s = [] ∨ s = b! "abcd" ∨ s = b! "xyz") bs.flatten := by
  intro u
  unfold sameProgs
  split
  · exact Or.inr ⟨_, _, _, _, rfl, by decide +kernel, by decide⟩
  · split
    · exact Or.inr ⟨_, _, _, _, rfl, by decide +kernel, by decide⟩
    · split
      · exact Or.inl ⟨fun h => h, fun _ => trivial⟩
      · split
        · refine Or.inl ⟨fun h => h, fun a => ?_⟩
          simp only
          split
          · exact ⟨fun h => h, fun _ => trivial⟩
          · trivial
        · exact Or.inl trivial

/-- The reader comes between the accesses of the two writers: after the second's `Create` it finds an empty file although the
first has closed a full one, later the content of the second. -/
example :
    ((List.range 20).map fun k => result (((begin Demo.env Demo.w0 sameProgs).run
      (List.replicate 20 (.go 0 none) ++ List.replicate k (.go 1 none) ++ List.replicate 9 (.go 3 none))).code 3)) =
    List.replicate 7 (some [.reads (.bytes (b! "abcd") none)]) ++ List.replicate 4 (some [.reads (.bytes [] (some .unableToRead))]) ++
      List.replicate 9 (some [.reads (.bytes (b! "xyz") none)]) := by decide +kernel

end Props
end Verif
