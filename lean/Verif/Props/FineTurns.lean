import Verif.Lemmas.FineAdd
import Verif.Props.FineRemove

/-! C95: calls that only add are as if made one after the other. -/

namespace Verif
namespace Props

open Mem Fine FineWriters

/-- The call adds entries and takes none away. -/
def Adds : Fine.Call → Prop
  | .create _ => True
  | .mkdirAll _ _ => True
  | _ => False

/-- One goroutine for each call. -/
def apiece (cs : List Fine.Call) : Nat → Fine.Prog Fine.Ans := fun t =>
  match cs[t]? with
  | some c => .step c fun a => .ret a
  | none => .ret (.wrote 0)

/-- The calls one after the other: what is there in the end, and the answers. -/
def turns (E : Env) : World → List Fine.Call → World × List Fine.Ans
  | w, [] => (w, [])
  | w, c :: cs => ((turns E (whole E w [] c).1 cs).1, (whole E w [] c).2.2 :: (turns E (whole E w [] c).1 cs).2)

namespace FineTurns

/-- The answer of `Create`. -/
def ansOf : Res Nat → Fine.Ans
  | .ok _ => .reads (.opened (.ok 0))
  | .err e => .reads (.opened (.err e))
  | .panic => .reads (.opened .panic)

/-- How a call may come out: its answer, its rank, what it adds, what it must find, and what it must not find. -/
inductive Outcome (E : Env) (here : Info) (infos : AMap Str Info) :
    Fine.Call → Fine.Ans → Nat → (Path → Prop) → Option Path → Option Path → Prop where
  | mk (s : Str) (perm : Nat) : Outcome E here infos (.mkdirAll s perm) (.did (mkRes E here (s.length + 2) s)) 1
      (Made E here (s.length + 2) s) none none
  | fails {name : Str} {r : Res Nat} (h : plan E here infos name = .fails r) :
      Outcome E here infos (.create name) (ansOf r) 1 (Roots E here) none none
  | goes {name : Str} {pt : Path} {need : Option Path} (h : plan E here infos name = .goes pt need) :
      Outcome E here infos (.create name) (ansOf (.ok 0)) 2 (fun q => Roots E here q ∨ q = pt) need none
  | lacks {name : Str} {pt q : Path} (h : plan E here infos name = .goes pt (some q)) :
      Outcome E here infos (.create name) (ansOf (.err .couldNotStat)) 0 (Roots E here) none (some q)

/-- What has happened when a call has ended. -/
def Ended (E : Env) (here : Info) (w : World) (t : Nat) (c : Fine.Call) (a : Fine.Ans) (g : Glob) : Prop :=
  ∃ k L yes no, Outcome E here w.infos c a k L yes no ∧ Added w t L g ∧
    (∀ q, no = some q → ¬ Stored w q ∧ ¬ Roots E here q) ∧ Seat t (Roots E here) yes g

theorem seat_none (t : Nat) (L : Path → Prop) (g : Glob) : Seat t L none g :=
  ⟨0, Nat.zero_le _, fun q h => (by cases h), fun e h => (by simp at h)⟩

theorem adding_call (E : Env) (here : Info) {w : World} {t : Nat} {c : Fine.Call} (hc : Adds c) :
    Adding w t (callC E here [] c) (Added w t fun _ => False) (fun x g => Ended E here w t c x.2 g) := by
  cases c with
  | create name =>
    simp only [callC, obtainedC]
    refine Safe.bind (Q1 := fun x g => Ended E here w t (.create name) (.reads x.2) g) ?_ fun x g h => h
    refine (adding_create E here name).bind fun r => ?_
    have key : ∀ g, Created E here w t name r g → Ended E here w t (.create name) (ansOf r) g := by
      intro g h
      unfold Created at h
      cases hp : plan E here w.infos name with
      | fails r0 =>
        rw [hp] at h
        obtain ⟨rfl, h⟩ := h
        exact ⟨_, _, _, _, .fails hp, h, fun q e => (by cases e), seat_none ..⟩
      | goes pt need =>
        rw [hp] at h
        rcases h with ⟨id, rfl, h1, h2⟩ | ⟨q, rfl, rfl, h1, h2⟩
        · exact ⟨_, _, _, _, .goes hp, h1, fun q e => (by cases e), h2⟩
        · exact ⟨_, _, _, _, .lacks hp, h1, fun q' e => (by injection e with e; rw [← e]; exact h2), seat_none ..⟩
    cases r with
    | ok id => exact fun g h => key g h
    | err e => exact fun g h => key g h
    | panic => exact fun g h => key g h
  | mkdirAll s perm =>
    refine (adding_mkdirAllF E here (s.length + 2) s perm fun _ => False).bind fun r => ?_
    rintro g ⟨rfl, h⟩
    refine ⟨_, _, _, _, .mk s perm, h.congr fun q => ⟨fun h => h.elim (fun h => h.elim) fun h => h, Or.inr⟩,
      fun q e => (by cases e), seat_none ..⟩
  | _ => exact hc.elim

theorem added_begin {E : Env} {w : World} (hwf : WF w) {ps : Nat → Fine.Prog Fine.Ans} (t : Nat) :
    Added w t (fun _ => False) (begin E w ps).g := by
  have hget : ∀ e ∈ w.files, AMap.get w.files e.1 = some e.2 := fun e he => AMap.get_of_mem hwf.nodup he
  refine ⟨⟨rfl, fun q id h => AMap.get_mem h, fun e he => ⟨e.2, hget e he⟩, fun e he => (hwf.bound _ _ (hget e he)).1, ?_,
    fun e he => he, fun e he => Or.inl he⟩, fun e _ h => (by cases h), fun q h => h.elim⟩
  intro e he
  obtain ⟨d, hd⟩ := (hwf.bound _ _ (hget e he)).2.2
  show (w.heap e.2).info ≠ none
  rw [hd]
  simp

/-- What has happened when all the calls, or some, have ended. -/
theorem adders (E : Env) {i : Info} {w : World} (hr : Reached E i w) {cs : List Fine.Call} (hcs : ∀ c ∈ cs, Adds c) (es : List Event) :
    (∀ t c a, cs[t]? = some c → ((begin E w (apiece cs)).run es).code t = .ret a →
      Ended E i w t c a ((begin E w (apiece cs)).run es).g) ∧
    (∀ t, cs[t]? = none → Added w t (fun _ => False) ((begin E w (apiece cs)).run es).g) := by
  let Q : Nat → Fine.Ans → Glob → Prop := fun t a g => (∀ c, cs[t]? = some c → Ended E i w t c a g) ∧
    (cs[t]? = none → Added w t (fun _ => False) g)
  have hs : SysSafe (fun t => GRely w t) (fun t => Any (GStep w t)) Q (begin E w (apiece cs)) := by
    constructor
    intro t
    refine ⟨Added w t fun _ => False, Added.stable _, added_begin hr.inv.wf t, ?_⟩
    show Safe t _ _ ((apiece cs t).code E w.here []) _ _
    rw [hr.here]
    unfold apiece
    cases hc : cs[t]? with
    | none => exact fun g h => ⟨fun c e => (by rw [hc] at e; cases e), fun _ => h⟩
    | some c =>
      refine (adding_call E i (hcs c (List.mem_of_getElem? hc))).bind fun x g h => ⟨fun c' e => ?_, fun e => (by rw [hc] at e; cases e)⟩
      rw [hc] at e
      injection e with e
      rw [← e]
      exact h
  have hall := SysSafe.run (R := fun t => GRely w t) (G := fun t => Any (GStep w t))
    (fun _ _ huv _ _ _ _ hg => GStep.rely huv hg) (fun _ _ _ h => GRely.ticks h) es hs
  refine ⟨fun t c a hc ha => (hall.ended ha).1 c hc, fun t hc => ?_⟩
  have stays : ∀ (es : List Event) (s : Sys Fine.Ans), (∃ a, s.code t = .ret a) → ∃ a, (s.run es).code t = .ret a := by
    intro es
    induction es with
    | nil => exact fun s h => h
    | cons e es ih =>
      rintro s ⟨a, ha⟩
      refine ih (s.step e) ?_
      cases e with
      | tick now => exact ⟨a, ha⟩
      | go u p =>
        by_cases hu : t = u
        · subst hu
          simp only [Sys.step, if_true, ha, Code.step]
          exact ⟨a, rfl⟩
        · simp only [Sys.step, if_neg hu]
          exact ⟨a, ha⟩
  obtain ⟨a, ha⟩ := stays es (begin E w (apiece cs)) ⟨.wrote 0, by
    show (apiece cs t).code E w.here [] = _
    unfold apiece
    rw [hc]
    rfl⟩
  exact (hall.ended ha).2 hc

theorem stored_iff {w : World} {g : Glob} (h : Grown w g) (q : Path) : Stored g.w q ↔ ∃ id, (q, id) ∈ g.came :=
  ⟨fun ⟨id, hid⟩ => ⟨id, h.was q id hid⟩, fun ⟨_, hid⟩ => h.stays _ hid⟩

theorem stored_files {w : World} (hwf : WF w) {e : Path × Nat} (he : e ∈ w.files) : Stored w e.1 :=
  ⟨e.2, AMap.get_of_mem hwf.nodup he⟩

/-- A call by itself, seen as a goroutine. -/
theorem whole_run (E : Env) {i : Info} {w : World} (hr : Reached E i w) {c : Fine.Call} (hc : Adds c) :
    ∃ es, ((begin E w (apiece [c])).run es).code 0 = .ret (whole E w [] c).2.2 ∧
      ((begin E w (apiece [c])).run es).g.w = (whole E w [] c).1 := by
  have hal : ∀ g : Glob, Alone 0 (callC E g.w.here [] c) g fun x g' => (g'.w, x) = whole E g.w [] c := by
    intro g
    cases c with
    | create name =>
      refine (alone_obtained (E := E) (alone_create E g name)).bind ?_
      intro r g' h
      simp only [whole, ← h]
      exact Alone.ret rfl
    | mkdirAll p perm =>
      refine (alone_mkdirAllF E _ g p perm).bind ?_
      intro r g' h
      simp only [whole, Mem.mkdirAll, ← h]
      exact Alone.ret rfl
    | _ => exact hc.elim
  let g0 := (begin E w (apiece [c])).g
  have hal' : Alone 0 ((apiece [c] 0).code E w.here []) g0 fun a g' => a = (whole E w [] c).2.2 ∧ g'.w = (whole E w [] c).1 := by
    refine (hal g0).bind ?_
    intro x g' h
    have h : (g'.w, x) = whole E w [] c := h
    rw [← h]
    exact Alone.ret ⟨rfl, rfl⟩
  obtain ⟨picks, g', a, h⟩ := finishes 0 ((apiece [c] 0).code E w.here []) g0
  have key : ∀ (picks : List (Option Path)) (s : Sys Fine.Ans), ((s.run (picks.map (Event.go 0))).g,
      (s.run (picks.map (Event.go 0))).code 0) = runAlone 0 picks (s.g, s.code 0) := by
    intro picks
    induction picks with
    | nil => intro s; rfl
    | cons p picks ih =>
      intro s
      have := ih (s.step (.go 0 p))
      simp only [List.map_cons, Sys.run, List.foldl_cons, runAlone] at this ⊢
      rw [this]
      simp only [Sys.step, if_true]
  have hres := hal'.result picks h
  have hk := key picks (begin E w (apiece [c]))
  refine ⟨picks.map (Event.go 0), ?_⟩
  rw [show runAlone 0 picks ((begin E w (apiece [c])).g, (begin E w (apiece [c])).code 0) = (g', .ret a) from h] at hk
  injection hk with h1 h2
  rw [h1, h2, hres.1]
  exact ⟨rfl, hres.2⟩

/-- In a Pkger where there is what a call must find and not what it must not find, the call comes out so. -/
theorem fits (E : Env) {i : Info} {v : World} (hr : Reached E i v) {c : Fine.Call} (hc : Adds c) {a : Fine.Ans} {k : Nat}
    {L : Path → Prop} {yes no : Option Path} (ho : Outcome E i v.infos c a k L yes no)
    (hy : ∀ q, yes = some q → Stored v q ∨ Roots E i q) (hn : ∀ q, no = some q → ¬ Stored v q ∧ ¬ Roots E i q) :
    (whole E v [] c).2.2 = a ∧ ∀ q, Stored (whole E v [] c).1 q ↔ Stored v q ∨ L q := by
  obtain ⟨es, h1, h2⟩ := whole_run E hr hc
  have had := adders E (cs := [c]) hr (by simpa using hc) es
  obtain ⟨k', L', yes', no', ho', hadd, hno, n, hn1, hn2, hn3⟩ := had.1 0 c _ rfl h1
  have hfrom : ∀ e ∈ ((begin E v (apiece [c])).run es).g.came, e ∈ v.files ∨ ((begin E v (apiece [c])).run es).g.owner e.2 = some 0 := by
    intro e he
    rcases hadd.grown.from_ e he with h | ⟨u, hu⟩
    · exact Or.inl h
    · cases u with
      | zero => exact Or.inr hu
      | succ u => exact ((had.2 (u + 1) rfl).only e he hu).elim
  have hyes : ∀ q, yes' = some q → Stored v q ∨ Roots E i q := by
    intro q hq
    obtain ⟨e, he, rfl⟩ := hn2 q hq
    rcases hfrom e (List.mem_of_mem_take he) with h | h
    · exact Or.inl (stored_files hr.inv.wf h)
    · exact Or.inr (hn3 e he h)
  have hst : ∀ q, Stored (whole E v [] c).1 q ↔ Stored v q ∨ L' q := by
    intro q
    rw [← h2, stored_iff hadd.grown]
    constructor
    · rintro ⟨id, hid⟩
      rcases hfrom _ hid with h | h
      · exact Or.inl (stored_files hr.inv.wf h)
      · exact Or.inr (hadd.only _ hid h)
    · rintro (⟨id, h⟩ | h)
      · exact ⟨id, hadd.grown.base _ (AMap.get_mem h)⟩
      · exact hadd.all q h
  generalize (whole E v [] c).2.2 = a' at ho' ⊢
  generalize (whole E v [] c).1 = v' at hst ⊢
  cases ho with
  | mk s perm =>
    cases ho'
    exact ⟨rfl, hst⟩
  | fails h =>
    cases ho' with
    | fails h' => rw [h] at h'; injection h' with h'; subst h'; exact ⟨rfl, hst⟩
    | goes h' => rw [h] at h'; cases h'
    | lacks h' => rw [h] at h'; cases h'
  | goes h =>
    cases ho' with
    | fails h' => rw [h] at h'; cases h'
    | goes h' => rw [h] at h'; injection h' with h1 h2; subst h1; exact ⟨rfl, hst⟩
    | lacks h' =>
      rw [h] at h'
      injection h' with _ h2
      exact ((hy _ h2).elim (hno _ rfl).1 (hno _ rfl).2).elim
  | lacks h =>
    cases ho' with
    | fails h' => rw [h] at h'; cases h'
    | goes h' =>
      rw [h] at h'
      injection h' with _ h2
      exact ((hyes _ h2.symm).elim (hn _ rfl).1 (hn _ rfl).2).elim
    | lacks h' => exact ⟨rfl, hst⟩

theorem whole_step (E : Env) (v : World) {c : Fine.Call} (hc : Adds c) :
    ∃ o : Op, o.HostOk ∧ (whole E v [] c).1 = Mem.step E v o := by
  cases c with
  | create name =>
    refine ⟨.create name, trivial, ?_⟩
    simp only [whole, Mem.step, Client.obtained]
    split <;> simp only [*]
  | mkdirAll p perm => exact ⟨.mkdirAll p perm, trivial, rfl⟩
  | _ => exact hc.elim

theorem reached_whole {E : Env} {i : Info} {v : World} (hr : Reached E i v) {c : Fine.Call} (hc : Adds c) :
    Reached E i (whole E v [] c).1 ∧ (whole E v [] c).1.infos = v.infos := by
  obtain ⟨o, ho, he⟩ := whole_step E v hc
  rw [he]
  exact ⟨hr.step ho, (here_run E hr.inv.heap [o] (by simpa using ho)).2⟩

/-- How a call came out, with the place of a call that had to find something. -/
structure Datum where
  k : Nat
  L : Path → Prop
  yes : Option Path
  no : Option Path
  n : Nat

/-- The order in which the calls are made. -/
def Datum.key (d : Datum) : Nat := d.k + if d.k = 2 then d.n else 0

structure Fit (E : Env) (i : Info) (w : World) (t : Nat) (c : Fine.Call) (a : Fine.Ans) (g : Glob) (d : Datum) : Prop where
  out : Outcome E i w.infos c a d.k d.L d.yes d.no
  added : Added w t d.L g
  no : ∀ q, d.no = some q → ¬ Stored w q ∧ ¬ Roots E i q
  found : ∀ q, d.yes = some q → ∃ e ∈ g.came.take d.n, e.1 = q
  own : ∀ e ∈ g.came.take d.n, g.owner e.2 = some t → Roots E i e.1

/-- Calls made in turn come out as they are said to, if each finds what it must and not what it must not. -/
theorem in_turn (E : Env) {i : Info} {infos : AMap Str Info} (c : Nat → Fine.Call) (a : Nat → Fine.Ans) (d : Nat → Datum) (ts : List Nat) :
    ∀ v, Reached E i v → v.infos = infos →
    (∀ t ∈ ts, Adds (c t) ∧ Outcome E i infos (c t) (a t) (d t).k (d t).L (d t).yes (d t).no) →
    (∀ pre t post, ts = pre ++ t :: post →
      (∀ q, (d t).yes = some q → Stored v q ∨ Roots E i q ∨ ∃ u ∈ pre, (d u).L q) ∧
      (∀ q, (d t).no = some q → ¬ Stored v q ∧ ¬ Roots E i q ∧ ∀ u ∈ pre, ¬ (d u).L q)) →
    (turns E v (ts.map c)).2 = ts.map a ∧
      ∀ q, Stored (turns E v (ts.map c)).1 q ↔ Stored v q ∨ ∃ u ∈ ts, (d u).L q := by
  induction ts with
  | nil => exact fun v _ _ _ _ => ⟨rfl, fun q => ⟨Or.inl, fun h => h.elim (fun h => h) fun ⟨_, h, _⟩ => (by cases h)⟩⟩
  | cons t ts ih =>
    intro v hr hi hts hsp
    obtain ⟨hc, ho⟩ := hts t List.mem_cons_self
    have h0 := hsp [] t ts rfl
    subst hi
    obtain ⟨h1, h2⟩ := fits E hr hc ho
      (fun q hq => by
        rcases h0.1 q hq with h | h | ⟨u, hu, _⟩
        · exact Or.inl h
        · exact Or.inr h
        · cases hu)
      (fun q hq => ⟨(h0.2 q hq).1, (h0.2 q hq).2.1⟩)
    obtain ⟨hr', hi'⟩ := reached_whole hr hc
    have hrest := ih (whole E v [] (c t)).1 hr' hi' (fun u hu => hts u (List.mem_cons_of_mem _ hu)) (by
      intro pre u post hsplit
      obtain ⟨hy, hn⟩ := hsp (t :: pre) u post (by rw [hsplit]; rfl)
      constructor
      · intro q hq
        rcases hy q hq with h | h | ⟨x, hx, hL⟩
        · exact Or.inl ((h2 q).mpr (Or.inl h))
        · exact Or.inr (Or.inl h)
        · rcases List.mem_cons.mp hx with rfl | hx
          · exact Or.inl ((h2 q).mpr (Or.inr hL))
          · exact Or.inr (Or.inr ⟨x, hx, hL⟩)
      · intro q hq
        obtain ⟨n1, n2, n3⟩ := hn q hq
        refine ⟨fun h => ?_, n2, fun x hx => n3 x (List.mem_cons_of_mem _ hx)⟩
        exact ((h2 q).mp h).elim n1 (n3 t List.mem_cons_self))
    refine ⟨?_, ?_⟩
    · show (whole E v [] (c t)).2.2 :: _ = a t :: _
      rw [h1, hrest.1]
    · intro q
      show Stored (turns E (whole E v [] (c t)).1 (ts.map c)).1 q ↔ _
      rw [hrest.2 q, h2 q]
      constructor
      · rintro ((h | h) | ⟨u, hu, h⟩)
        · exact Or.inl h
        · exact Or.inr ⟨t, List.mem_cons_self, h⟩
        · exact Or.inr ⟨u, List.mem_cons_of_mem _ hu, h⟩
      · rintro (h | ⟨u, hu, h⟩)
        · exact Or.inl (Or.inl h)
        · rcases List.mem_cons.mp hu with rfl | hu
          · exact Or.inl (Or.inr h)
          · exact Or.inr ⟨u, hu, h⟩

end FineTurns

open FineTurns

/-- C95, as far as it holds: calls that only create files and directories, made at the same time by as many goroutines,
interrupted by each other after any memory access, answer as they would if made one after the other in some order, and what
is there in the end is what is there after making them in that order. -/
theorem C95_adding_partial (E : Env) {i : Info} {w : World} (hr : Reached E i w) (cs : List Fine.Call) (hcs : ∀ c ∈ cs, Adds c)
    (es : List Event) (ans : Nat → Fine.Ans)
    (hret : ∀ t, t < cs.length → ((begin E w (apiece cs)).run es).code t = .ret (ans t)) :
    ∃ order : List Nat, order.Perm (List.range cs.length) ∧
      (turns E w (order.filterMap (cs[·]?))).2 = order.map ans ∧
      ∀ q, Stored (turns E w (order.filterMap (cs[·]?))).1 q ↔ Stored ((begin E w (apiece cs)).run es).g.w q := by
  obtain ⟨hdone, hidle⟩ := adders E hr hcs es
  generalize ((begin E w (apiece cs)).run es).g = g at hdone hidle ⊢
  let c : Nat → Fine.Call := fun t => cs[t]?.getD (.mkdirAll [] 0)
  have hc : ∀ t, t < cs.length → cs[t]? = some (c t) := by
    intro t ht
    simp only [c, List.getElem?_eq_getElem ht, Option.getD_some]
  have hd : ∀ t, ∃ d : Datum, t < cs.length → Fit E i w t (c t) (ans t) g d := by
    intro t
    by_cases ht : t < cs.length
    · obtain ⟨k, L, yes, no, h1, h2, h3, n, _, h4, h5⟩ := hdone t (c t) (ans t) (hc t ht) (hret t ht)
      exact ⟨⟨k, L, yes, no, n⟩, fun _ => ⟨h1, h2, h3, h4, h5⟩⟩
    · exact ⟨⟨0, fun _ => False, none, none, 0⟩, fun h => absurd h ht⟩
  obtain ⟨d, hd⟩ := Classical.axiomOfChoice hd
  have hgrown : Grown w g := (hidle cs.length (by simp)).grown
  have hfrom : ∀ e ∈ g.came, e ∈ w.files ∨ ∃ u, u < cs.length ∧ g.owner e.2 = some u := by
    intro e he
    rcases hgrown.from_ e he with h | ⟨u, hu⟩
    · exact Or.inl h
    · by_cases hlt : u < cs.length
      · exact Or.inr ⟨u, hlt, hu⟩
      · exact ((hidle u (by simp; omega)).only e he hu).elim
  let le : Nat → Nat → Bool := fun a b => decide ((d a).key ≤ (d b).key)
  have hperm : ((List.range cs.length).mergeSort le).Perm (List.range cs.length) := List.mergeSort_perm _ _
  have hsort : ((List.range cs.length).mergeSort le).Pairwise fun a b => le a b = true :=
    List.pairwise_mergeSort (fun a b c h1 h2 => by simp only [le, decide_eq_true_eq] at *; omega)
      (fun a b => by simp only [le, Bool.or_eq_true, decide_eq_true_eq]; omega) _
  generalize (List.range cs.length).mergeSort le = order at hperm hsort
  have hmem : ∀ t, t ∈ order ↔ t < cs.length := fun t => by rw [hperm.mem_iff, List.mem_range]
  have hmap : order.filterMap (cs[·]?) = order.map c := by
    have : ∀ l : List Nat, (∀ t ∈ l, t < cs.length) → l.filterMap (cs[·]?) = l.map c := by
      intro l
      induction l with
      | nil => exact fun _ => rfl
      | cons t l ih =>
        intro h
        rw [List.filterMap_cons, hc t (h t List.mem_cons_self), ih fun u hu => h u (List.mem_cons_of_mem _ hu)]
        rfl
    exact this order fun t ht => (hmem t).mp ht
  refine ⟨order, hperm, ?_⟩
  rw [hmap]
  have hrun := in_turn E c ans d order w hr rfl
    (fun t ht => ⟨hcs _ (List.mem_of_getElem? (hc t ((hmem t).mp ht))), (hd t ((hmem t).mp ht)).out⟩) (by
    intro pre t post hsplit
    have ht : t < cs.length := (hmem t).mp (by rw [hsplit]; simp)
    have hft := hd t ht
    rw [hsplit] at hsort
    obtain ⟨_, hs2, hs3⟩ := List.pairwise_append.mp hsort
    have hs4 := (List.pairwise_cons.mp hs2).1
    have hearly : ∀ u, u < cs.length → (d u).key < (d t).key → u ∈ pre := by
      intro u hu hk
      have := (hmem u).mpr hu
      rw [hsplit] at this
      rcases List.mem_append.mp this with h | h
      · exact h
      · rcases List.mem_cons.mp h with rfl | h
        · omega
        · have := hs4 u h
          simp only [le, decide_eq_true_eq] at this
          omega
    have hlate : ∀ u ∈ pre, (d u).key ≤ (d t).key := by
      intro u hu
      have := hs3 u hu t List.mem_cons_self
      simpa only [le, decide_eq_true_eq] using this
    constructor
    · intro q hq
      have hkt : (d t).key = 2 + (d t).n := by
        have ho := hft.out
        rw [hq] at ho
        unfold Datum.key
        generalize (d t).k = k at ho ⊢
        generalize (d t).no = no at ho
        generalize (d t).L = L at ho
        generalize hct : c t = ct at ho
        generalize hat : ans t = at' at ho
        cases ho
        simp
      obtain ⟨e, he, heq⟩ := hft.found q hq
      rcases hfrom e (List.mem_of_mem_take he) with h | ⟨u, hu, howns⟩
      · exact Or.inl (heq ▸ stored_files hr.inv.wf h)
      · have hfu := hd u hu
        have hLu := hfu.added.only e (List.mem_of_mem_take he) howns
        have hown := hfu.own e
        have hku : (d u).key = (d u).k + if (d u).k = 2 then (d u).n else 0 := rfl
        have hL2 := hLu
        have ho := hfu.out
        have hpre := hearly u hu
        rw [hkt, hku] at hpre
        subst heq
        by_cases hroot : Roots E i e.1
        · exact Or.inr (Or.inl hroot)
        refine Or.inr (Or.inr ⟨u, hpre ?_, hLu⟩)
        generalize (d u).k = k at ho ⊢
        generalize (d u).L = L at ho hL2
        generalize (d u).yes = yes at ho
        generalize (d u).no = no at ho
        generalize hcu : c u = cu at ho
        generalize hau : ans u = au at ho
        cases ho with
        | mk => simp; omega
        | fails => exact absurd hL2 hroot
        | lacks => exact absurd hL2 hroot
        | goes =>
          simp only [if_true]
          have : ¬ (d t).n ≤ (d u).n := by
            intro hle
            refine hroot (hown ?_ howns)
            have hpfx : g.came.take (d t).n <+: g.came.take (d u).n := List.take_prefix_take_left hle
            exact hpfx.subset he
          omega
    · intro q hq
      obtain ⟨h1, h2⟩ := hft.no q hq
      refine ⟨h1, h2, fun u hu hL => ?_⟩
      have hkt : (d t).key = 0 := by
        have ho := hft.out
        rw [hq] at ho
        unfold Datum.key
        generalize (d t).k = k at ho ⊢
        generalize (d t).yes = yes at ho
        generalize (d t).L = L at ho
        generalize hct : c t = ct at ho
        generalize hat : ans t = at' at ho
        cases ho
        simp
      have hku := hlate u hu
      rw [hkt] at hku
      have hfu := hd u ((hmem u).mp (by rw [hsplit]; exact List.mem_append_left _ hu))
      have ho := hfu.out
      unfold Datum.key at hku
      generalize (d u).k = k at ho hku
      generalize (d u).L = L at ho hL
      generalize (d u).yes = yes at ho
      generalize (d u).no = no at ho
      generalize hcu : c u = cu at ho
      generalize hau : ans u = au at ho
      cases ho with
      | lacks => exact h2 hL
      | _ => omega)
  refine ⟨hrun.1, fun q => ?_⟩
  rw [hrun.2 q, stored_iff hgrown]
  constructor
  · rintro (⟨id, h⟩ | ⟨u, hu, h⟩)
    · exact ⟨id, hgrown.base _ (AMap.get_mem h)⟩
    · exact (hd u ((hmem u).mp hu)).added.all q h
  · rintro ⟨id, hid⟩
    rcases hfrom _ hid with h | ⟨u, hu, h⟩
    · exact Or.inl (stored_files hr.inv.wf h)
    · exact Or.inr ⟨u, (hmem u).mpr hu, (hd u hu).added.only _ hid h⟩

/-- Three goroutines: one makes `/d`, one creates `/d/f` below it, one creates `/x/y` whose directory nobody makes. -/
def turnCalls : List Fine.Call := [.create (b! "/d/f"), .mkdirAll (b! "/d") 0o755, .create (b! "/x/y")]

/-- They take turns after every access. -/
def turnEvents : List Event := (List.replicate 12 [Event.go 1 none, .go 2 none, .go 0 none]).flatten

/-- The hypotheses of `C95_adding_partial` are met: all three end, the first finding the directory that the second is making, the third failing. -/
example : Reached Demo.env Demo.info (Demo.after []) ∧ (∀ c ∈ turnCalls, Adds c) ∧
    (∀ t, t < turnCalls.length → ((begin Demo.env (Demo.after []) (apiece turnCalls)).run turnEvents).code t =
      .ret (if t = 0 then .reads (.opened (.ok 0)) else if t = 1 then .did (.ok ()) else .reads (.opened (.err .couldNotStat)))) := by
  refine ⟨Reached.ofNew 1000 [] (by simp), by intro c hc; simp [turnCalls] at hc; rcases hc with rfl | rfl | rfl <;> trivial, ?_⟩
  intro t ht
  match t, ht with
  | 0, _ => exact result_eq (by decide +kernel)
  | 1, _ => exact result_eq (by decide +kernel)
  | 2, _ => exact result_eq (by decide +kernel)
  | t + 3, ht => exact absurd ht (by simp [turnCalls])

end Props
end Verif
