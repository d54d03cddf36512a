import Verif.Lemmas.ParserObj
import Verif.Lemmas.Stuff
import Verif.Props.FileTree
import Verif.Spec.ParserDemo

/-! C104, C105: a `Parser` used more than once, and files parsed one at a time. -/

namespace Verif
namespace Props

open Disk (Node)
open Parser

/-! ### C104 -/

namespace Scans

/-- The disk at the time of the first call of `Parse` or `DeclsMap`; `now` if there was none. -/
def first : List (Call × Node) → Node → Node
  | [], now => now
  | (.decls, _) :: rest, now => first rest now
  | (_, disk) :: _, _ => disk

/-- The disk as it was when the disk was last read: `Decls` always reads it, `Parse` and `DeclsMap` only the first
time.  `done` says whether there was such a first time already. -/
def last : Bool → List (Call × Node) → Node → Node
  | _, [], before => before
  | done, (.decls, disk) :: rest, _ => last done rest disk
  | true, (_, _) :: rest, before => last true rest before
  | false, (_, disk) :: rest, _ => last true rest disk

end Scans

theorem scan_knows {E : Env} {G : GoTool} {her : Info} {includes : List Str} {disk : Node} {o : Object} :
    (o.scan E G her includes disk).1.maps = o.maps ++ [(parseTo E G disk her includes).1] ∧
    (o.scan E G her includes disk).1.cur = o.maps.length ∧ (o.scan E G her includes disk).1.done = o.done ∧
    (o.scan E G her includes disk).1.err = o.err ∧
    (o.scan E G her includes disk).2 = (parseTo E G disk her includes).2 := by
  unfold Object.scan
  exact ⟨rfl, rfl, rfl, rfl, rfl⟩

/-- The state a first `Parse` leaves. -/
theorem parse_state {E : Env} {G : GoTool} {her : Info} {includes : List Str} {disk : Node} {o : Object} :
    (o.parse E G her includes disk).1.done = true ∧
    (o.done = true → (o.parse E G her includes disk) = (o, false)) ∧
    (o.done = false →
      (o.parse E G her includes disk).1.maps = o.maps ++ [(parseTo E G disk her includes).1] ∧
      (o.parse E G her includes disk).1.cur = o.maps.length ∧
      ((o.parse E G her includes disk).2 = true ↔ parse E G disk her includes = .panic) ∧
      (∀ m, parse E G disk her includes = .ok m → (o.parse E G her includes disk).1.err = none) ∧
      (∀ e, parse E G disk her includes = .err e → (o.parse E G her includes disk).1.err = some e)) := by
  rw [← parseTo_outcome]
  unfold Object.parse Object.scan
  cases hd : o.done with
  | true => exact ⟨by simpa using hd, by simp, by simp⟩
  | false =>
    cases h : parseTo E G disk her includes with
    | mk m r =>
      cases r with
      | none => simp [outcome]
      | some st => cases st <;> simp [outcome]

/-- The effect of one call on the maps: those made before stay. -/
theorem call_maps {E : Env} {G : GoTool} {her : Info} {includes : List Str} {disk : Node} (o : Object) (c : Call) :
    ∃ l, (o.call E G her includes disk c).1.maps = o.maps ++ l := by
  have hp : ∃ l, (o.parse E G her includes disk).1.maps = o.maps ++ l := by
    obtain ⟨_, h1, h2⟩ := @parse_state E G her includes disk o
    cases hd : o.done with
    | true => exact ⟨[], by rw [h1 hd]; simp⟩
    | false => exact ⟨_, (h2 hd).1⟩
  cases c with
  | decls =>
    refine ⟨[(parseTo E G disk her includes).1], ?_⟩
    have h := (@scan_knows E G her includes disk o).1
    revert h
    unfold Object.call
    simp only
    cases o.scan E G her includes disk with
    | mk o' r =>
      intro h
      cases r with
      | none => exact h
      | some st => cases st <;> exact h
  | declsMap =>
    obtain ⟨l, h⟩ := hp
    refine ⟨l, ?_⟩
    revert h
    unfold Object.call
    simp only
    cases o.parse E G her includes disk with
    | mk o' r => intro h; cases r <;> exact h
  | parse =>
    obtain ⟨l, h⟩ := hp
    refine ⟨l, ?_⟩
    revert h
    unfold Object.call
    simp only
    cases o.parse E G her includes disk with
    | mk o' r => intro h; cases r <;> exact h

theorem calls_maps {E : Env} {G : GoTool} {her : Info} {includes : List Str} :
    ∀ (h : List (Call × Node)) (o : Object), ∃ l, (o.calls E G her includes h).maps = o.maps ++ l
  | [], o => ⟨[], by simp [Object.calls]⟩
  | (c, disk) :: rest, o => by
    obtain ⟨l1, h1⟩ := call_maps (E := E) (G := G) (her := her) (includes := includes) (disk := disk) o c
    obtain ⟨l2, h2⟩ := calls_maps rest (o.call E G her includes disk c).1
    exact ⟨l1 ++ l2, by rw [Object.calls, h2, h1, List.append_assoc]⟩

/-- **C104**, `Decls`: whatever was called before, and however it ended, `Decls` answers what parsing the disk as it
is now yields. -/
theorem C104_decls (E : Env) (G : GoTool) (her : Info) (includes : List Str) (h : List (Call × Node)) (now : Node) :
    ((Object.new.calls E G her includes h).call E G her includes now .decls).2 =
      match Parser.decls E G now her includes with
      | .ok ds => .decls (.ok ds)
      | .err e => .decls (.error e)
      | .panic => .panic := by
  generalize Object.new.calls E G her includes h = o
  unfold Parser.decls Object.call Object.scan
  rw [← parseTo_outcome]
  cases parseTo E G now her includes with
  | mk m r =>
    cases r with
    | none => simp [outcome, Object.look]
    | some st => cases st <;> rfl

/-- Calls on an object that has parsed leave `once` and its error alone. -/
theorem call_done {E : Env} {G : GoTool} {her : Info} {includes : List Str} {disk : Node} {o : Object} (c : Call)
    (hd : o.done = true) :
    (o.call E G her includes disk c).1.done = true ∧ (o.call E G her includes disk c).1.err = o.err := by
  have hp := (@parse_state E G her includes disk o).2.1 hd
  cases c with
  | decls =>
    obtain ⟨_, _, h3, h4, _⟩ := @scan_knows E G her includes disk o
    revert h3 h4
    unfold Object.call
    simp only
    cases o.scan E G her includes disk with
    | mk o' r =>
      intro h3 h4
      cases r with
      | none => exact ⟨h3.trans hd, h4⟩
      | some st => cases st <;> exact ⟨h3.trans hd, h4⟩
  | declsMap => simp [Object.call, hp, hd]
  | parse => simp [Object.call, hp, hd]

theorem calls_done {E : Env} {G : GoTool} {her : Info} {includes : List Str} :
    ∀ (h : List (Call × Node)) {o : Object}, o.done = true →
      (o.calls E G her includes h).done = true ∧ (o.calls E G her includes h).err = o.err
  | [], o, hd => ⟨hd, rfl⟩
  | (c, disk) :: rest, o, hd => by
    obtain ⟨h1, h2⟩ := call_done (E := E) (G := G) (her := her) (includes := includes) (disk := disk) c hd
    obtain ⟨h3, h4⟩ := calls_done (E := E) (G := G) (her := her) (includes := includes) rest h1
    exact ⟨h3, h4.trans h2⟩

/-- `Parse` and `DeclsMap` do the same to the object. -/
theorem call_parse_fst {E : Env} {G : GoTool} {her : Info} {includes : List Str} {disk : Node} {o : Object} {c : Call}
    (hc : c ≠ .decls) : (o.call E G her includes disk c).1 = (o.parse E G her includes disk).1 := by
  cases c with
  | decls => exact absurd rfl hc
  | declsMap =>
    unfold Object.call
    simp only
    cases o.parse E G her includes disk with
    | mk o' r => cases r <;> rfl
  | parse =>
    unfold Object.call
    simp only
    cases o.parse E G her includes disk with
    | mk o' r => cases r <;> rfl

theorem scan_call_decls {E : Env} {G : GoTool} {her : Info} {includes : List Str} {disk : Node} {o : Object} :
    (o.call E G her includes disk .decls).1 = (o.scan E G her includes disk).1 := by
  unfold Object.call
  simp only
  cases o.scan E G her includes disk with
  | mk o' r =>
    cases r with
    | none => rfl
    | some st => cases st <;> rfl

/-- The error the object keeps, after calls and one more `Parse`. -/
theorem parse_err {E : Env} {G : GoTool} {her : Info} {includes : List Str} {now : Node} :
    ∀ (h : List (Call × Node)) {o : Object}, o.done = false →
      parse E G (Scans.first h now) her includes ≠ .panic →
      ((o.calls E G her includes h).parse E G her includes now).2 = false ∧
      ((o.calls E G her includes h).parse E G her includes now).1.err =
        match parse E G (Scans.first h now) her includes with
        | .err e => some e
        | _ => none
  | [], o, hd, hp => by
    obtain ⟨_, _, h2⟩ := @parse_state E G her includes now o
    obtain ⟨_, _, h3, h4, h5⟩ := h2 hd
    simp only [Scans.first, Object.calls] at hp ⊢
    refine ⟨by simpa using mt h3.mp hp, ?_⟩
    cases hr : parse E G now her includes with
    | ok m => exact h4 m hr
    | err e => exact h5 e hr
    | panic => exact absurd hr hp
  | (.decls, disk) :: rest, o, hd, hp => by
    have hd' : (o.call E G her includes disk .decls).1.done = false := by
      rw [scan_call_decls]
      exact (@scan_knows E G her includes disk o).2.2.1.trans hd
    exact parse_err rest hd' hp
  | (.parse, disk) :: rest, o, hd, hp => by
    obtain ⟨h0, _, h2⟩ := @parse_state E G her includes disk o
    obtain ⟨_, _, h3, h4, h5⟩ := h2 hd
    rw [← call_parse_fst (c := .parse) (by decide)] at h0 h4 h5
    obtain ⟨k1, k2⟩ := calls_done (E := E) (G := G) (her := her) (includes := includes) rest h0
    simp only [Scans.first, Object.calls] at hp ⊢
    rw [(@parse_state E G her includes now _).2.1 k1]
    refine ⟨rfl, ?_⟩
    simp only
    rw [k2]
    cases hr : parse E G disk her includes with
    | ok m => exact h4 m hr
    | err e => exact h5 e hr
    | panic => exact absurd hr hp
  | (.declsMap, disk) :: rest, o, hd, hp => by
    obtain ⟨h0, _, h2⟩ := @parse_state E G her includes disk o
    obtain ⟨_, _, h3, h4, h5⟩ := h2 hd
    rw [← call_parse_fst (c := .declsMap) (by decide)] at h0 h4 h5
    obtain ⟨k1, k2⟩ := calls_done (E := E) (G := G) (her := her) (includes := includes) rest h0
    simp only [Scans.first, Object.calls] at hp ⊢
    rw [(@parse_state E G her includes now _).2.1 k1]
    refine ⟨rfl, ?_⟩
    simp only
    rw [k2]
    cases hr : parse E G disk her includes with
    | ok m => exact h4 m hr
    | err e => exact h5 e hr
    | panic => exact absurd hr hp

/-- **C104**, `Parse`: it reports how parsing the disk ended as the disk was when `Parse` or `DeclsMap` was first
called, whatever happened to the disk and whatever was called since. -/
theorem C104_parse (E : Env) (G : GoTool) (her : Info) (includes : List Str) (h : List (Call × Node)) (now : Node)
    (hp : parse E G (Scans.first h now) her includes ≠ .panic) :
    ((Object.new.calls E G her includes h).call E G her includes now .parse).2 =
      .parse (match parse E G (Scans.first h now) her includes with
        | .err e => some e
        | _ => none) := by
  obtain ⟨h1, h2⟩ := parse_err (now := now) h (o := Object.new) rfl hp
  revert h1 h2
  generalize Object.new.calls E G her includes h = o
  unfold Object.call
  simp only
  cases o.parse E G her includes now with
  | mk o' r =>
    intro h1 h2
    simp only at h1 h2
    subst h1
    simp only
    rw [h2]

/-- The map in use is the one the last reading of the disk left. -/
theorem calls_look {E : Env} {G : GoTool} {her : Info} {includes : List Str} :
    ∀ (h : List (Call × Node)) {o : Object} {before : Node},
      (o.done = true → o.look o.cur = (parseTo E G before her includes).1) →
      (h = [] → o.look o.cur = (parseTo E G before her includes).1) →
      (o.calls E G her includes h).look (o.calls E G her includes h).cur =
        (parseTo E G (Scans.last o.done h before) her includes).1
  | [], o, before, _, hb => by
    cases hd : o.done <;> exact hb rfl
  | (.decls, disk) :: rest, o, before, _, _ => by
    have hs := @scan_knows E G her includes disk o
    rw [← scan_call_decls] at hs
    obtain ⟨h1, h2, h3, _, _⟩ := hs
    have hl : (o.call E G her includes disk .decls).1.look (o.call E G her includes disk .decls).1.cur =
        (parseTo E G disk her includes).1 := by
      unfold Object.look
      rw [h1, h2]
      simp
    have := calls_look rest (o := (o.call E G her includes disk .decls).1) (before := disk) (fun _ => hl) (fun _ => hl)
    rw [h3] at this
    rw [Object.calls, this]
    cases o.done <;> rfl
  | (.parse, disk) :: rest, o, before, hd, _ => by
    have e := call_parse_fst (E := E) (G := G) (her := her) (includes := includes) (disk := disk) (o := o)
      (c := .parse) (by decide)
    obtain ⟨h0, h1, h2⟩ := @parse_state E G her includes disk o
    rw [Object.calls, e]
    cases ho : o.done with
    | true =>
      rw [h1 ho]
      have hl := hd ho
      have := calls_look rest (o := o) (before := before) (fun _ => hl) (fun _ => hl)
      rw [ho] at this
      exact this
    | false =>
      obtain ⟨k1, k2, _⟩ := h2 ho
      have hl : (o.parse E G her includes disk).1.look (o.parse E G her includes disk).1.cur =
          (parseTo E G disk her includes).1 := by
        unfold Object.look
        rw [k1, k2]
        simp
      have := calls_look rest (o := (o.parse E G her includes disk).1) (before := disk) (fun _ => hl) (fun _ => hl)
      rw [h0] at this
      exact this
  | (.declsMap, disk) :: rest, o, before, hd, _ => by
    have e := call_parse_fst (E := E) (G := G) (her := her) (includes := includes) (disk := disk) (o := o)
      (c := .declsMap) (by decide)
    obtain ⟨h0, h1, h2⟩ := @parse_state E G her includes disk o
    rw [Object.calls, e]
    cases ho : o.done with
    | true =>
      rw [h1 ho]
      have hl := hd ho
      have := calls_look rest (o := o) (before := before) (fun _ => hl) (fun _ => hl)
      rw [ho] at this
      exact this
    | false =>
      obtain ⟨k1, k2, _⟩ := h2 ho
      have hl : (o.parse E G her includes disk).1.look (o.parse E G her includes disk).1.cur =
          (parseTo E G disk her includes).1 := by
        unfold Object.look
        rw [k1, k2]
        simp
      have := calls_look rest (o := (o.parse E G her includes disk).1) (before := disk) (fun _ => hl) (fun _ => hl)
      rw [h0] at this
      exact this

theorem calls_snoc {E : Env} {G : GoTool} {her : Info} {includes : List Str} {c : Call} {disk : Node} :
    ∀ (h : List (Call × Node)) {o : Object},
      o.calls E G her includes (h ++ [(c, disk)]) = ((o.calls E G her includes h).call E G her includes disk c).1
  | [], o => rfl
  | (c', d') :: rest, o => by
    rw [List.cons_append, Object.calls, Object.calls]
    exact calls_snoc rest

/-- The answer of `DeclsMap`, if it does not panic. -/
theorem declsMap_answer {E : Env} {G : GoTool} {her : Info} {includes : List Str} {now : Node} {o o' : Object} {r : Nat}
    {e : Option Err} (h : o.call E G her includes now .declsMap = (o', .map r e)) : r = o'.cur ∧ e = o'.err := by
  unfold Object.call at h
  simp only at h
  cases hp : o.parse E G her includes now with
  | mk o1 b =>
    rw [hp] at h
    cases b with
    | true => cases h
    | false =>
      cases h
      exact ⟨rfl, rfl⟩

/-- **C104** for `DeclsMap`, in full: if it reports no error, the map has the declarations found on the disk as it was
at one of the calls, this one included. -/
def C104_map_statement : Prop :=
  ∀ (E : Env) (G : GoTool) (her : Info) (includes : List Str) (h : List (Call × Node)) (now : Node) (o : Object) (r : Nat),
    (Object.new.calls E G her includes h).call E G her includes now .declsMap = (o, .map r none) →
    ∃ disk, disk ∈ now :: h.map (·.2) ∧ parse E G disk her includes = .ok (o.look r)

/-- **C104** for `DeclsMap`, as far as the code goes (missing: calls of `Decls` that fail). The map has what parsing
the disk found when it was last read, provided that this reading succeeded. -/
theorem C104_map_partial {E : Env} {G : GoTool} {her : Info} {includes : List Str} {h : List (Call × Node)} {now : Node}
    {o : Object} {r : Nat} {e : Option Err}
    (ha : (Object.new.calls E G her includes h).call E G her includes now .declsMap = (o, .map r e)) {m : DeclMap}
    (hm : parse E G (Scans.last false (h ++ [(.declsMap, now)]) now) her includes = .ok m) : o.look r = m := by
  obtain ⟨rfl, _⟩ := declsMap_answer ha
  have h1 := calls_look (E := E) (G := G) (her := her) (includes := includes) (h ++ [(.declsMap, now)])
    (o := Object.new) (before := now) (by intro h; cases h) (by simp)
  rw [calls_snoc, ha] at h1
  simp only at h1
  rw [h1]
  rw [← parseTo_outcome] at hm
  revert hm
  show outcome (parseTo E G (Scans.last false (h ++ [(.declsMap, now)]) now) her includes) = .ok m → _
  generalize hx : parseTo E G (Scans.last false (h ++ [(.declsMap, now)]) now) her includes = x
  intro hm
  show (parseTo E G (Scans.last false (h ++ [(.declsMap, now)]) now) her includes).1 = m
  rw [hx]
  obtain ⟨m', s⟩ := x
  cases s with
  | none => simpa [outcome] using hm
  | some st => cases st <;> simp [outcome] at hm

/-- **C104** for `DeclsMap` without calls of `Decls`: if it reports no error, the map has all declarations found on the
disk as it was at the first call. -/
theorem C104_map_alone {E : Env} {G : GoTool} {her : Info} {includes : List Str} {h : List (Call × Node)} {now : Node}
    (hno : ∀ c ∈ h, c.1 ≠ .decls) {o : Object} {r : Nat}
    (ha : (Object.new.calls E G her includes h).call E G her includes now .declsMap = (o, .map r none))
    (hp : parse E G (Scans.first h now) her includes ≠ .panic) :
    parse E G (Scans.first h now) her includes = .ok (o.look r) := by
  have hdone : ∀ (l : List (Call × Node)) (d : Node), (∀ c ∈ l, c.1 ≠ .decls) → Scans.last true l d = d := by
    intro l
    induction l with
    | nil => intros; rfl
    | cons c l ih =>
      intro d hl
      obtain ⟨c, x⟩ := c
      have hc := hl (c, x) List.mem_cons_self
      have hl' : ∀ c ∈ l, c.1 ≠ .decls := fun y hy => hl y (List.mem_cons_of_mem _ hy)
      cases c with
      | decls => exact absurd rfl hc
      | declsMap => exact ih d hl'
      | parse => exact ih d hl'
  have hlast : Scans.last false (h ++ [(.declsMap, now)]) now = Scans.first h now := by
    cases h with
    | nil => rfl
    | cons c l =>
      obtain ⟨c, x⟩ := c
      have hc := hno (c, x) List.mem_cons_self
      have hl : ∀ y ∈ l ++ [(Call.declsMap, now)], y.1 ≠ .decls := by
        intro y hy
        rcases List.mem_append.mp hy with hy | hy
        · exact hno y (List.mem_cons_of_mem _ hy)
        · rw [List.mem_singleton.mp hy]
          exact fun h => by cases h
      cases c with
      | decls => exact absurd rfl hc
      | declsMap => exact hdone _ x hl
      | parse => exact hdone _ x hl
  obtain ⟨_, h2⟩ := parse_err (now := now) h (o := Object.new) rfl hp
  rw [← call_parse_fst (c := .declsMap) (by decide), ha] at h2
  have he : o.err = none := ((declsMap_answer ha).2).symm
  simp only [he] at h2
  cases hr : parse E G (Scans.first h now) her includes with
  | ok m => rw [C104_map_partial ha (m := m) (by rw [hlast]; exact hr)]
  | err e => rw [hr] at h2; cases h2
  | panic => exact absurd hr hp

/-- **C104**, maps handed out: no later call changes a map that `DeclsMap` has returned. -/
theorem C104_kept {E : Env} {G : GoTool} {her : Info} {includes : List Str} {h : List (Call × Node)} {now : Node}
    {o : Object} {r : Nat} {e : Option Err}
    (ha : (Object.new.calls E G her includes h).call E G her includes now .declsMap = (o, .map r e))
    (later : List (Call × Node)) : (o.calls E G her includes later).look r = o.look r := by
  have hcur : ∀ (l : List (Call × Node)) (o : Object), o.cur < o.maps.length →
      (o.calls E G her includes l).cur < (o.calls E G her includes l).maps.length := by
    intro l
    induction l with
    | nil => intro o ho; exact ho
    | cons c l ih =>
      intro o ho
      obtain ⟨c, d⟩ := c
      refine ih _ ?_
      by_cases hc : c = .decls
      · subst hc
        rw [scan_call_decls]
        obtain ⟨h1, h2, _⟩ := @scan_knows E G her includes d o
        rw [h1, h2]
        simp
      · rw [call_parse_fst hc]
        obtain ⟨_, h1, h2⟩ := @parse_state E G her includes d o
        cases hd : o.done with
        | true => rw [h1 hd]; exact ho
        | false =>
          obtain ⟨k1, k2, _⟩ := h2 hd
          rw [k1, k2]
          simp
  obtain ⟨rfl, _⟩ := declsMap_answer ha
  have hlt := hcur (h ++ [(.declsMap, now)]) Object.new (by decide)
  rw [calls_snoc, ha] at hlt
  simp only at hlt
  obtain ⟨l, hl⟩ := calls_maps (E := E) (G := G) (her := her) (includes := includes) later o
  unfold Object.look
  rw [hl, List.getElem?_append_left hlt]

/-! Concrete cases -/

/-- A Go tool that cannot parse files containing `bad`. -/
def pickyTool : GoTool :=
  ⟨fun _ data =>
    if data = b! "bad" then .error (.other 7)
    else .ok (Demo.program [Demo.callLit (b! "Open") (b! "\"/main.go\"")], fun _ => ⟨false, none⟩), id, 100⟩

/-- A module with a source file and another one, with the given text, in a directory below. -/
def objDisk (text : Str) : Node :=
  Demo.disk [Demo.dirNode (b! "src") [Demo.dirNode (b! "app")
    [Demo.fileNode (b! "main.go") (b! "package main"),
     Demo.dirNode (b! "web") [Demo.fileNode (b! "web.go") text]]]]

/-- How many calls of `Open` are in the map an answer shows. -/
def opensIn (x : Object × Answer) : Option (Nat × Option Err) :=
  match x with
  | (o, .map r e) => some ((o.look r .open).length, e)
  | _ => none

/-- The object after some calls, asked for its map. -/
def askMap (h : List (Call × Node)) (now : Node) : Object × Answer :=
  (Object.new.calls Demo.env pickyTool Demo.info [] h).call Demo.env pickyTool Demo.info [] now .declsMap

/-- Declarations are not counted twice when `Decls` is called again; a file that has been spoilt since is noticed by
`Decls` but not by `DeclsMap`. -/
example :
    opensIn (askMap [] (objDisk (b! "good"))) = some (2, none) ∧
    opensIn (askMap [(.decls, objDisk (b! "good")), (.decls, objDisk (b! "good"))] (objDisk (b! "good"))) = some (2, none) ∧
    opensIn (askMap [(.parse, objDisk (b! "good"))] (objDisk (b! "bad"))) = some (2, none) ∧
    opensIn (askMap [(.parse, objDisk (b! "good")), (.decls, objDisk (b! "bad"))] (objDisk (b! "good"))) =
      some (1, none) := by decide +kernel

/-- The hypotheses of `C104_map_partial` and `C104_parse`: parsing the disk succeeds. -/
example :
    (match parse Demo.env pickyTool (objDisk (b! "good")) Demo.info [] with
      | .ok m => some (m .open).length
      | _ => none) = some 2 := by decide +kernel

/-- **C104** for `DeclsMap` is false of the code: after a successful `Parse`, a `Decls` that fails half-way leaves an
incomplete map, which `DeclsMap` returns without an error. -/
theorem C104_map_refuted : ¬ C104_map_statement := by
  intro hst
  have h1 : opensIn (askMap [(.parse, objDisk (b! "good")), (.decls, objDisk (b! "bad"))] (objDisk (b! "good"))) =
      some (1, none) := by decide +kernel
  have h2 : (match parse Demo.env pickyTool (objDisk (b! "good")) Demo.info [] with
      | .ok m => some (m .open).length
      | _ => none) = some 2 := by decide +kernel
  have h3 : (match parse Demo.env pickyTool (objDisk (b! "bad")) Demo.info [] with
      | .ok m => some (m .open).length
      | _ => none) = none := by decide +kernel
  cases ha : askMap [(.parse, objDisk (b! "good")), (.decls, objDisk (b! "bad"))] (objDisk (b! "good")) with
  | mk o a =>
    rw [ha] at h1
    cases a with
    | map r e =>
      simp only [opensIn, Option.some.injEq, Prod.mk.injEq] at h1
      obtain ⟨hlen, rfl⟩ := h1
      obtain ⟨disk, hd, hp⟩ := hst Demo.env pickyTool Demo.info [] _ _ o r ha
      have hcase : disk = objDisk (b! "good") ∨ disk = objDisk (b! "bad") := by
        simp only [List.map, List.mem_cons, List.not_mem_nil, or_false] at hd
        rcases hd with h | h | h
        · exact Or.inl h
        · exact Or.inl h
        · exact Or.inr h
      rcases hcase with h | h
      · subst h
        rw [hp] at h2
        simp only [Option.some.injEq] at h2
        omega
      · subst h
        rw [hp] at h3
        cases h3
    | decls x => cases h1
    | parse x => cases h1
    | panic => cases h1

/-! ### C105 -/

theorem join_name {a : List Str} {name : Str} (ha : GoPath.Good a) (hn : GoPath.GoodElem name) :
    GoPath.join2 (GoPath.mk a) name = GoPath.mk (a ++ [name]) := by
  have := Disk.joinAll_mk ha (GoPath.good_cons.mpr ⟨hn, GoPath.good_nil⟩)
  simpa [Disk.joinAll] using this

theorem kid_good : ∀ {kids : List (Str × Node)} {name : Str} {n : Node}, Disk.Node.WFKids kids → (name, n) ∈ kids →
    GoPath.GoodElem name
  | [], _, _, _, h => by cases h
  | (x, y) :: rest, name, n, hw, h => by
    rcases List.mem_cons.mp h with h | h
    · cases h
      exact hw.1
    · exact kid_good hw.2.2 h

/-- **C105**: a `.go` file of a directory that can be parsed can also be parsed alone, and gives the declarations it
gives as a part of its directory. -/
theorem C105_same {E : Env} {G : GoTool} (hG : Spec.AnyOrder G) {disk : Node} (hw : disk.WF) {a : List Str}
    (ha : GoPath.Good a) {d : Mem.Details} {kids : List (Str × Node)} (hd : disk.find a = some (.dir d kids))
    {srcs : List Source} (hs : parseDir E G (GoPath.mk a) kids = .ok srcs) {name : Str} {d' : Mem.Details} {data : Str}
    (hk : (name, Node.file d' data) ∈ kids) (hg : Str.hasSuffix name (b! ".go") = true) (depth : Nat) :
    ∃ src src', parseFile E G disk (GoPath.join2 (GoPath.mk a) name) = .ok src ∧ src' ∈ srcs ∧
      src'.abs = GoPath.join2 (GoPath.mk a) name ∧ declsMap E depth src = declsMap E depth src' := by
  have hwf := Disk.find_wf a hw hd
  have hn : GoPath.GoodElem name := kid_good hwf.2 hk
  unfold parseDir at hs
  cases hi : E.dirInfo (GoPath.mk a) with
  | error e => rw [hi] at hs; cases hs
  | ok her =>
    rw [hi] at hs
    simp only at hs
    cases hp : E.parse her (Str.trimPrefix (GoPath.mk a) (GoPath.dir (GoPath.mk a))) with
    | error e => rw [hp] at hs; cases hs
    | ok pt =>
      rw [hp] at hs
      simp only at hs
      cases hf : parseFiles G (GoPath.mk a) pt her kids with
      | error e => rw [hf] at hs; cases hs
      | ok l =>
        rw [hf] at hs
        simp only at hs
        cases hs
        obtain ⟨ast, objs, h1, h2⟩ := parseFiles_mem hf hk hg
        rw [join_name ha hn] at h1 h2 ⊢
        have hfind : osStat disk (GoPath.mk (a ++ [name])) = some (.file d' data) := by
          unfold osStat
          rw [GoPath.elems_mk (GoPath.good_append.mpr ⟨ha, by simpa [GoPath.Good] using hn⟩), Disk.find_append, hd]
          simp only [Disk.Node.find]
          rw [Disk.find_kid hwf.1 hk]
        have hm := (hG l).mem_iff.mpr h2
        cases hpp : E.parse her (Str.trimPrefix (GoPath.mk (a ++ [name])) (GoPath.dir (GoPath.mk (a ++ [name])))) with
        | error e =>
          refine ⟨⟨GoPath.mk (a ++ [name]), ⟨[], []⟩, her, ast, objs⟩, _, ?_, hm, rfl, by
            apply declsMap_sameText; constructor <;> rfl⟩
          unfold parseFile
          rw [hfind]
          simp only
          rw [GoPath.dir_mk_snoc ha hn] at hpp ⊢
          simp only [hi, h1, hpp]
        | ok pt' =>
          refine ⟨⟨GoPath.mk (a ++ [name]), pt', her, ast, objs⟩, _, ?_, hm, rfl, by
            apply declsMap_sameText; constructor <;> rfl⟩
          unfold parseFile
          rw [hfind]
          simp only
          rw [GoPath.dir_mk_snoc ha hn] at hpp ⊢
          simp only [hi, h1, hpp]

/-- **C105**, what is not a file: `ParseFile` reports names that are missing or lead to a directory. -/
theorem C105_not_file {E : Env} {G : GoTool} {disk : Node} {a : List Str} (ha : GoPath.Good a)
    (h : ∀ d data, disk.find a ≠ some (.file d data)) : ∃ e, parseFile E G disk (GoPath.mk a) = .error e := by
  unfold parseFile osStat
  rw [GoPath.elems_mk ha]
  cases hf : disk.find a with
  | none => exact ⟨_, rfl⟩
  | some n =>
    cases n with
    | file d b => exact absurd hf (h d b)
    | dir d k => exact ⟨_, rfl⟩

/-- **C105**, the recorded path, in full: the path recorded for a source, by `ParseFile` or by `ParseDir`, leads to
that file in its package. -/
def C105_path_statement : Prop :=
  ∀ (E : Env) (G : GoTool) (disk : Node), (∀ x i, E.dirInfo x = .ok i → InfoOk i ∧ ParseLaws E i) →
    ∀ (a : List Str) (d : Mem.Details) (kids : List (Str × Node)), GoPath.Good a → disk.WF → disk.find a = some (.dir d kids) →
    (∀ srcs, parseDir E G (GoPath.mk a) kids = .ok srcs →
      ∀ s ∈ srcs, GoPath.join2 s.here.module.dir s.path.name = s.abs) ∧
    (∀ name s, parseFile E G disk (GoPath.join2 (GoPath.mk a) name) = .ok s →
      GoPath.join2 s.here.module.dir s.path.name = s.abs)

/-- **C105**, the recorded path, as far as the code goes (missing: files in directories below the module's own, and
everything `ParseDir` records): `ParseFile` records the right path for a file in the module's directory. -/
theorem C105_path_partial {E : Env} {G : GoTool} {disk : Node} {m : List Str} (hm : GoPath.Good m) (hne : m ≠ [])
    {name : Str} (hn : PlainElem name) {her : Info} (hi : E.dirInfo (GoPath.mk m) = .ok her)
    (hL : ParseLaws E her) (hc : Clear her (GoPath.mk [name])) (hdir : her.module.dir = GoPath.mk m) {s : Source}
    (hs : parseFile E G disk (GoPath.mk (m ++ [name])) = .ok s) :
    s.path = ⟨her.module.path, GoPath.mk [name]⟩ ∧ GoPath.join2 s.here.module.dir s.path.name = s.abs := by
  have hg : GoPath.GoodElem name := hn.1
  have hdm := GoPath.dir_mk_snoc hm hg
  have hmk : GoPath.mk (m ++ [name]) = GoPath.mk m ++ GoPath.mk [name] := GoPath.mk_append hne (by simp)
  have hgood : GoPath.Good [name] := GoPath.good_cons.mpr ⟨hg, GoPath.good_nil⟩
  have hp : E.parse her (Str.trimPrefix (GoPath.mk (m ++ [name])) (GoPath.dir (GoPath.mk (m ++ [name])))) =
      .ok ⟨her.module.path, GoPath.mk [name]⟩ := by
    rw [hdm, hmk, Str.trimPrefix_append]
    exact parse_relName (cs := [name]) hL (by simpa [Plain] using hn) hc
  rw [hdm] at hp
  unfold parseFile at hs
  rw [hdm, hi] at hs
  cases ho : osStat disk (GoPath.mk (m ++ [name])) with
  | none => rw [ho] at hs; cases hs
  | some n =>
    rw [ho] at hs
    cases n with
    | dir d k => cases hs
    | file d data =>
      simp only at hs
      cases hq : G.parse (GoPath.mk (m ++ [name])) data with
      | error e => rw [hq] at hs; cases hs
      | ok q =>
        obtain ⟨ast, objs⟩ := q
        simp only [hq, hp] at hs
        cases hs
        refine ⟨rfl, ?_⟩
        simp only
        rw [hdir, GoPath.join2_mk hm hgood]


/-- The directory `web` of the demo module. -/
def webKids (text : Str) : List (Str × Node) := [Demo.fileNode (b! "web.go") text]

/-- What `ParseDir` and `ParseFile` record for the same file. -/
example :
    (match parseDir Demo.env pickyTool (b! "/src/app/web") (webKids (b! "good")) with
      | .ok srcs => srcs.map fun s => (s.abs, s.path)
      | _ => []) = [(b! "/src/app/web/web.go", ⟨b! "app", b! "/web"⟩)] ∧
    (match parseFile Demo.env pickyTool (objDisk (b! "good")) (b! "/src/app/web/web.go") with
      | .ok s => some (s.abs, s.path)
      | _ => none) = some (b! "/src/app/web/web.go", ⟨b! "app", b! "/web.go"⟩) ∧
    (match parseFile Demo.env pickyTool (objDisk (b! "good")) (b! "/src/app/main.go") with
      | .ok s => some (s.abs, s.path)
      | _ => none) = some (b! "/src/app/main.go", ⟨b! "app", b! "/main.go"⟩) := by decide +kernel

/-- The hypotheses of `C105_same` and `C105_not_file`. -/
example :
    (objDisk (b! "good")).WF ∧ GoPath.Good [b! "src", b! "app", b! "web"] ∧
    ((objDisk (b! "good")).find [b! "src", b! "app", b! "web"]).isSome = true ∧
    Str.hasSuffix (b! "web.go") (b! ".go") = true ∧
    (match parseFile Demo.env pickyTool (objDisk (b! "good")) (b! "/src/app/web") with
      | .error e => some e
      | _ => none) = some (.other 0) := by decide +kernel

/-- The hypotheses of `C105_path_partial`. -/
example : PlainElem (b! "main.go") ∧ Demo.dirInfo (GoPath.mk [b! "src", b! "app"]) = .ok Demo.info ∧
    Clear Demo.info (GoPath.mk [b! "main.go"]) ∧ Demo.info.module.dir = GoPath.mk [b! "src", b! "app"] := by
  decide +kernel

/-- **C105**, the recorded path: false of the code for files below the module's directory.  (`Demo.env` uses the
reconstruction of `here.Info.Parse`.) -/
theorem C105_path_refuted : ¬ C105_path_statement := by
  intro hst
  have hlaw : ∀ x i, Demo.env.dirInfo x = .ok i → InfoOk i ∧ ParseLaws Demo.env i := by
    intro x i hi
    have hi' : Demo.dirInfo x = .ok i := hi
    unfold Demo.dirInfo at hi'
    split at hi'
    · cases hi'
      have hok : InfoOk Demo.libInfo :=
        { modulePlain := by decide, dirOk := Or.inr ⟨[b! "src", b! "lib"], by decide, by decide, by decide⟩ }
      exact ⟨hok, HereParse.lawful hok _ _ _ _⟩
    split at hi'
    · cases hi'
      exact ⟨Demo.info_ok, Demo.laws⟩
    · cases hi'
  have h := (hst Demo.env pickyTool (objDisk (b! "good")) hlaw [b! "src", b! "app", b! "web"] _ (webKids (b! "good"))
    (by decide) (by decide +kernel) rfl).1
  have h1 : (match parseDir Demo.env pickyTool (GoPath.mk [b! "src", b! "app", b! "web"]) (webKids (b! "good")) with
      | .ok srcs => srcs.all fun s => GoPath.join2 s.here.module.dir s.path.name == s.abs
      | _ => true) = false := by decide +kernel
  cases hp : parseDir Demo.env pickyTool (GoPath.mk [b! "src", b! "app", b! "web"]) (webKids (b! "good")) with
  | error e => rw [hp] at h1; cases h1
  | ok srcs =>
    rw [hp] at h1
    simp only at h1
    have h2 : (srcs.all fun s => GoPath.join2 s.here.module.dir s.path.name == s.abs) = true := by
      rw [List.all_eq_true]
      intro s hs
      simpa using h srcs hp s hs
    rw [h2] at h1
    cases h1

end Props
end Verif
