import Verif.Spec.Layer
import Verif.Spec.Reach
import Verif.Spec.Demo
import Verif.Props.Walk

/-! C31, C34: layered Pkgers and `Apply`, over arbitrary implementations. -/

namespace Verif
namespace Props

open Layer

/-- **C31**. For all implementations, all reading calls and all states: `Wrap(parent, with)` gives `with`'s
answer when `with` succeeds, the answer `parent` gives then when `with` fails, and `with`'s error when there
is no parent. -/
theorem C31_newest_layer_first {S F : Type} (parent : Option (Pkger S F)) (w : Pkger S F) (q : Question)
    (s s' : S) :
    (∀ a, ask w q s = (s', .ok a) → ask (wrap parent (some w)) q s = (s', .ok a)) ∧
    (∀ e, ask w q s = (s', .err e) →
      (∀ p, parent = some p → ask (wrap parent (some w)) q s = ask p q s') ∧
      (parent = none → ask (wrap parent (some w)) q s = (s', .err e))) := by
  have key : ∀ {α : Type} (f : α → Answer F) (m : Pkger S F → Act S α),
      (∀ a, ((m w s).1, mapRes f (m w s).2) = (s', .ok a) →
        ((fallback (some w) parent m s).1, mapRes f (fallback (some w) parent m s).2) = (s', .ok a)) ∧
      (∀ e, ((m w s).1, mapRes f (m w s).2) = (s', .err e) →
        (∀ p, parent = some p →
          ((fallback (some w) parent m s).1, mapRes f (fallback (some w) parent m s).2) =
            ((m p s').1, mapRes f (m p s').2)) ∧
        (parent = none →
          ((fallback (some w) parent m s).1, mapRes f (fallback (some w) parent m s).2) = (s', .err e))) := by
    intro α f m
    unfold fallback call
    simp only
    generalize m w s = r
    obtain ⟨t, r⟩ := r
    cases r with
    | ok v => exact ⟨fun a h => h, fun e h => by simp [mapRes] at h⟩
    | panic => exact ⟨fun a h => by simp [mapRes] at h, fun e h => by simp [mapRes] at h⟩
    | err e0 =>
      refine ⟨fun a h => by simp [mapRes] at h, fun e h => ?_⟩
      simp only [mapRes, Prod.mk.injEq, Res.err.injEq] at h
      obtain ⟨rfl, rfl⟩ := h
      exact ⟨fun p hp => by subst hp; rfl, fun hp => by subst hp; rfl⟩
  cases q with
  | parse p => exact key .path fun x => x.parse p
  | current => exact key .info fun x => x.current
  | info p => exact key .info fun x => x.info p
  | create p => exact key .file fun x => x.create p
  | openFile p => exact key .file fun x => x.openFile p
  | stat p => exact key .fileInfo fun x => x.stat p

/-! ### Stacks -/

theorem ask_stack {S F : Type} (q : Question) : ∀ (b : Pkger S F) (bs : List (Pkger S F)),
    ∃ x, stackOf (b :: bs) = some x ∧ ask x q = firstAnswer (ask b q) (bs.map fun y => ask y q)
  | b, [] => by
    refine ⟨_, rfl, ?_⟩
    funext s
    show ask (wrap none (some b)) q s = ask b q s
    have h := fun s' => C31_newest_layer_first none b q s s'
    generalize hr : ask b q s = r
    obtain ⟨s', r⟩ := r
    cases r with
    | ok a => exact (h s').1 a hr
    | err e => exact ((h s').2 e hr).2 rfl
    | panic => exact ask_panic none b q s s' hr
  | b, c :: cs => by
    obtain ⟨x, hx, ih⟩ := ask_stack q c cs
    refine ⟨_, rfl, ?_⟩
    funext s
    show ask (wrap (stackOf (c :: cs)) (some b)) q s = _
    simp only [List.map_cons, firstAnswer]
    have h := fun s' => C31_newest_layer_first (stackOf (c :: cs)) b q s s'
    generalize hr : ask b q s = r
    obtain ⟨s', r⟩ := r
    cases r with
    | ok a => exact (h s').1 a hr
    | err e =>
      rw [((h s').2 e hr).1 x hx, ih]
    | panic => exact ask_panic _ b q s s' hr
where
  ask_panic (parent : Option (Pkger S F)) (w : Pkger S F) (q : Question) (s s' : S)
      (h : ask w q s = (s', .panic)) : ask (wrap parent (some w)) q s = (s', .panic) := by
    have key : ∀ {α : Type} (f : α → Answer F) (m : Pkger S F → Act S α),
        ((m w s).1, mapRes f (m w s).2) = (s', .panic) →
        ((fallback (some w) parent m s).1, mapRes f (fallback (some w) parent m s).2) = (s', .panic) := by
      intro α f m
      unfold fallback call
      simp only
      generalize m w s = r
      obtain ⟨t, r⟩ := r
      cases r <;> simp [mapRes]
    cases q with
    | parse p => exact key .path (fun x => x.parse p) h
    | current => exact key .info (fun x => x.current) h
    | info p => exact key .info (fun x => x.info p) h
    | create p => exact key .file (fun x => x.create p) h
    | openFile p => exact key .file (fun x => x.openFile p) h
    | stat p => exact key .fileInfo (fun x => x.stat p) h

/-- Commands go to all layers, newest first, until one fails. -/
theorem tell_stack {S F : Type} (c : Command S) : ∀ (b : Pkger S F) (bs : List (Pkger S F)),
    ∃ x, stackOf (b :: bs) = some x ∧ tell x c = allOf ((b :: bs).map fun y => tell y c)
  | b, [] => by
    refine ⟨_, rfl, ?_⟩
    funext s
    rw [tell_wrap]
    simp only [List.map_cons, List.map_nil, allOf, inTurn, call]
    generalize tell b c s = r
    obtain ⟨s', r⟩ := r
    cases r <;> rfl
  | b, b' :: bs => by
    obtain ⟨x, hx, ih⟩ := tell_stack c b' bs
    refine ⟨_, rfl, ?_⟩
    funext s
    rw [tell_wrap, hx]
    rw [List.map_cons]
    simp only [allOf, inTurn, call]
    generalize tell b c s = r
    obtain ⟨s', r⟩ := r
    cases r <;> simp [ih]
where
  tell_wrap (parent : Option (Pkger S F)) (w : Pkger S F) :
      tell (wrap parent (some w)) c = inTurn (some w) parent fun x => tell x c := by
    cases c <;> rfl

/-- The layers a sequence of `Apply` calls adds, newest first. -/
def applied {S F : Type} (calls : List (Pkger S F × Option Err)) : List (Pkger S F) :=
  ((calls.filter fun c => c.2 == none).map (·.1)).reverse

theorem applyAll_stack {S F : Type} (calls : List (Pkger S F × Option Err)) (ls : List (Pkger S F)) :
    applyAll (stackOf ls) (calls.map fun c => (some c.1, c.2)) = stackOf (applied calls ++ ls) := by
  induction calls generalizing ls with
  | nil => rfl
  | cons c cs ih =>
    obtain ⟨p, e⟩ := c
    simp only [List.map_cons, applyAll]
    cases e with
    | none =>
      have : (apply (stackOf ls) (some p) none).1 = stackOf (p :: ls) := rfl
      rw [this, ih]
      simp [applied]
    | some e =>
      have : (apply (stackOf ls) (some p) (some e)).1 = stackOf ls := rfl
      rw [this, ih]
      simp [applied]

/-- **C34**. After any sequence of `Apply` calls, with any implementations: if every call carried an error
(or there was none), the package-level functions are the disk's; otherwise each reading call is answered by
the most recently applied layer that has an answer, and commands go to all of them - the disk plays no role. -/
theorem C34_apply_stacks {S F : Type} (disk : Pkger S F) (calls : List (Pkger S F × Option Err)) :
    (applied calls = [] → impl disk (applyAll none (calls.map fun c => (some c.1, c.2))) = disk) ∧
    (∀ b bs, applied calls = b :: bs →
      (∀ q, ask (impl disk (applyAll none (calls.map fun c => (some c.1, c.2)))) q =
        firstAnswer (ask b q) (bs.map fun y => ask y q)) ∧
      (∀ c, tell (impl disk (applyAll none (calls.map fun c => (some c.1, c.2)))) c =
        allOf ((b :: bs).map fun y => tell y c))) := by
  have h := applyAll_stack calls []
  rw [List.append_nil] at h
  constructor
  · intro h0
    rw [show (none : Option (Pkger S F)) = stackOf [] from rfl, h, h0]
    rfl
  · intro b bs hb
    rw [show (none : Option (Pkger S F)) = stackOf [] from rfl, h, hb]
    constructor
    · intro q
      obtain ⟨x, hx, hq⟩ := ask_stack q b bs
      rw [hx]
      exact hq
    · intro c
      obtain ⟨x, hx, hq⟩ := tell_stack c b bs
      rw [hx]
      exact hq

/-- **C34** (errors): `Apply` with a non-nil error panics and changes nothing, in any state. -/
theorem C34_apply_error {S F : Type} (cur pkg : Option (Pkger S F)) (e : Err) :
    apply cur pkg (some e) = (cur, .panic) := rfl

/-- **C34** (the disk is consulted only if nothing was applied): with some layer applied, replacing the disk
by any other implementation makes no difference. -/
theorem C34_disk_irrelevant {S F : Type} (disk disk' : Pkger S F) (calls : List (Pkger S F × Option Err))
    (h : ∃ c ∈ calls, c.2 = none) :
    impl disk (applyAll none (calls.map fun c => (some c.1, c.2))) =
      impl disk' (applyAll none (calls.map fun c => (some c.1, c.2))) := by
  have ha := applyAll_stack calls []
  rw [List.append_nil] at ha
  rw [show (none : Option (Pkger S F)) = stackOf [] from rfl, ha]
  cases hl : applied calls with
  | nil =>
    obtain ⟨c, hc, he⟩ := h
    have : c.1 ∈ applied calls := by
      unfold applied
      rw [List.mem_reverse, List.mem_map]
      exact ⟨c, List.mem_filter.mpr ⟨hc, by simp [he]⟩, rfl⟩
    rw [hl] at this
    cases this
  | cons b bs => rfl

/-- An implementation every call of which panics. -/
def panics (S F : Type) : Pkger S F where
  parse _ s := (s, .panic)
  current s := (s, .panic)
  info _ s := (s, .panic)
  create _ s := (s, .panic)
  mkdirAll _ _ s := (s, .panic)
  openFile _ s := (s, .panic)
  stat _ s := (s, .panic)
  walk _ _ s := (s, .panic)
  remove _ s := (s, .panic)
  removeAll _ s := (s, .panic)

/-- **C34** (nil).  A nil Pkger given to `Apply` without an error is taken, and is like one every call of which panics: so
`C34_apply_stacks` tells what happens with it, too. -/
theorem C34_nil {S F : Type} (calls : List (Option (Pkger S F) × Option Err)) : ∀ cur : Option (Pkger S F),
    applyAll cur calls = applyAll cur (calls.map fun c => (some (c.1.getD (panics S F)), c.2)) := by
  induction calls with
  | nil => intro cur; rfl
  | cons c calls ih =>
    intro cur
    obtain ⟨p, e⟩ := c
    have h : (apply cur p e).1 = (apply cur (some (p.getD (panics S F))) e).1 := by
      cases e with
      | some e => rfl
      | none =>
        cases p with
        | some p => rfl
        | none => rfl
    simp only [applyAll, List.map_cons]
    rw [h]
    exact ih _

/-- After an `Apply` of nil on top of a layer with the file, `Open` panics. -/
example : (match ((impl (panics (Store Unit) (Nat × Nat)) (applyAll none [(some (memLayer (C := Unit) Demo.env 0), none),
      (none, none)])).openFile (b! "/a") (fun _ => Demo.after [.create (b! "/a")], ())).2 with
    | .panic => true
    | _ => false) = true := by decide +kernel

/-- Three `Apply` calls, the second with an error: layer 1 on top of layer 0, without layer 2. -/
example : applied [(memLayer (C := Unit) Demo.env 0, none), (memLayer Demo.env 2, some .parse),
    (memLayer Demo.env 1, none)] = [memLayer Demo.env 1, memLayer Demo.env 0] := rfl

/-- A Pkger with the file `name` containing `content`; `next` is the handle `Create` gives. -/
def fileOps (name content : Str) (h : Nat) : List Mem.Op := [.create name, .write h content, .close h]

/-- Layer 0 has `/a` and `/c`, layer 1 has `/a` and `/b`, all other layers are empty. -/
def twoLayers (i : Nat) : Mem.World :=
  match i with
  | 0 => Demo.after (fileOps (b! "/a") (b! "old") 1 ++ [.create (b! "/c")])
  | 1 => Demo.after (fileOps (b! "/a") (b! "new") 1 ++ [.create (b! "/b")])
  | _ => Demo.w0

/-- Which layer answers an `Open`. -/
def openedIn (r : Store Unit × Res (Nat × Nat)) : Option Nat :=
  match r.2 with
  | .ok f => some f.1
  | _ => none

/-- The stack of layer 1 over layer 0 answers `/a` and `/b` from layer 1 and `/c` from layer 0. -/
example :
    let top : Pkger (Store Unit) (Nat × Nat) := wrap (some (memLayer Demo.env 0)) (some (memLayer Demo.env 1))
    openedIn (top.openFile (b! "/a") (twoLayers, ())) = some 1 ∧
    openedIn (top.openFile (b! "/b") (twoLayers, ())) = some 1 ∧
    openedIn (top.openFile (b! "/c") (twoLayers, ())) = some 0 ∧
    openedIn (top.openFile (b! "/d") (twoLayers, ())) = none := by decide +kernel

end Props
end Verif
