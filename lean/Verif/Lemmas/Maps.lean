import Verif.Model.Maps
import Verif.Lemmas.Serial

/-! The specification of the generated maps by the history of their calls, and lemmas. -/

namespace Verif
namespace TMap

variable {κ ν : Type} [DecidableEq κ]

/-- What a call says about a key: nothing, that it has a value, or that it is gone. -/
def said (k : κ) : Op κ ν → Option (Option ν)
  | .store k' v => if k' = k then some (some v) else none
  | .delete k' => if k' = k then some none else none
  | _ => none

/-- The value of a key after a history: what the last call that says something about it says. -/
def lookup (h : List (Op κ ν)) (k : κ) : Option ν := ((h.filterMap (said k)).getLast?).join

/-- A list of exactly the present entries, each once. -/
def Lists (h : List (Op κ ν)) (l : List (κ × ν)) : Prop :=
  (l.map (·.1)).Nodup ∧ ∀ k v, (k, v) ∈ l ↔ lookup h k = some v

/-- The callback is called for the entries of the list in turn and goes on each time; the last flag tells whether it
still wanted to go on at the end. -/
inductive Ran {S : Type} (f : κ → ν → S → S × Bool) : S → List (κ × ν) → S → Bool → Prop where
  | done (s : S) : Ran f s [] s true
  | stop {k : κ} {v : ν} {s s' : S} : f k v s = (s', false) → Ran f s [(k, v)] s' false
  | go {k : κ} {v : ν} {s s1 s' : S} {l : List (κ × ν)} {b : Bool} :
      f k v s = (s1, true) → Ran f s1 l s' b → Ran f s ((k, v) :: l) s' b

/-- No call stored a value for which the type assertion fails. -/
def Clean (bad : ν → Bool) (h : List (Op κ ν)) : Prop := ∀ k v, Op.store k v ∈ h → bad v = false

theorem lookup_snoc (h : List (Op κ ν)) (o : Op κ ν) (k : κ) :
    lookup (h ++ [o]) k = match said k o with
      | some x => x
      | none => lookup h k := by
  unfold lookup
  rw [List.filterMap_append]
  cases hs : said k o with
  | none => simp [hs]
  | some x => simp [hs]

theorem lookup_stored {h : List (Op κ ν)} {k : κ} {v : ν} (hl : lookup h k = some v) : Op.store k v ∈ h := by
  unfold lookup at hl
  cases hg : (h.filterMap (said k)).getLast? with
  | none => rw [hg] at hl; cases hl
  | some x =>
    rw [hg] at hl
    have hx : x = some v := hl
    subst hx
    have hm := List.mem_of_getLast? hg
    obtain ⟨o, ho, hso⟩ := List.mem_filterMap.mp hm
    cases o with
    | store k' v' =>
      simp only [said] at hso
      split at hso
      · rename_i hk
        cases hso; rw [← hk]; exact ho
      · cases hso
    | delete k' =>
      simp only [said] at hso
      split at hso <;> cases hso
    | load k' => cases hso
    | range => cases hso
    | keys => cases hso

/-- The data agrees with the history. -/
def Rep (h : List (Op κ ν)) (d : AMap κ ν) : Prop := AMap.Nodup d ∧ ∀ k, AMap.get d k = lookup h k

/-- The map after a history. -/
def State (h : List (Op κ ν)) (m : TMap κ ν) : Prop :=
  ∃ d, m.getData = (⟨true, some d⟩, some d) ∧ Rep h d ∧ (h ≠ [] → m = ⟨true, some d⟩)

theorem state_zero : State ([] : List (Op κ ν)) zero :=
  ⟨[], rfl, ⟨by simp [AMap.Nodup, AMap.keys], fun _ => rfl⟩, fun h => absurd rfl h⟩

theorem getData_made (d : AMap κ ν) : (⟨true, some d⟩ : TMap κ ν).getData = (⟨true, some d⟩, some d) := rfl

theorem state_apply {h : List (Op κ ν)} {m : TMap κ ν} (hs : State h m) (o : Op κ ν) : State (h ++ [o]) (m.apply o) := by
  obtain ⟨d, hg, ⟨hn, hr⟩, _⟩ := hs
  have same : (∀ k, said k o = none) → Rep (h ++ [o]) d := fun hk =>
    ⟨hn, fun k => by rw [lookup_snoc, hk k]; exact hr k⟩
  cases o with
  | store k v =>
    refine ⟨AMap.set d k v, ?_, ⟨AMap.nodup_set _ _ hn, fun k' => ?_⟩, fun _ => ?_⟩
    · simp only [apply, store, hg, getData_made]
    · rw [lookup_snoc, AMap.get_set]
      by_cases hk : k' = k
      · subst hk; simp [said]
      · simp only [said, if_neg hk, if_neg (fun e : k = k' => hk e.symm)]; exact hr k'
    · simp only [apply, store, hg]
  | delete k =>
    refine ⟨AMap.erase d k, ?_, ⟨AMap.nodup_erase _ hn, fun k' => ?_⟩, fun _ => ?_⟩
    · simp only [apply, delete, hg, getData_made]
    · rw [lookup_snoc, AMap.get_erase]
      by_cases hk : k' = k
      · subst hk; simp [said]
      · simp only [said, if_neg hk, if_neg (fun e : k = k' => hk e.symm)]; exact hr k'
    · simp only [apply, delete, hg]
  | load k =>
    exact ⟨d, by simp only [apply, TMap.load, hg, getData_made], same fun _ => rfl, fun _ => by simp only [apply, TMap.load, hg]⟩
  | range =>
    exact ⟨d, by simp only [apply, TMap.range, hg, getData_made], same fun _ => rfl, fun _ => by simp only [apply, TMap.range, hg]⟩
  | keys =>
    exact ⟨d, by simp only [apply, TMap.keys, TMap.range, hg, getData_made], same fun _ => rfl, fun _ => by simp only [apply, TMap.keys, TMap.range, hg]⟩

theorem state_more (h : List (Op κ ν)) : ∀ (p : List (Op κ ν)) (m : TMap κ ν), State p m → State (p ++ h) (after h m) := by
  induction h with
  | nil => intro p m hs; simpa [after] using hs
  | cons o h ih =>
    intro p m hs
    have := ih (p ++ [o]) (m.apply o) (state_apply hs o)
    simpa [after] using this

theorem state_after (h : List (Op κ ν)) : State h (after h zero) := by
  simpa using state_more h [] zero state_zero

theorem lists_of_rep {h : List (Op κ ν)} {d : AMap κ ν} (hr : Rep h d) {l : List (κ × ν)} (hp : l.Perm d) : Lists h l := by
  refine ⟨AMap.nodup_perm hp.symm hr.1, fun k v => ?_⟩
  rw [hp.mem_iff, ← hr.2 k]
  exact ⟨fun hm => AMap.get_of_mem hr.1 hm, AMap.get_mem⟩

theorem loop_ran {S : Type} {bad : ν → Bool} (f : κ → ν → S → S × Bool) :
    ∀ (l : List (κ × ν)) (s : S), (∀ e ∈ l, bad e.2 = false) →
      ∃ l1 rest b, l = l1 ++ rest ∧ Ran f s l1 (loop bad f l s) b ∧ (b = true → rest = []) := by
  intro l
  induction l with
  | nil => intro s _; exact ⟨[], [], true, rfl, .done s, fun _ => rfl⟩
  | cons e l ih =>
    intro s hb
    obtain ⟨k, v⟩ := e
    have hv : bad v = false := hb (k, v) (by simp)
    cases hf : f k v s with
    | mk s1 b =>
      cases b with
      | true =>
        obtain ⟨l1, rest, b, h1, h2, h3⟩ := ih s1 fun e he => hb e (by simp [he])
        refine ⟨(k, v) :: l1, rest, b, by rw [h1]; rfl, ?_, h3⟩
        rw [loop]
        simp only [hv, hf]
        exact .go hf h2
      | false =>
        refine ⟨[(k, v)], l, false, rfl, ?_, fun h => by cases h⟩
        rw [loop]
        simp only [hv, hf]
        exact .stop hf

theorem loop_keys {bad : ν → Bool} : ∀ (l : List (κ × ν)) (acc : List κ), (∀ e ∈ l, bad e.2 = false) →
    loop bad (fun k _ l => (l ++ [k], true)) l acc = acc ++ l.map (·.1) := by
  intro l
  induction l with
  | nil => intro acc _; simp [loop]
  | cons e l ih =>
    intro acc hb
    obtain ⟨k, v⟩ := e
    have hv : bad v = false := hb (k, v) (by simp)
    rw [loop]
    simp only [hv]
    have := ih (acc ++ [k]) fun e he => hb e (by simp [he])
    simpa using this

theorem clean_entries {bad : ν → Bool} {h : List (Op κ ν)} (hc : Clean bad h) {l : List (κ × ν)} (hl : Lists h l) :
    ∀ e ∈ l, bad e.2 = false := fun e he => hc e.1 e.2 (lookup_stored ((hl.2 e.1 e.2).mp he))

/-- Storing entries one after the other is a history of stores. -/
theorem storeAll_after (l : List (κ × ν)) : ∀ (h : List (Op κ ν)) (m : TMap κ ν), State h m →
    m.storeAll l = (after (l.map fun e => Op.store e.1 e.2) m, .ok ()) := by
  induction l with
  | nil => intro h m _; rfl
  | cons e l ih =>
    intro h m hs
    obtain ⟨k, v⟩ := e
    have hs' := state_apply hs (.store k v)
    obtain ⟨d, hg, _⟩ := hs
    have hst : m.store k v = (m.apply (.store k v), .ok ()) := by simp only [apply, store, hg]
    rw [storeAll, hst]
    simp only
    rw [ih _ _ hs']
    rfl

theorem lookup_stores {l : List (κ × ν)} (hn : AMap.Nodup l) (h : List (Op κ ν)) (k : κ) :
    lookup (h ++ l.map fun e => Op.store e.1 e.2) k = (AMap.get l k).or (lookup h k) := by
  induction l generalizing h with
  | nil => simp
  | cons e l ih =>
    obtain ⟨a, v⟩ := e
    have hn' : a ∉ AMap.keys l ∧ AMap.Nodup l := by
      simpa [AMap.Nodup, AMap.keys] using hn
    have := ih hn'.2 (h ++ [.store a v])
    rw [List.map_cons, List.append_cons, this, lookup_snoc, AMap.get_cons]
    by_cases hk : a = k
    · subst hk
      have hnone : AMap.get l a = none := by
        cases hg : AMap.get l a with
        | none => rfl
        | some x => exact absurd ((AMap.mem_keys_iff l a).mpr ⟨x, hg⟩) hn'.1
      simp [said, hnone]
    · simp [said, hk]

end TMap
end Verif
