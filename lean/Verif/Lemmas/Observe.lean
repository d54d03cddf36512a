import Verif.Spec.Observe
import Verif.Lemmas.Mem

/-! Observations in terms of the file table and the objects. -/

namespace Verif
namespace Mem

theorem statView_eq (E : Env) (w : World) (name : Str) :
    statView E w name =
      match E.parse w.here name with
      | .error e => .err e
      | .ok pt =>
        match lookup w pt with
        | none => .err .couldNotStat
        | some f =>
          match f.info with
          | some d => .ok d
          | none => .err .notExist := by
  unfold statView stat parse lookup fileStat
  cases E.parse w.here name with
  | error e => rfl
  | ok pt =>
    simp only
    cases AMap.get w.files pt with
    | none => rfl
    | some id =>
      simp only [Option.map_some]
      cases h : (w.heap id).info with
      | none => rfl
      | some d => simp [h]

theorem openView_eq (E : Env) (w : World) (name : Str) :
    openView E w name =
      match E.parse w.here name with
      | .error e => .err (.pathError e)
      | .ok pt =>
        match lookup w pt with
        | none => .err .notExist
        | some f =>
          match f.info with
          | some d => .ok (d, f.bytes)
          | none => .panic := by
  unfold openView openFile parse lookup
  cases E.parse w.here name with
  | error e => rfl
  | ok pt =>
    simp only
    cases AMap.get w.files pt with
    | none => rfl
    | some id =>
      simp only [Option.map_some]
      cases h : (w.heap id).info with
      | none => rfl
      | some d => simp [alloc, openedObj, newFileInfo, FileObj.bytes]

/-- Views depend only on the info of the Pkger and the object stored at the parsed path. -/
theorem sameAt_of_lookup {E : Env} {w w' : World} {name : Str} (hh : w'.here = w.here)
    (h : ∀ pt, E.parse w.here name = .ok pt → lookup w' pt = lookup w pt) : SameAt E w w' name := by
  unfold SameAt
  rw [statView_eq, statView_eq, openView_eq, openView_eq, hh]
  cases hp : E.parse w.here name with
  | error e => exact ⟨rfl, rfl⟩
  | ok pt => simp only [h pt hp, and_self]

/-- Reading only looks at the object of the handle. -/
theorem readMany_congr {w w' : World} {id : Nat} (h : w'.heap id = w.heap id) (ns : List Nat) :
    readMany w' id ns = readMany w id ns := by
  induction ns generalizing w w' with
  | nil => rfl
  | cons n ns ih =>
    simp only [readMany, read, h]
    congr 1
    apply ih
    simp [setObj]

theorem Delivers.congr {w w' : World} {id : Nat} {c : Str} (h : w'.heap id = w.heap id)
    (hd : Delivers w id c) : Delivers w' id c := fun ns => by
  rw [readMany_congr h]; exact hd ns

/-- Reading from a reader at position `i`. -/
theorem readMany_reader {s : Str} {ns : List Nat} : ∀ {w : World} {id i : Nat},
    (w.heap id).reader = some (s, (i : Int)) → i ≤ s.length →
    delivered (readMany w id ns) = (s.drop i).take ns.sum := by
  induction ns with
  | nil => intro w id i _ _; simp [readMany, delivered]
  | cons n ns ih =>
    intro w id i h hi
    have hens : ensureReader (w.heap id) = w.heap id := by simp [ensureReader, h]
    by_cases hge : s.length ≤ i
    · have hstep : read w id n = (setObj w id { w.heap id with reader := some (s, (i : Int)) }, [], some .eof) := by
        simp [read, readObj, hens, h, readerRead, hge]
      simp only [readMany, hstep]
      have := ih (w := setObj w id { w.heap id with reader := some (s, (i : Int)) }) (id := id) (i := i)
        (by simp [setObj]) hi
      have hz : s.drop i = [] := by simp [hge]
      rw [hz] at this ⊢
      simp only [delivered, List.map_cons, List.flatten_cons, List.nil_append] at this ⊢
      rw [this]; simp
    · have hlt : i < s.length := by omega
      have hstep : read w id n =
          (setObj w id { w.heap id with reader := some (s, ((i + ((s.drop i).take n).length : Nat) : Int)) },
            (s.drop i).take n, none) := by
        have hnot : ¬ ((s.length : Int) ≤ (i : Int)) := by omega
        simp [read, readObj, hens, h, readerRead, hge]
      simp only [readMany, hstep]
      have hlen : ((s.drop i).take n).length = min n (s.length - i) := by simp
      have := ih (w := setObj w id { w.heap id with
            reader := some (s, ((i + ((s.drop i).take n).length : Nat) : Int)) }) (id := id)
        (i := i + ((s.drop i).take n).length) (by simp [setObj]) (by rw [hlen]; omega)
      simp only [delivered, List.map_cons, List.flatten_cons, List.sum_cons] at this ⊢
      rw [this, hlen]
      have hd : s.drop (i + min n (s.length - i)) = (s.drop i).drop n := by
        rw [List.drop_drop]
        by_cases hn : n ≤ s.length - i
        · rw [Nat.min_eq_left hn]
        · rw [Nat.min_eq_right (by omega)]
          rw [List.drop_eq_nil_of_le (by omega), List.drop_eq_nil_of_le (by omega)]
      rw [hd, List.take_add]

/-- A handle without a reader delivers the bytes of its object. -/
theorem delivers_bytes {w : World} {id : Nat} (h : (w.heap id).reader = none) :
    Delivers w id (w.heap id).bytes := by
  intro ns
  by_cases hb : (w.heap id).bytes = []
  · rw [hb]
    simp only [List.take_nil]
    induction ns with
    | nil => rfl
    | cons n ns ih =>
      have hens : ensureReader (w.heap id) = w.heap id := by simp [ensureReader, h, hb]
      have hstep : read w id n = (setObj w id (w.heap id), [], some .unableToRead) := by
        simp [read, readObj, hens, h]
      simp only [readMany, hstep]
      rw [readMany_congr (w := w) (by simp [setObj])]
      simpa [delivered] using ih
  · cases ns with
    | nil => simp [readMany, delivered]
    | cons n ns =>
      have hpos : 0 < (w.heap id).bytes.length := List.length_pos_iff.mpr hb
      have hens : ensureReader (w.heap id) = { w.heap id with reader := some ((w.heap id).bytes, 0) } := by
        simp [ensureReader, h, hpos]
      have key : readMany w id (n :: ns) =
          readMany (setObj w id { w.heap id with reader := some ((w.heap id).bytes, 0) }) id (n :: ns) := by
        simp only [readMany, read, readObj, hens]
        congr 1
        · simp [setObj, ensureReader]
        · apply readMany_congr
          simp [setObj, ensureReader]
      rw [key]
      have := readMany_reader (s := (w.heap id).bytes) (ns := n :: ns)
        (w := setObj w id { w.heap id with reader := some ((w.heap id).bytes, 0) }) (id := id) (i := 0)
        (by simp [setObj]) (by omega)
      simpa using this

/-- The handle a successful `Open` returns. -/
theorem openFile_ok {E : Env} {w w' : World} {name : Str} {h : Nat}
    (ho : openFile E w name = (w', .ok h)) :
    ∃ pt i d, E.parse w.here name = .ok pt ∧ AMap.get w.files pt = some i ∧
      (w.heap i).info = some d ∧ h = w.next ∧ w' = (alloc w (openedObj (w.heap i) d)).1 := by
  unfold openFile parse at ho
  cases hp : E.parse w.here name with
  | error e => simp [hp] at ho
  | ok pt =>
    rw [hp] at ho
    simp only at ho
    cases hg : AMap.get w.files pt with
    | none => simp [hg] at ho
    | some i =>
      rw [hg] at ho
      simp only at ho
      cases hi : (w.heap i).info with
      | none => simp [hi] at ho
      | some d =>
        rw [hi] at ho
        simp only [Prod.mk.injEq, Res.ok.injEq] at ho
        exact ⟨pt, i, d, rfl, hg, hi, ho.2.symm, ho.1.symm⟩

/-- The handle object made by `Open`. -/
theorem openFile_obj {E : Env} {w w' : World} {name : Str} {h : Nat}
    (ho : openFile E w name = (w', .ok h)) :
    ∃ pt i d, E.parse w.here name = .ok pt ∧ AMap.get w.files pt = some i ∧
      (w.heap i).info = some d ∧ w'.heap h = openedObj (w.heap i) d := by
  obtain ⟨pt, i, d, h1, h2, h3, h4, h5⟩ := openFile_ok ho
  exact ⟨pt, i, d, h1, h2, h3, by rw [h5, h4]; simp [alloc]⟩

/-- The view and the handle of an `Open` agree. -/
theorem openView_of_openFile {E : Env} {w w' : World} {name : Str} {h : Nat}
    (ho : openFile E w name = (w', .ok h)) :
    ∃ d, openView E w name = .ok (d, (w'.heap h).bytes) ∧ (w'.heap h).info = some d := by
  obtain ⟨pt, i, d, h1, h2, h3, h4⟩ := openFile_obj ho
  refine ⟨d, ?_, ?_⟩
  · rw [openView_eq, h1]
    simp [lookup, h2, h3, h4, openedObj, FileObj.bytes]
  · rw [h4]; simp [openedObj, newFileInfo]

/-- A fresh handle delivers what the view shows. -/
theorem openFile_delivers {E : Env} {w w' : World} {name : Str} {h : Nat}
    (ho : openFile E w name = (w', .ok h)) : Delivers w' h (w'.heap h).bytes := by
  apply delivers_bytes
  obtain ⟨pt, i, d, h1, h2, h3, h4⟩ := openFile_obj ho
  rw [h4]; rfl

/-- If the stored object is there and has details, `Open` succeeds. -/
theorem openFile_of_lookup {E : Env} {w : World} {name : Str} {pt : Path} {f : FileObj} {d : Details}
    (hp : E.parse w.here name = .ok pt) (hl : lookup w pt = some f) (hi : f.info = some d) :
    ∃ w' h, openFile E w name = (w', .ok h) ∧ w'.heap h = openedObj f d := by
  unfold lookup at hl
  cases hg : AMap.get w.files pt with
  | none => simp [hg] at hl
  | some i =>
    rw [hg] at hl
    simp only [Option.map_some, Option.some.injEq] at hl
    refine ⟨(alloc w (openedObj f d)).1, w.next, ?_, by simp [alloc]⟩
    unfold openFile parse
    simp only [hp, hg, hl, hi]
    rfl

theorem stored_iff_lookup {w : World} {pt : Path} : Stored w pt ↔ ∃ f, lookup w pt = some f := by
  unfold Stored lookup
  cases AMap.get w.files pt <;> simp

end Mem
end Verif
