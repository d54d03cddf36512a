import Verif.Lemmas.Maps
import Verif.Props.Serial

/-! C106: the generated maps of internal/maps. -/

namespace Verif
namespace Props

open TMap Serial

variable {κ ν : Type} [DecidableEq κ]

/-- `Load` answers what the last `Store` or `Delete` of the key said, for every history of calls on a zero value, and
never panics.  A stored nil file counts as absent. -/
theorem C106_load (bad : ν → Bool) (h : List (Op κ ν)) (k : κ) :
    ((after h zero).load bad k).2 = .ok ((lookup h k).filter fun v => !bad v) := by
  obtain ⟨d, hg, hr, _⟩ := state_after h
  simp only [load, hg, hr.2 k]

/-- `Range` calls the callback for present entries only, for each at most once, in some order, stopping exactly when
the callback says so; if it never does, all present entries are visited. -/
theorem C106_range {S : Type} {bad : ν → Bool} {ord : AMap κ ν → List (κ × ν)} (ho : ∀ m, (ord m).Perm m)
    (f : κ → ν → S → S × Bool) {h : List (Op κ ν)} (hc : Clean bad h) (s : S) :
    ∃ l rest s' b, ((after h zero).range bad ord f s).2 = .ok s' ∧ Lists h (l ++ rest) ∧ Ran f s l s' b ∧
      (b = true → rest = []) := by
  obtain ⟨d, hg, hr, _⟩ := state_after h
  have hl := lists_of_rep hr (ho d)
  obtain ⟨l, rest, b, h1, h2, h3⟩ := loop_ran (bad := bad) f (ord d) s (clean_entries hc hl)
  refine ⟨l, rest, _, b, ?_, h1 ▸ hl, h2, h3⟩
  simp only [range, hg]

/-- A sorting function for `Keys`: any that orders by the text. -/
def SortsBy (str : κ → Str) (sort : List κ → List κ) : Prop :=
  ∀ l, (sort l).Perm l ∧ (sort l).Pairwise fun a b => Str.le (str a) (str b) = true

/-- What `Keys` ought to answer. -/
def KeysOk (str : κ → Str) (h : List (Op κ ν)) (l : List κ) : Prop :=
  l.Nodup ∧ (l.Pairwise fun a b => Str.le (str a) (str b) = true) ∧ ∀ k, k ∈ l ↔ ∃ v, lookup h k = some v

/-- `Keys` answers the present keys, each once, ordered. -/
def C106_keys_statement : Prop :=
  ∀ (κ ν : Type) [DecidableEq κ] (bad : ν → Bool) (str : κ → Str) (ord : AMap κ ν → List (κ × ν))
    (sort : List κ → List κ) (h : List (Op κ ν)), (∀ m, (ord m).Perm m) → SortsBy str sort →
    ∃ l, ((after h zero).keys bad ord sort).2 = .ok l ∧ KeysOk str h l

theorem C106_keys_partial {bad : ν → Bool} {str : κ → Str} {ord : AMap κ ν → List (κ × ν)} {sort : List κ → List κ}
    (ho : ∀ m, (ord m).Perm m) (hs : SortsBy str sort) {h : List (Op κ ν)} (hc : Clean bad h) :
    ∃ l, ((after h zero).keys bad ord sort).2 = .ok l ∧ KeysOk str h l := by
  obtain ⟨d, hg, hr, _⟩ := state_after h
  have hl := lists_of_rep hr (ho d)
  have hk := loop_keys (bad := bad) (ord d) [] (clean_entries hc hl)
  simp only [List.nil_append] at hk
  refine ⟨sort ((ord d).map (·.1)), ?_, (hs _).1.nodup_iff.mpr hl.1, (hs _).2, fun k => ?_⟩
  · simp only [keys, range, hg, hk]
  · rw [(hs _).1.mem_iff, List.mem_map]
    constructor
    · rintro ⟨e, he, rfl⟩
      exact ⟨e.2, (hl.2 e.1 e.2).mp he⟩
    · rintro ⟨v, hv⟩
      exact ⟨(k, v), (hl.2 k v).mpr hv, rfl⟩

/-- The answer of `Keys` depends on which keys are present only: not on the order of the calls, of the visit, or on the
sorting algorithm. -/
theorem C106_keys_unique {bad : ν → Bool} {str : κ → Str} {ord ord' : AMap κ ν → List (κ × ν)}
    {sort sort' : List κ → List κ} (ho : ∀ m, (ord m).Perm m) (ho' : ∀ m, (ord' m).Perm m) (hs : SortsBy str sort)
    (hs' : SortsBy str sort') {h h' : List (Op κ ν)} (hc : Clean bad h) (hc' : Clean bad h')
    (hi : ∀ a b, (lookup h a).isSome → (lookup h b).isSome → str a = str b → a = b)
    (he : ∀ k, (lookup h k).isSome = (lookup h' k).isSome) :
    ((after h zero).keys bad ord sort).2 = ((after h' zero).keys bad ord' sort').2 := by
  obtain ⟨l, h1, hn, hp, hm⟩ := C106_keys_partial ho hs hc
  obtain ⟨l', h1', hn', hp', hm'⟩ := C106_keys_partial ho' hs' hc'
  have some_iff : ∀ (o : Option ν), (∃ v, o = some v) ↔ o.isSome = true := by
    intro o; cases o <;> simp
  rw [h1, h1']
  congr 1
  refine sorted_perm_unique str (fun a ha b hb => hi a b ((some_iff _).mp ((hm a).mp ha)) ((some_iff _).mp ((hm b).mp hb)))
    hp hp' ?_
  rw [List.perm_ext_iff_of_nodup hn hn']
  intro k
  rw [hm, hm', some_iff, some_iff, he]

/-! ### JSON -/

/-- `Infos.MarshalJSON` never panics. -/
def C106_marshal_statement : Prop :=
  ∀ (H : HereJson) (h : List (Op Str Info)), infosMarshal H (after h zero) ≠ .panic

/-- It does for a zero value nobody has called a method of. -/
theorem C106_marshal_refuted : ¬ C106_marshal_statement := fun h => h plainHere [] rfl

/-- After any other call it does not, and what it writes, read into any map, sets the present keys to what is kept of
their values, and leaves the others alone. -/
theorem C106_marshal_partial {H : HereJson} {kept : Info → Info} (hH : HereLaw H kept)
    {ord : AMap Str Info → List (Str × Info)} (ho : ∀ m, (ord m).Perm m) {h : List (Op Str Info)} (hne : h ≠ [])
    (ht : ∀ k i, lookup h k = some i → Utf8.Valid k ∧ InfoText i) (h2 : List (Op Str Info)) :
    ∃ b m, infosMarshal H (after h zero) = .ok b ∧ infosUnmarshal H ord (after h2 zero) b = (m, .ok ()) ∧
      ∀ k, (m.load (fun _ => false) k).2 = .ok (((lookup h k).map kept).or (lookup h2 k)) := by
  obtain ⟨d, _, hr, hm⟩ := state_after h
  have hm := hm hne
  obtain ⟨m', hd, hn', hg'⟩ := decMap_enc (enc := H.info) (dec := H.infoOf Mem.infoZero) (norm := kept) hr.1
    fun e he => by
      have := ht e.1 e.2 (by rw [← hr.2]; exact AMap.get_of_mem hr.1 he)
      exact ⟨this.1, hH.info _ this.2⟩
  have hints : (encMap H.info d).Ints := intsMembers_map _ _ fun e _ => hH.infoInts _
  refine ⟨(encMap H.info d).print, after ((ord m').map fun e => Op.store e.1 e.2) (after h2 zero),
    by simp only [infosMarshal, hm], ?_, fun k => ?_⟩
  · simp only [infosUnmarshal, Json.parse_print hints, hd]
    exact storeAll_after _ _ _ (state_after h2)
  · have := C106_load (fun _ => false) (h2 ++ (ord m').map fun e => Op.store e.1 e.2) k
    rw [lookup_stores (AMap.nodup_perm (ho m').symm hn'), ← AMap.get_perm (ho m').symm hn', hg', hr.2] at this
    have keep : ∀ o : Option Info, o.filter (fun _ => true) = o := fun o => by cases o <;> rfl
    simp only [after, List.foldl_append, Bool.not_false, keep] at this ⊢
    exact this

/-- What `Files.MarshalJSON` writes can be read back. -/
def C106_files_statement : Prop :=
  ∀ (H : HereJson) (kept : Info → Info) (enc : Str → Json) (ord : AMap Path Str → List (Path × Str))
    (ord' : AMap Str Unit → List (Str × Unit)) (h : List (Op Path Str)) (b : Str), HereLaw H kept →
    (∀ v, (enc v).Ints) → (∀ m, (ord m).Perm m) → (∀ m, (ord' m).Perm m) →
    (filesMarshal H ord enc (after h zero)).2 = .ok b → (filesUnmarshal H ord' ([] : Str) zero b).2 = .ok ()

theorem decEntries_iface_none (l : List (Str × Json)) (hl : l ≠ []) (h : ∀ e ∈ l, e.2 ≠ .null) :
    ∀ m, decEntries decFileIface m l = none := by
  cases l with
  | nil => exact absurd rfl hl
  | cons e l =>
    intro m
    obtain ⟨k, j⟩ := e
    have hj : j ≠ .null := h (k, j) (by simp)
    have : decFileIface j = none := by cases j <;> first | rfl | exact absurd rfl hj
    simp [decEntries, this]

/-- It never can, unless the map is empty: reading into a `pkging.File` fails, and nothing is stored.  Writing does no
more to the map than `Range` does. -/
theorem C106_files_fails {H : HereJson} {enc : ν → Json} (he : ∀ v, (enc v).Ints ∧ (enc v).sane ≠ .null)
    {ord : AMap Path ν → List (Path × ν)} (ho : ∀ m, (ord m).Perm m) (ord' : AMap Str Unit → List (Str × Unit))
    {h : List (Op Path ν)} {p : Path} {v : ν} (hp : lookup h p = some v) (nil : ν) (m : TMap Path ν) :
    ∃ b, filesMarshal H ord enc (after h zero) = (after (h ++ [.range]) zero, .ok b) ∧
      filesUnmarshal H ord' nil m b = (m, .err .codec) := by
  obtain ⟨d, hg, hr, _⟩ := state_after h
  have hra : after (h ++ [.range]) zero = (⟨true, some d⟩ : TMap Path ν) := by
    have : after (h ++ [.range]) zero = (after h zero).apply .range := by simp [after]
    rw [this]
    simp only [apply, range, hg]
  rw [hra]
  refine ⟨(encMap enc ((ord d).foldl (fun mm e => AMap.set mm (H.path e.1).print e.2) [])).print,
    by simp only [filesMarshal, hg], ?_⟩
  generalize hmm : (ord d).foldl (fun mm e => AMap.set mm (H.path e.1).print e.2) [] = mm
  have hmem : (p, v) ∈ ord d := (ho d).mem_iff.mpr (AMap.get_mem (by rw [hr.2]; exact hp))
  have grow : ∀ (l : List (Path × ν)) (acc : AMap Str ν), acc ≠ [] →
      l.foldl (fun mm e => AMap.set mm (H.path e.1).print e.2) acc ≠ [] := by
    intro l
    induction l with
    | nil => intro acc h; exact h
    | cons e l ih => intro acc _; exact ih _ (by simp [AMap.set])
  have hne : mm ≠ [] := by
    cases ho' : ord d with
    | nil => rw [ho'] at hmem; cases hmem
    | cons e l =>
      rw [ho'] at hmm
      rw [← hmm, List.foldl_cons]
      exact grow l _ (by simp [AMap.set])
  have hints : (encMap enc mm).Ints := intsMembers_map _ _ fun e _ => (he _).1
  simp only [filesUnmarshal, Json.parse_print hints]
  simp only [encMap, Json.sane, decMap, saneMembers_map]
  rw [decEntries_iface_none]
  · intro hnil
    have : (sortBy (fun e : Str × ν => e.1) mm).length = 0 := by
      have := congrArg List.length hnil
      simpa using this
    rw [(sortBy_perm _ mm).length_eq] at this
    exact hne (List.length_eq_zero_iff.mp this)
  · intro e hm
    obtain ⟨x, _, rfl⟩ := List.mem_map.mp hm
    exact (he _).2

/-- An empty map is read back: nothing happens. -/
theorem C106_files_empty {H : HereJson} {enc : ν → Json} {ord : AMap Path ν → List (Path × ν)}
    (ho : ∀ m, (ord m).Perm m) {ord' : AMap Str Unit → List (Str × Unit)} (ho' : ∀ m, (ord' m).Perm m)
    {h : List (Op Path ν)} (hp : ∀ p, lookup h p = none) (nil : ν) (m : TMap Path ν) :
    ∃ b, (filesMarshal H ord enc (after h zero)).2 = .ok b ∧ filesUnmarshal H ord' nil m b = (m, .ok ()) := by
  obtain ⟨d, hg, hr, _⟩ := state_after h
  have hd : d = [] := by
    cases d with
    | nil => rfl
    | cons e d =>
      have := AMap.get_of_mem hr.1 (k := e.1) (v := e.2) (by simp)
      rw [hr.2, hp] at this
      cases this
  subst hd
  have h1 : ord [] = [] := (ho []).eq_nil
  have h2 : ord' [] = [] := (ho' []).eq_nil
  refine ⟨b! "{}", by simp only [filesMarshal, hg, h1]; rfl, ?_⟩
  have hb : Json.parse (b! "{}") = some (.obj []) := Json.parse_print (j := .obj []) trivial
  simp only [filesUnmarshal, hb]
  simp only [decMap, decEntries, h2, storeNils]

/-- What reading entries with null values does. -/
theorem decEntries_nulls : ∀ (ms : List (Str × Json)) (m : AMap Str Unit), (∀ e ∈ ms, e.2 = .null) →
    ∃ m', decEntries decFileIface m ms = some m' ∧ ∀ k, k ∈ AMap.keys m' ↔ k ∈ AMap.keys m ∨ ∃ e ∈ ms, e.1 = k := by
  intro ms
  induction ms with
  | nil => intro m _; exact ⟨m, rfl, fun k => by simp⟩
  | cons e ms ih =>
    intro m h
    obtain ⟨k, j⟩ := e
    have hj : j = .null := h (k, j) (by simp)
    subst hj
    obtain ⟨m', h1, h2⟩ := ih (AMap.set m k ()) fun e he => h e (by simp [he])
    refine ⟨m', by simp only [decEntries, decFileIface, Option.bind_some]; exact h1, fun k' => ?_⟩
    rw [h2, AMap.mem_keys_iff, AMap.mem_keys_iff, AMap.get_set]
    by_cases hk : k' = k
    · subst hk; simp
    · simp [hk, Ne.symm hk]

/-- The loop of `Files.UnmarshalJSON`. -/
theorem storeNils_spec (H : HereJson) (nil : ν) : ∀ (l : List (Str × Unit)) (h : List (Op Path ν)),
    ((storeNils H nil (after h zero) l).2 = .ok () ↔ ∀ e ∈ l, ((Json.parse e.1).bind (H.pathOf Path.zero)).isSome) ∧
    ((storeNils H nil (after h zero) l).2 = .ok () → ∀ p, ((storeNils H nil (after h zero) l).1.load (fun _ => false) p).2 =
      .ok (if ∃ e ∈ l, (Json.parse e.1).bind (H.pathOf Path.zero) = some p then some nil else lookup h p)) := by
  intro l
  induction l with
  | nil =>
    intro h
    refine ⟨by simp [storeNils], fun _ p => ?_⟩
    have := C106_load (fun _ => false) h p
    have keep : ∀ o : Option ν, o.filter (fun _ => !false) = o := fun o => by cases o <;> rfl
    rw [keep] at this
    simpa [storeNils] using this
  | cons e l ih =>
    intro h
    obtain ⟨k, u⟩ := e
    rw [storeNils]
    cases hk : (Json.parse k).bind (H.pathOf Path.zero) with
    | none =>
      refine ⟨⟨fun hh => (by cases hh), fun hh => ?_⟩, fun hh => (by cases hh)⟩
      have := hh (k, u) (by simp)
      simp only [hk] at this
      cases this
    | some pt =>
      have hst : (after h zero).store pt nil = (after (h ++ [.store pt nil]) zero, .ok ()) := by
        obtain ⟨d, hg, _⟩ := state_after h
        have : after (h ++ [.store pt nil]) zero = (after h zero).apply (.store pt nil) := by simp [after]
        rw [this]
        simp only [apply, store, hg]
      simp only [hst]
      obtain ⟨h1, h2⟩ := ih (h ++ [.store pt nil])
      refine ⟨?_, fun hok p => ?_⟩
      · rw [h1]
        constructor
        · intro hh e he
          rcases List.mem_cons.mp he with rfl | he
          · simp [hk]
          · exact hh e he
        · intro hh e he
          exact hh e (by simp [he])
      · rw [h2 hok p, lookup_snoc]
        by_cases hp : pt = p
        · subst hp
          have : ∃ e ∈ (k, u) :: l, (Json.parse e.1).bind (H.pathOf Path.zero) = some pt := ⟨(k, u), by simp, hk⟩
          rw [if_pos this]
          simp [said]
        · have : (∃ e ∈ (k, u) :: l, (Json.parse e.1).bind (H.pathOf Path.zero) = some p) ↔
              ∃ e ∈ l, (Json.parse e.1).bind (H.pathOf Path.zero) = some p := by
            constructor
            · rintro ⟨e, he, hh⟩
              rcases List.mem_cons.mp he with rfl | he
              · simp only [hk] at hh; exact absurd (Option.some.inj hh) hp
              · exact ⟨e, he, hh⟩
            · rintro ⟨e, he, hh⟩
              exact ⟨e, by simp [he], hh⟩
          simp only [this, said, if_neg hp]

/-- The only documents with entries that can be read into a `Files`: all values null and all keys paths.  They store nil
for those paths. -/
theorem C106_files_nulls {H : HereJson} {ord : AMap Str Unit → List (Str × Unit)} (ho : ∀ m, (ord m).Perm m) (nil : ν)
    (h : List (Op Path ν)) {b : Str} {ms : List (Str × Json)} (hb : Json.parse b = some (.obj ms))
    (hn : ∀ e ∈ ms, e.2 = .null) :
    ((filesUnmarshal H ord nil (after h zero) b).2 = .ok () ↔
      ∀ e ∈ ms, ((Json.parse e.1).bind (H.pathOf Path.zero)).isSome) ∧
    ((filesUnmarshal H ord nil (after h zero) b).2 = .ok () → ∀ p,
      ((filesUnmarshal H ord nil (after h zero) b).1.load (fun _ => false) p).2 =
        .ok (if ∃ e ∈ ms, (Json.parse e.1).bind (H.pathOf Path.zero) = some p then some nil else lookup h p)) := by
  obtain ⟨m', h1, h2⟩ := decEntries_nulls ms [] hn
  have hmem : ∀ (P : Str → Prop), (∀ e ∈ ord m', P e.1) ↔ ∀ e ∈ ms, P e.1 := by
    intro P
    constructor
    · intro hh e he
      have hk := (h2 e.1).mpr (Or.inr ⟨e, he, rfl⟩)
      obtain ⟨x, hx, hxe⟩ := List.mem_map.mp hk
      rw [← hxe]
      exact hh x ((ho m').mem_iff.mpr hx)
    · intro hh e he
      have hk : e.1 ∈ AMap.keys m' := List.mem_map.mpr ⟨e, (ho m').mem_iff.mp he, rfl⟩
      rcases (h2 e.1).mp hk with h0 | ⟨x, hx, hxe⟩
      · cases h0
      · rw [← hxe]; exact hh x hx
  have hex : ∀ (P : Str → Prop), (∃ e ∈ ord m', P e.1) ↔ ∃ e ∈ ms, P e.1 := by
    intro P
    have := hmem fun s => ¬ P s
    constructor
    · rintro ⟨e, he, hp⟩
      exact Classical.byContradiction fun hc => this.mpr (fun x hx hpx => hc ⟨x, hx, hpx⟩) e he hp
    · rintro ⟨e, he, hp⟩
      exact Classical.byContradiction fun hc => this.mp (fun x hx hpx => hc ⟨x, hx, hpx⟩) e he hp
  have e : filesUnmarshal H ord nil (after h zero) b = storeNils H nil (after h zero) (ord m') := by
    simp only [filesUnmarshal, hb, decMap, h1]
  rw [e]
  obtain ⟨q1, q2⟩ := storeNils_spec H nil (ord m') h
  refine ⟨q1.trans (hmem fun s => ((Json.parse s).bind (H.pathOf Path.zero)).isSome = true), fun hok p => ?_⟩
  rw [q2 hok p]
  simp only [hex fun s => (Json.parse s).bind (H.pathOf Path.zero) = some p]

/-! ### Examples -/

/-- A history that stores, overwrites and deletes. -/
def mapsHistory : List (Op Str Info) :=
  [.store (b! "b") { Mem.infoZero with name := b! "one" }, .store (b! "a") Mem.infoZero, .load (b! "zz"),
   .store (b! "b") { Mem.infoZero with name := b! "two" }, .store (b! "c") Mem.infoZero, .delete (b! "c"), .keys]

def strKeys : List Str → List Str := sortBy id

theorem strKeys_sorts : SortsBy id strKeys := fun l => ⟨sortBy_perm id l, sortBy_sorted id l⟩

/-- The last store counts, the deleted key is gone. -/
example : (lookup mapsHistory (b! "b")).map (·.name) = some (b! "two") ∧ lookup mapsHistory (b! "c") = none := by
  decide +kernel

theorem mapsHistory_clean : Clean (fun _ => false) mapsHistory := fun _ _ _ => rfl

example : ((after mapsHistory zero).keys (fun _ => false) id strKeys).2 = .ok [b! "a", b! "b"] := by decide +kernel

example : ∃ l, ((after mapsHistory zero).keys (fun _ => false) List.reverse strKeys).2 = .ok l ∧
    KeysOk id mapsHistory l :=
  C106_keys_partial (fun m => m.reverse_perm) strKeys_sorts mapsHistory_clean

/-- A callback that stops at once sees one entry. -/
example : ((after mapsHistory zero).range (fun _ => false) id (fun k _ l => (l ++ [k], false)) []).2 =
    .ok [b! "b"] := by decide +kernel

example : ∃ l rest s' b, ((after mapsHistory zero).range (fun _ => false) id (fun k _ l => (l ++ [k], false)) []).2 =
    .ok s' ∧ Lists mapsHistory (l ++ rest) ∧ Ran (fun k _ l => (l ++ [k], false)) [] l s' b ∧ (b = true → rest = []) :=
  C106_range (fun _ => List.Perm.refl _) _ mapsHistory_clean _

example : ((after mapsHistory zero).keys (fun _ => false) id strKeys).2 =
    ((after (mapsHistory ++ [.store (b! "a") { Mem.infoZero with name := b! "x" }]) zero).keys (fun _ => false)
      List.reverse strKeys).2 := by decide +kernel

theorem mapsHistory_text : ∀ k i, lookup mapsHistory k = some i → Utf8.Valid k ∧ InfoText i := by
  intro k i hl
  have hm := lookup_stored hl
  simp only [mapsHistory, List.mem_cons, List.not_mem_nil, or_false] at hm
  have fin : ∀ (a : Str) (x : Info), (decide (Utf8.Valid a ∧ InfoText x)) = true → Op.store k i = Op.store a x →
      Utf8.Valid k ∧ InfoText i := by
    intro a x hd he
    cases he
    exact of_decide_eq_true hd
  rcases hm with h | h | h | h | h | h | h
  · exact fin _ _ (by decide +kernel) h
  · exact fin _ _ (by decide +kernel) h
  · cases h
  · exact fin _ _ (by decide +kernel) h
  · exact fin _ _ (by decide +kernel) h
  · cases h
  · cases h

/-- Written and read into a map that has another `b` and a `d`. -/
example : ∃ b m, infosMarshal plainHere (after mapsHistory zero) = .ok b ∧
    infosUnmarshal plainHere List.reverse (after [.store (b! "b") Mem.infoZero, .store (b! "d") Mem.infoZero] zero) b =
      (m, .ok ()) ∧
    ∀ k, (m.load (fun _ => false) k).2 = .ok (((lookup mapsHistory k).map id).or
      (lookup [.store (b! "b") Mem.infoZero, .store (b! "d") Mem.infoZero] k)) :=
  C106_marshal_partial plainHere_law (fun m => m.reverse_perm) (by simp [mapsHistory]) mapsHistory_text _

/-- A document of that form. -/
example : Json.parse (b! "{\"{}\":null}") = some (.obj [(b! "{}", .null)]) ∧
    ((Json.parse (b! "{}")).bind (plainHere.pathOf Path.zero)).isSome :=
  ⟨by
    have h := Json.parse_print (j := .obj [(b! "{}", .null)]) ⟨trivial, trivial⟩
    have e : (Json.obj [(b! "{}", .null)]).print = b! "{\"{}\":null}" := by decide +kernel
    have k : Utf8.sane (b! "{}") = b! "{}" := by decide +kernel
    rw [e] at h
    simpa only [Json.sane, Json.saneMembers, k] using h, by decide +kernel⟩

/-- Files, with `none` for nil. -/
def nilHistory : List (Op Path (Option Str)) :=
  [.store ⟨b! "m", b! "/a"⟩ none, .store ⟨b! "m", b! "/b"⟩ (some (b! "x"))]

def pathKeys : List Path → List Path := sortBy Path.str

/-- A nil file in the map hides the entries visited after it. -/
theorem C106_keys_refuted : ¬ C106_keys_statement := by
  intro h
  obtain ⟨l, h1, _, _, h2⟩ := h Path (Option Str) Option.isNone Path.str List.reverse pathKeys nilHistory
    (fun m => m.reverse_perm) fun l => ⟨sortBy_perm _ l, sortBy_sorted _ l⟩
  have hl : ((after nilHistory zero).keys Option.isNone List.reverse pathKeys).2 = .ok [] := by decide +kernel
  rw [hl] at h1
  cases h1
  have := (h2 ⟨b! "m", b! "/b"⟩).mpr ⟨some (b! "x"), by decide +kernel⟩
  cases this

/-- Stored and deleted again. -/
example : ∃ b, (filesMarshal plainHere id (fun s : Str => Json.str s)
      (after [.store ⟨b! "m", b! "/b"⟩ (b! "x"), .delete ⟨b! "m", b! "/b"⟩] zero)).2 = .ok b ∧
    filesUnmarshal plainHere id (b! "") TMap.zero b = (TMap.zero, .ok ()) :=
  C106_files_empty (h := [.store ⟨b! "m", b! "/b"⟩ (b! "x"), .delete ⟨b! "m", b! "/b"⟩])
    (fun _ => List.Perm.refl _) (fun _ => List.Perm.refl _) (by
    intro p
    by_cases hp : (⟨b! "m", b! "/b"⟩ : Path) = p
    · subst hp; decide +kernel
    · simp [lookup, said, hp]) _ _

/-- One stored file is enough. -/
theorem C106_files_refuted : ¬ C106_files_statement := by
  intro h
  obtain ⟨b, h1, h2⟩ := C106_files_fails (H := plainHere) (enc := fun s : Str => Json.str s) (ord := id)
    (fun v => ⟨trivial, fun hn => by cases hn⟩) (fun _ => List.Perm.refl _) id
    (h := [.store ⟨b! "m", b! "/b"⟩ (b! "x")]) (p := ⟨b! "m", b! "/b"⟩) (v := b! "x") (by decide +kernel) [] zero
  have := h plainHere id (fun s => Json.str s) id id [.store ⟨b! "m", b! "/b"⟩ (b! "x")] b plainHere_law
    (fun _ => trivial) (fun _ => List.Perm.refl _) (fun _ => List.Perm.refl _) (by rw [h1])
  rw [h2] at this
  cases this

end Props
end Verif
