import Verif.Model.Serial
import Verif.Lemmas.Observe

/-! Reading back what was written: structs, maps and the whole Pkger. -/

namespace Verif
namespace Serial

open Mem (Details FileObj World)

theorem saneText {s : Str} (h : Utf8.Valid s) : Utf8.sane s = s := Utf8.sane_of_valid s h

/-! ### Times -/

theorem digit_ascii {c : UInt8} (h : Json.isDigit c = true) : c < 0x80 := by
  rw [Json.isDigit_iff] at h
  exact UInt8.lt_iff_toNat_lt.mpr (by
    have : (0x80 : UInt8).toNat = 128 := rfl
    omega)

theorem ascii_append {a b : Str} (ha : ∀ c ∈ a, c < 0x80) (hb : ∀ c ∈ b, c < 0x80) : ∀ c ∈ a ++ b, c < 0x80 := by
  intro c hc
  rcases List.mem_append.mp hc with h | h
  · exact ha c h
  · exact hb c h

theorem ascii_cons {x : UInt8} {a : Str} (hx : x < 0x80) (ha : ∀ c ∈ a, c < 0x80) : ∀ c ∈ x :: a, c < 0x80 := by
  intro c hc
  rcases List.mem_cons.mp hc with rfl | h
  · exact hx
  · exact ha c h

theorem ascii_pad (k n : Nat) : ∀ c ∈ Time.pad k n, c < 0x80 := fun c hc => digit_ascii (Time.pad_digits k n c hc)

theorem ascii_ofNat (n : Nat) : ∀ c ∈ Decimal.ofNat n, c < 0x80 :=
  fun c hc => digit_ascii ((Decimal.ofNat_text n).1.2.1 c hc)

theorem ascii_format (t off : Int) : ∀ c ∈ Time.format t off, c < 0x80 := by
  unfold Time.format
  refine ascii_append ?_ (ascii_cons (by decide) (ascii_append (ascii_pad _ _) (ascii_cons (by decide)
    (ascii_append (ascii_pad _ _) (ascii_cons (by decide) (ascii_append (ascii_pad _ _) (ascii_cons (by decide)
    (ascii_append (ascii_pad _ _) (ascii_cons (by decide) (ascii_append (ascii_pad _ _)
    (ascii_append ?_ ?_)))))))))))
  · unfold Time.year
    split
    · exact ascii_pad _ _
    · split
      · refine ascii_cons (by decide) ?_
        split
        · exact ascii_pad _ _
        · exact ascii_ofNat _
      · exact ascii_ofNat _
  · unfold Time.fraction
    split
    · simp
    · refine ascii_cons (by decide) ?_
      intro c hc
      obtain ⟨m, hm⟩ := Time.stripZeros_spec (Time.pad 9 (t % 1000000000).toNat)
      exact ascii_pad _ _ c (by rw [hm]; exact List.mem_append_left _ hc)
  · unfold Time.zone
    split
    · intro c hc; simp at hc; subst hc; decide
    · refine ascii_cons ?_ (ascii_append (ascii_pad _ _) (ascii_cons (by decide) (ascii_pad _ _)))
      split <;> decide

/-! ### Details -/

/-- A time that RFC 3339 can express: whole minutes of offset, a year of four digits. -/
structure TimeOk (Z : Int → Int) (t : Int) : Prop where
  minutes : Z t % 60 = 0
  offset : (Z t).natAbs < 360000
  year : 0 ≤ Time.yearOf t (Z t) ∧ Time.yearOf t (Z t) < 10000

/-- Details with values of their Go types (`int64`, `uint32`), a valid name and an expressible time. -/
structure DetailsOk (Z : Int → Int) (d : Details) : Prop where
  name : Utf8.Valid d.name
  size : -9223372036854775808 ≤ d.size ∧ d.size < 9223372036854775808
  mode : d.mode < 4294967296
  time : TimeOk Z d.modTime

theorem sane_encDetails (Z : Int → Int) (d : Details) : (encDetails Z d).sane =
    .obj [(b! "name", .str (Utf8.sane d.name)), (b! "size", .num (Decimal.ofInt d.size)),
      (b! "mode", .num (Decimal.ofNat d.mode)),
      (b! "mod_time", .str (Time.format d.modTime (Z d.modTime))), (b! "is_dir", .bool d.isDir), (b! "sys", .null)] := by
  have e1 : Utf8.sane (b! "name") = b! "name" := by decide +kernel
  have e2 : Utf8.sane (b! "size") = b! "size" := by decide +kernel
  have e3 : Utf8.sane (b! "mode") = b! "mode" := by decide +kernel
  have e4 : Utf8.sane (b! "mod_time") = b! "mod_time" := by decide +kernel
  have e5 : Utf8.sane (b! "is_dir") = b! "is_dir" := by decide +kernel
  have e6 : Utf8.sane (b! "sys") = b! "sys" := by decide +kernel
  have e7 := saneText (Utf8.valid_ascii (ascii_format d.modTime (Z d.modTime)))
  simp only [encDetails, Json.sane, Json.saneMembers, e1, e2, e3, e4, e5, e6, e7]

theorem members_cons {α : Type} {fs : List (Str × Dec α)} {k : Str} {j : Json} {ms : List (Str × Json)} {g : Dec α}
    (h : field fs k = some g) (a : α) : members fs a ((k, j) :: ms) = (g a j).bind fun a' => members fs a' ms := by
  simp only [members, h]

theorem members_nil {α : Type} (fs : List (Str × Dec α)) (a : α) : members fs a [] = some a := rfl

theorem struct_details {Z : Int → Int} {d : Details} (h : DetailsOk Z d) :
    struct detailsFields detailsZero (encDetails Z d).sane = some d := by
  rw [sane_encDetails]
  simp only [struct]
  rw [members_cons (by rfl)]
  simp only [decStr, Option.map_some, Option.bind_some, saneText h.name]
  rw [members_cons (by rfl)]
  simp only [decInt64, Decimal.toInt_ofInt, if_pos h.size, Option.map_some, Option.bind_some]
  rw [members_cons (by rfl)]
  simp only [decUint32, Decimal.toNat_ofNat, if_pos h.mode, Option.map_some, Option.bind_some]
  rw [members_cons (by rfl)]
  simp only [decTime, Time.parse_format h.time.minutes h.time.offset h.time.year, Option.map_some, Option.bind_some]
  rw [members_cons (by rfl)]
  simp only [decBool, Option.map_some, Option.bind_some]
  rw [members_cons (by rfl)]
  simp only [Option.bind_some, members_nil]

theorem decFileInfo_enc {Z : Int → Int} {i : Option Details} (h : ∀ d, i = some d → DetailsOk Z d) :
    decFileInfo none (encFileInfo Z i).sane = some i := by
  cases i with
  | none => rfl
  | some d =>
    have e1 : Utf8.sane (b! "details") = b! "details" := by decide +kernel
    simp only [encFileInfo, Json.sane, Json.saneMembers, e1, decFileInfo, struct, Option.getD_none]
    rw [members_cons (by rfl)]
    simp only [struct_details (h d rfl)]
    rfl

theorem decBytes_enc (a b : Option Str) : decBytes a (encBytes b).sane = some b := by
  cases b with
  | none => rfl
  | some b =>
    have := saneText (Utf8.valid_ascii fun c hc => (Base64.encode_chars b c hc).2.2)
    simp only [encBytes, Json.sane, this, decBytes, Base64.decode_encode, Option.map_some]

/-- A file every part of which JSON can express. -/
structure EFileOk (Z : Int → Int) (f : EFile) : Prop where
  info : ∀ d, f.info = some d → DetailsOk Z d
  here : InfoText f.here
  path : PathText f.path
  parent : PathText f.parent

theorem dec_encFile {H : HereJson} {kept : Info → Info} (hH : HereLaw H kept) {Z : Int → Int} {f : EFile}
    (h : EFileOk Z f) : struct (fileFields H) fileZero (encFile H Z f).sane = some { f with here := kept f.here } := by
  have e1 : Utf8.sane (b! "info") = b! "info" := by decide +kernel
  have e2 : Utf8.sane (b! "her") = b! "her" := by decide +kernel
  have e3 : Utf8.sane (b! "path") = b! "path" := by decide +kernel
  have e4 : Utf8.sane (b! "data") = b! "data" := by decide +kernel
  have e5 : Utf8.sane (b! "parent") = b! "parent" := by decide +kernel
  simp only [encFile, Json.sane, Json.saneMembers, e1, e2, e3, e4, e5, struct, fileZero]
  rw [members_cons (by rfl)]
  simp only [decFileInfo_enc h.info, Option.map_some, Option.bind_some]
  rw [members_cons (by rfl)]
  simp only [hH.info _ h.here, Option.map_some, Option.bind_some]
  rw [members_cons (by rfl)]
  simp only [hH.path _ h.path, Option.map_some, Option.bind_some]
  rw [members_cons (by rfl)]
  simp only [decBytes_enc, Option.map_some, Option.bind_some]
  rw [members_cons (by rfl)]
  simp only [hH.path _ h.parent, Option.map_some, Option.bind_some, members_nil]

/-! ### Maps -/

theorem saneMembers_map {α : Type} (enc : α → Json) (l : List (Str × α)) :
    Json.saneMembers (l.map fun e => (e.1, enc e.2)) = l.map fun e => (Utf8.sane e.1, (enc e.2).sane) := by
  induction l with
  | nil => rfl
  | cons e l ih => simp only [List.map_cons, Json.saneMembers, ih]

theorem intsMembers_map {α : Type} (enc : α → Json) (l : List (Str × α)) (h : ∀ e ∈ l, (enc e.2).Ints) :
    Json.IntsMembers (l.map fun e => (e.1, enc e.2)) := by
  induction l with
  | nil => trivial
  | cons e l ih => exact ⟨h e (by simp), ih fun e he => h e (by simp [he])⟩

/-- Storing the elements of a list in a map, one after the other. -/
def setAll {α β γ : Type} [DecidableEq β] (key : α → β) (val : α → γ) (m : AMap β γ) (l : List α) : AMap β γ :=
  l.foldl (fun m e => AMap.set m (key e) (val e)) m

theorem nodup_setAll {α β γ : Type} [DecidableEq β] (key : α → β) (val : α → γ) (l : List α) :
    ∀ m : AMap β γ, AMap.Nodup m → AMap.Nodup (setAll key val m l) := by
  induction l with
  | nil => intro m h; exact h
  | cons e l ih => intro m h; exact ih _ (AMap.nodup_set _ _ h)

/-- With pairwise different keys, each key then has its own value. -/
theorem get_setAll {α β γ : Type} [DecidableEq β] (key : α → β) (val : α → γ) (l : List α) :
    ∀ m : AMap β γ, (l.map key).Nodup → ∀ k,
      AMap.get (setAll key val m l) k = match l.find? fun e => key e = k with
        | some e => some (val e)
        | none => AMap.get m k := by
  induction l with
  | nil => intro m _ k; rfl
  | cons e l ih =>
    intro m hn k
    rw [List.map_cons, List.nodup_cons] at hn
    have := ih (AMap.set m (key e) (val e)) hn.2 k
    simp only [setAll, List.foldl_cons] at this ⊢
    rw [this]
    by_cases hk : key e = k
    · have hnone : l.find? (fun e => decide (key e = k)) = none := by
        rw [List.find?_eq_none]
        intro x hx hxk
        simp only [decide_eq_true_eq] at hxk
        exact hn.1 (List.mem_map.mpr ⟨x, hx, by rw [hxk, hk]⟩)
      rw [hnone, List.find?_cons_of_pos (by simpa using hk)]
      simp only [AMap.get_set, hk, if_true]
    · rw [List.find?_cons_of_neg (by simpa using hk)]
      rw [AMap.get_set, if_neg (fun h => hk h.symm)]

theorem get_eq_find {β γ : Type} [DecidableEq β] (m : AMap β γ) (k : β) :
    AMap.get m k = (m.find? fun e => e.1 = k).map (·.2) := by
  induction m with
  | nil => rfl
  | cons e m ih =>
    obtain ⟨a, v⟩ := e
    rw [AMap.get_cons]
    by_cases h : a = k
    · rw [if_pos h, List.find?_cons_of_pos (by simpa using h)]; rfl
    · rw [if_neg h, List.find?_cons_of_neg (by simpa using h), ih]

theorem decEntries_map {α β : Type} {enc : α → Json} {dec : Json → Option β} {norm : α → β} (l : List (Str × α))
    (h : ∀ e ∈ l, Utf8.Valid e.1 ∧ dec (enc e.2).sane = some (norm e.2)) :
    ∀ m : AMap Str β, decEntries dec m (l.map fun e => (Utf8.sane e.1, (enc e.2).sane)) =
      some (setAll (·.1) (fun e => norm e.2) m l) := by
  induction l with
  | nil => intro m; rfl
  | cons e l ih =>
    intro m
    have he := h e (by simp)
    simp only [List.map_cons, decEntries, he.2, Option.bind_some, saneText he.1]
    rw [ih fun e' he' => h e' (by simp [he'])]
    rfl

/-- A written map is read back, with every value as far as it is kept. -/
theorem decMap_enc {α β : Type} {enc : α → Json} {dec : Json → Option β} {norm : α → β} {m : AMap Str α}
    (hn : AMap.Nodup m) (h : ∀ e ∈ m, Utf8.Valid e.1 ∧ dec (enc e.2).sane = some (norm e.2)) :
    ∃ m', decMap dec [] (encMap enc m).sane = some m' ∧ AMap.Nodup m' ∧
      ∀ k, AMap.get m' k = (AMap.get m k).map norm := by
  have hperm := sortBy_perm (fun e : Str × α => e.1) m
  have hns : AMap.Nodup (sortBy (fun e : Str × α => e.1) m) := AMap.nodup_perm hperm.symm hn
  refine ⟨setAll (·.1) (fun e => norm e.2) [] (sortBy (fun e : Str × α => e.1) m), ?_, ?_, ?_⟩
  · simp only [encMap, Json.sane, decMap, saneMembers_map]
    exact decEntries_map _ (fun e he => h e ((mem_sortBy _ _ _).mp he)) []
  · exact nodup_setAll _ _ _ _ (by simp [AMap.Nodup, AMap.keys])
  · intro k
    rw [get_setAll _ _ _ _ hns, AMap.get_perm hperm.symm hn k, get_eq_find (sortBy (fun e : Str × α => e.1) m)]
    cases (sortBy (fun e : Str × α => e.1) m).find? fun e => decide (e.1 = k) <;> rfl

/-! ### Numbers are written as integers -/

theorem ints_details (Z : Int → Int) (d : Details) : (encDetails Z d).Ints :=
  ⟨trivial, Decimal.ofInt_text _, .inl (Decimal.ofNat_text _).1, trivial, trivial, trivial, trivial⟩

theorem ints_file {H : HereJson} {kept : Info → Info} (hH : HereLaw H kept) (Z : Int → Int) (f : EFile) :
    (encFile H Z f).Ints := by
  refine ⟨?_, hH.infoInts _, hH.pathInts _, ?_, hH.pathInts _, trivial⟩
  · cases f.info with
    | none => trivial
    | some d => exact ⟨ints_details Z d, trivial⟩
  · cases f.data <;> trivial

theorem ints_data {H : HereJson} {kept : Info → Info} (hH : HereLaw H kept) (Z : Int → Int) (d : EData) :
    (encData H Z d).Ints :=
  ⟨intsMembers_map _ _ fun _ _ => hH.infoInts _, intsMembers_map _ _ fun _ _ => ints_file hH Z _, hH.infoInts _,
    trivial⟩

/-- Everything in the data can be expressed in JSON. -/
structure EDataOk (Z : Int → Int) (d : EData) : Prop where
  infos : AMap.Nodup d.infos
  files : AMap.Nodup d.files
  infosOk : ∀ e ∈ d.infos, Utf8.Valid e.1 ∧ InfoText e.2
  filesOk : ∀ e ∈ d.files, Utf8.Valid e.1 ∧ EFileOk Z e.2
  here : InfoText d.here

theorem dec_encData {H : HereJson} {kept : Info → Info} (hH : HereLaw H kept) {Z : Int → Int} {d : EData}
    (h : EDataOk Z d) : ∃ y, struct (dataFields H) ⟨[], [], Mem.infoZero⟩ (encData H Z d).sane = some y ∧
      y.here = kept d.here ∧ (∀ k, AMap.get y.infos k = (AMap.get d.infos k).map kept) ∧ AMap.Nodup y.files ∧ AMap.Nodup y.infos ∧
      ∀ k, AMap.get y.files k = (AMap.get d.files k).map fun f => { f with here := kept f.here } := by
  have e1 : Utf8.sane (b! "infos") = b! "infos" := by decide +kernel
  have e2 : Utf8.sane (b! "files") = b! "files" := by decide +kernel
  have e3 : Utf8.sane (b! "here") = b! "here" := by decide +kernel
  obtain ⟨mi, hi, ni, gi⟩ := decMap_enc (enc := H.info) (dec := H.infoOf Mem.infoZero) (norm := kept) h.infos
    fun e he => ⟨(h.infosOk e he).1, hH.info _ (h.infosOk e he).2⟩
  obtain ⟨mf, hf, nf, gf⟩ := decMap_enc (enc := encFile H Z) (dec := struct (fileFields H) fileZero)
    (norm := fun f => { f with here := kept f.here }) h.files
    fun e he => ⟨(h.filesOk e he).1, dec_encFile hH (h.filesOk e he).2⟩
  refine ⟨⟨mi, mf, kept d.here⟩, ?_, rfl, gi, nf, ni, gf⟩
  simp only [encData, Json.sane, Json.saneMembers, e1, e2, e3, struct]
  rw [members_cons (by rfl)]
  simp only [hi, Option.map_some, Option.bind_some]
  rw [members_cons (by rfl)]
  simp only [hf, Option.map_some, Option.bind_some]
  rw [members_cons (by rfl)]
  simp only [hH.info _ h.here, Option.map_some, Option.bind_some, members_nil]

/-! ### Loading -/

/-- Every bound object is allocated. -/
def Bounded (w : World) : Prop := ∀ k id, AMap.get w.files k = some id → id < w.next

theorem lookup_bind {w : World} (hb : Bounded w) (f : FileObj) (pt q : Path) :
    Mem.lookup (Mem.store (Mem.alloc w f).1 pt (Mem.alloc w f).2) q = if q = pt then some f else Mem.lookup w q := by
  unfold Mem.lookup Mem.store Mem.alloc
  simp only [AMap.get_set]
  by_cases h : q = pt
  · simp [h]
  · rw [if_neg h, if_neg h]
    cases hg : AMap.get w.files q with
    | none => rfl
    | some id =>
      have := hb q id hg
      simp only [Option.map_some]
      rw [Mem.upd_ne _ _ (by omega)]

theorem bounded_bind {w : World} (hb : Bounded w) (f : FileObj) (pt : Path) :
    Bounded (Mem.store (Mem.alloc w f).1 pt (Mem.alloc w f).2) := by
  intro k id h
  simp only [Mem.store, Mem.alloc, AMap.get_set] at h ⊢
  split at h
  · injection h with h; omega
  · have := hb k id h; omega

/-- Loading files whose keys designate pairwise different paths. -/
theorem loadFiles_spec {E : Env} (path : Str → Path) : ∀ (l : List (Str × EFile)) {w : World}, Bounded w →
    (∀ e ∈ l, E.parse w.here e.1 = .ok (path e.1)) → (l.map fun e => path e.1).Nodup →
    ∃ w', loadFiles E w l = (w', .ok ()) ∧ w'.here = w.here ∧ w'.infos = w.infos ∧ Bounded w' ∧
      ∀ q, Mem.lookup w' q = match l.find? fun e => path e.1 = q with
        | some e => some (fileOf e.2)
        | none => Mem.lookup w q
  | [], w, hb, _, _ => ⟨w, rfl, rfl, rfl, hb, fun _ => rfl⟩
  | e :: l, w, hb, hp, hn => by
    obtain ⟨k, v⟩ := e
    rw [List.map_cons, List.nodup_cons] at hn
    have h1 := hp (k, v) (by simp)
    have hb' := bounded_bind hb (fileOf v) (path k)
    obtain ⟨w', h2, h3, h4, h5, h6⟩ := loadFiles_spec path l hb' (fun e he => hp e (by simp [he])) hn.2
    refine ⟨w', ?_, h3, h4, h5, ?_⟩
    · simp only [loadFiles, Mem.parse]
      simp only at h1
      rw [h1]
      exact h2
    · intro q
      rw [h6]
      by_cases hq : path k = q
      · have hnone : l.find? (fun e => decide (path e.1 = q)) = none := by
          rw [List.find?_eq_none]
          intro x hx hxk
          simp only [decide_eq_true_eq] at hxk
          exact hn.1 (List.mem_map.mpr ⟨x, hx, by rw [hxk, ← hq]⟩)
        rw [hnone, List.find?_cons_of_pos (by simpa using hq)]
        simp only
        rw [lookup_bind hb, if_pos hq.symm]
      · rw [List.find?_cons_of_neg (by simpa using hq)]
        rw [lookup_bind hb, if_neg (fun h => hq h.symm)]

/-- The file objects after loading are those from before and those of the loaded files. -/
theorem loadFiles_heap {E : Env} : ∀ (l : List (Str × EFile)) {w w' : World}, loadFiles E w l = (w', .ok ()) →
    AMap.Nodup w.files → AMap.Nodup w'.files ∧
      ∀ id, w'.heap id = w.heap id ∨ ∃ e ∈ l, w'.heap id = fileOf e.2
  | [], w, w', h, hn => by
    injection h with h _
    subst h
    exact ⟨hn, fun _ => Or.inl rfl⟩
  | (k, v) :: l, w, w', h, hn => by
    unfold loadFiles at h
    split at h
    · cases h
    · obtain ⟨h1, h2⟩ := loadFiles_heap l h (AMap.nodup_set _ _ hn)
      refine ⟨h1, fun id => ?_⟩
      rcases h2 id with h3 | ⟨e, he, h3⟩
      · rw [h3]
        by_cases hid : id = w.next
        · right
          exact ⟨(k, v), by simp, by subst hid; simp [Mem.store, Mem.alloc]⟩
        · left
          simp [Mem.store, Mem.alloc, Mem.upd_ne _ _ hid]
      · exact Or.inr ⟨e, by simp [he], h3⟩

/-! ### The whole Pkger -/

/-- A stored file that JSON can express. -/
structure ObjText (Z : Int → Int) (f : FileObj) : Prop where
  info : ∀ d, f.info = some d → DetailsOk Z d
  here : InfoText f.here
  path : PathText f.path
  parent : PathText f.parent

/-- A Pkger that can be written and read back: its keys are read back by `Parse` (for the info as it is kept), and
every part can be expressed in JSON. -/
structure Portable (E : Env) (kept : Info → Info) (Z : Int → Int) (w : World) : Prop where
  nodup : AMap.Nodup w.files
  infosNodup : AMap.Nodup w.infos
  keys : ∀ q id, AMap.get w.files q = some id →
    Utf8.Valid q.str ∧ E.parse (kept w.here) q.str = .ok q ∧ ObjText Z (w.heap id)
  infos : ∀ k i, AMap.get w.infos k = some i → Utf8.Valid k ∧ InfoText i
  here : InfoText w.here

/-- What is left of a file object after writing and reading it. -/
def reborn (kept : Info → Info) (f : FileObj) : FileObj :=
  { f with here := kept f.here, writer := none, reader := none, pkging := false }

/-- The order in which a map is visited: any order, each entry once. -/
def Visits (ord : AMap Str EFile → List (Str × EFile)) : Prop := ∀ m, (ord m).Perm m

theorem nodup_map_of_inj {α β : Type} {f : α → β} {l : List α} (hn : l.Nodup)
    (h : ∀ a ∈ l, ∀ b ∈ l, f a = f b → a = b) : (l.map f).Nodup := by
  induction l with
  | nil => simp
  | cons a l ih =>
    rw [List.nodup_cons] at hn
    rw [List.map_cons, List.nodup_cons]
    refine ⟨?_, ih hn.2 fun x hx y hy => h x (by simp [hx]) y (by simp [hy])⟩
    intro hm
    obtain ⟨b, hb, he⟩ := List.mem_map.mp hm
    have := h b (by simp [hb]) a (by simp) he
    subst this
    exact hn.1 hb

theorem nodup_entries {β γ : Type} {m : AMap β γ} (h : AMap.Nodup m) : List.Nodup m := by
  unfold AMap.Nodup AMap.keys at h
  induction m with
  | nil => simp
  | cons e m ih =>
    rw [List.map_cons, List.nodup_cons] at h
    rw [List.nodup_cons]
    exact ⟨fun hm => h.1 (List.mem_map.mpr ⟨e, hm, rfl⟩), ih h.2⟩

theorem portable_inj {E : Env} {kept : Info → Info} {Z : Int → Int} {w : World} (h : Portable E kept Z w)
    {q q' : Path} (hq : Mem.Stored w q) (hq' : Mem.Stored w q') (he : q.str = q'.str) : q = q' := by
  obtain ⟨id, hid⟩ := hq
  obtain ⟨id', hid'⟩ := hq'
  have h1 := (h.keys q id hid).2.1
  have h2 := (h.keys q' id' hid').2.1
  rw [he, h2] at h1
  injection h1 with h1
  exact h1.symm

/-- Each stored file is embedded once, under the text of its path, if these texts differ. -/
theorem embedData_entries {w : World} (hnd : AMap.Nodup w.files)
    (hinj : ∀ q q', Mem.Stored w q → Mem.Stored w q' → q.str = q'.str → q = q') :
    AMap.Nodup (embedData w).files ∧
    (∀ q id, AMap.get w.files q = some id → AMap.get (embedData w).files q.str = some (efile (w.heap id))) ∧
    (∀ k v, AMap.get (embedData w).files k = some v → ∃ q id, AMap.get w.files q = some id ∧ k = q.str ∧
      v = efile (w.heap id)) := by
  have hs : ∀ e ∈ w.files, AMap.get w.files e.1 = some e.2 := fun e he => AMap.get_of_mem hnd he
  have hn : (w.files.map fun e => e.1.str).Nodup := by
    refine nodup_map_of_inj (nodup_entries hnd) ?_
    intro a ha b hb he
    have h1 := hinj _ _ ⟨a.2, hs a ha⟩ ⟨b.2, hs b hb⟩ he
    have h2 := hs a ha
    rw [h1, hs b hb] at h2
    injection h2 with h2
    exact Prod.ext h1 h2.symm
  have hg := get_setAll (fun e : Path × Nat => e.1.str) (fun e => efile (w.heap e.2)) w.files [] hn
  refine ⟨nodup_setAll _ _ w.files _ (by simp [AMap.Nodup, AMap.keys]), ?_, ?_⟩
  · intro q id hq
    have := hg q.str
    simp only [embedData]
    simp only [setAll] at this
    rw [this]
    cases hf : w.files.find? fun e => decide (e.1.str = q.str) with
    | none =>
      rw [List.find?_eq_none] at hf
      exact absurd (hf _ (AMap.get_mem hq)) (by simp)
    | some e =>
      simp only
      have h1 := List.mem_of_find?_eq_some hf
      have h2 := List.find?_some hf
      simp only [decide_eq_true_eq] at h2
      have h3 := hinj _ _ ⟨e.2, hs e h1⟩ ⟨id, hq⟩ h2
      have h4 := hs e h1
      rw [h3, hq] at h4
      injection h4 with h4
      rw [h4]
  · intro k v hk
    simp only [embedData] at hk
    have := hg k
    simp only [setAll] at this
    rw [this] at hk
    cases hf : w.files.find? fun e => decide (e.1.str = k) with
    | none => rw [hf] at hk; simp at hk
    | some e =>
      rw [hf] at hk
      simp only [Option.some.injEq] at hk
      have h2 := List.find?_some hf
      simp only [decide_eq_true_eq] at h2
      exact ⟨e.1, e.2, hs e (List.mem_of_find?_eq_some hf), h2.symm, hk.symm⟩

theorem embedData_files {E : Env} {kept : Info → Info} {Z : Int → Int} {w : World} (h : Portable E kept Z w) :
    AMap.Nodup (embedData w).files ∧
    (∀ q id, AMap.get w.files q = some id → AMap.get (embedData w).files q.str = some (efile (w.heap id))) ∧
    (∀ k v, AMap.get (embedData w).files k = some v → ∃ q id, AMap.get w.files q = some id ∧ k = q.str ∧
      v = efile (w.heap id)) := embedData_entries h.nodup fun _ _ hq hq' he => portable_inj h hq hq' he

theorem embedData_infos {w : World} (hn : AMap.Nodup w.infos) : AMap.Nodup (embedData w).infos ∧
    ∀ k, AMap.get (embedData w).infos k = AMap.get w.infos k := by
  refine ⟨nodup_setAll (fun e : Str × Info => e.1) (fun e => e.2) w.infos _ (by simp [AMap.Nodup, AMap.keys]), ?_⟩
  intro k
  have := get_setAll (fun e : Str × Info => e.1) (fun e => e.2) w.infos [] hn k
  simp only [embedData]
  simp only [setAll] at this
  rw [this, get_eq_find w.infos]
  cases w.infos.find? fun e => decide (e.1 = k) <;> rfl

theorem not_null {H : HereJson} {Z : Int → Int} {d : EData} : ∃ ms, (encData H Z d).sane = .obj ms :=
  ⟨_, by simp only [encData, Json.sane]; rfl⟩

/-- **Round trip**: reading a written Pkger succeeds and gives the kept info, the kept infos and, at each path, the
stored file without its open handles. -/
theorem unmarshal_marshal {E : Env} {H : HereJson} {kept : Info → Info} (hH : HereLaw H kept) {Z : Int → Int}
    {ord : AMap Str EFile → List (Str × EFile)} (ho : Visits ord) {w : World} (h : Portable E kept Z w) (w0 : World) :
    ∃ w', unmarshal E H ord w0 (marshal H Z w) = (w', .ok ()) ∧ w'.here = kept w.here ∧
      (∀ k, AMap.get w'.infos k = (AMap.get w.infos k).map kept) ∧
      (∀ q, Mem.lookup w' q = (Mem.lookup w q).map (reborn kept)) ∧
      (AMap.Nodup w'.infos ∧ AMap.Nodup w'.files ∧ Bounded w' ∧
        ∀ j, w'.heap j = w0.heap j ∨
          ∃ q id, AMap.get w.files q = some id ∧ w'.heap j = reborn kept (w.heap id)) := by
  obtain ⟨n1, g1, g2⟩ := embedData_files h
  obtain ⟨n2, g3⟩ := embedData_infos h.infosNodup
  have hok : EDataOk Z (embedData w) := by
    refine ⟨n2, n1, ?_, ?_, h.here⟩
    · rintro ⟨k, i⟩ he
      have := AMap.get_of_mem n2 he
      rw [g3] at this
      exact h.infos k i this
    · rintro ⟨k, v⟩ he
      obtain ⟨q, id, hq, rfl, rfl⟩ := g2 k v (AMap.get_of_mem n1 he)
      obtain ⟨a, _, c⟩ := h.keys q id hq
      exact ⟨a, ⟨c.info, c.here, c.path, c.parent⟩⟩
  obtain ⟨y, hy, hyh, hyi, hyn, hyin, hyf⟩ := dec_encData hH hok
  -- the path a key stands for
  have hpath : ∀ k v, AMap.get y.files k = some v → ∃ q id, AMap.get w.files q = some id ∧ k = q.str ∧
      v = { efile (w.heap id) with here := kept (w.heap id).here } := by
    intro k v hk
    rw [hyf] at hk
    cases hd : AMap.get (embedData w).files k with
    | none => rw [hd] at hk; cases hk
    | some u =>
      rw [hd] at hk
      simp only [Option.map_some, Option.some.injEq] at hk
      obtain ⟨q, id, h1, h2, rfl⟩ := g2 k u hd
      exact ⟨q, id, h1, h2, hk.symm⟩
  let path : Str → Path := fun k => match E.parse (kept w.here) k with
    | .ok q => q
    | .error _ => Path.zero
  have hperm := ho y.files
  have hno : AMap.Nodup (ord y.files) := AMap.nodup_perm hperm.symm hyn
  have hmem : ∀ e ∈ ord y.files, AMap.get y.files e.1 = some e.2 :=
    fun e he => AMap.get_of_mem hyn (hperm.mem_iff.mp he)
  have hparse : ∀ e ∈ ord y.files, E.parse (kept w.here) e.1 = .ok (path e.1) ∧ (path e.1).str = e.1 := by
    intro e he
    obtain ⟨q, id, h1, h2, _⟩ := hpath e.1 e.2 (hmem e he)
    have h3 := (h.keys q id h1).2.1
    simp only [path, h2, h3, and_self]
  have hnp : ((ord y.files).map fun e => path e.1).Nodup := by
    refine nodup_map_of_inj (nodup_entries hno) ?_
    intro a ha b hb he
    have h1 : a.1 = b.1 := by rw [← (hparse a ha).2, ← (hparse b hb).2, he]
    have h2 := hmem a ha
    rw [h1, hmem b hb] at h2
    injection h2 with h2
    exact Prod.ext h1 h2.symm
  have hb : Bounded { w0 with here := y.here, infos := y.infos, files := [] } := by
    intro k id hk; cases hk
  obtain ⟨w', h1, h2, h3, h4, h5⟩ := loadFiles_spec path (ord y.files) hb
    (by intro e he; simp only [hyh]; exact (hparse e he).1) hnp
  refine ⟨w', ?_, by rw [h2]; exact hyh, by intro k; rw [h3]; simp only [hyi, g3], ?_, by rw [h3]; exact hyin, ?_⟩
  · obtain ⟨ms, hms⟩ := not_null (H := H) (Z := Z) (d := embedData w)
    unfold unmarshal marshal
    rw [Json.parse_print (ints_data hH Z _)]
    rw [hms] at hy ⊢
    simp only [hy, h1]
  · intro q
    rw [h5]
    cases hf : (ord y.files).find? fun e => decide (path e.1 = q) with
    | some e =>
      have hm := List.mem_of_find?_eq_some hf
      have hq := List.find?_some hf
      simp only [decide_eq_true_eq] at hq
      obtain ⟨q', id, e1, e2, e3⟩ := hpath e.1 e.2 (hmem e hm)
      have e4 := (h.keys q' id e1).2.1
      have : q' = q := by
        have := (hparse e hm).1
        rw [e2, e4] at this
        injection this with this
        rw [this, ← e2, hq]
      subst this
      simp only [Mem.lookup, e1, e3, Option.map_some]
      rfl
    | none =>
      simp only
      have : Mem.lookup { w0 with here := y.here, infos := y.infos, files := [] } q = none := rfl
      rw [this]
      cases hq : AMap.get w.files q with
      | none => simp [Mem.lookup, hq]
      | some id =>
        exfalso
        have e1 := g1 q id hq
        have e2 : AMap.get y.files q.str = some { efile (w.heap id) with here := kept (efile (w.heap id)).here } := by
          rw [hyf, e1]; rfl
        rw [List.find?_eq_none] at hf
        have e3 := hf (q.str, _) (hperm.mem_iff.mpr (AMap.get_mem e2))
        simp only [decide_eq_true_eq] at e3
        apply e3
        simp only [path, (h.keys q id hq).2.1]
  · obtain ⟨h6, h7⟩ := loadFiles_heap _ h1 (by simp [AMap.Nodup, AMap.keys])
    refine ⟨h6, h4, fun j => ?_⟩
    rcases h7 j with h8 | ⟨e, he, h8⟩
    · exact Or.inl h8
    · obtain ⟨q, id, e1, _, e3⟩ := hpath e.1 e.2 (hmem e he)
      exact Or.inr ⟨q, id, e1, by rw [h8, e3]; rfl⟩

end Serial
end Verif
