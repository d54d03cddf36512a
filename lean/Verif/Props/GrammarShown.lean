import Verif.Props.Grammar
import Verif.Props.Report

/-! C115: what the commands print as JSON is JSON. -/

namespace Verif
namespace Props

open Serial Cmd
open JsonText (Document)

theorem document_encode {j : Json} (h : j.Ints) : Document (encode j) := by
  rw [← Json.parse_iff]
  exact ⟨_, parse_encode h⟩

/-- Each of the texts is a JSON text, and they were printed one after the other. -/
def Documents (out : Str) : Prop := ∃ l : List Str, out = l.flatten ∧ ∀ d ∈ l, Document d

theorem ints_members {α : Type} (enc : Str × α → Json) (l : List (Str × α)) (h : ∀ e ∈ l, (enc e).Ints) :
    Json.IntsMembers (l.map fun e => (e.1, enc e)) := by
  induction l with
  | nil => trivial
  | cons e l ih => exact ⟨h e List.mem_cons_self, ih fun a ha => h a (List.mem_cons_of_mem _ ha)⟩

/-- **C115** (commands).  What `pkger list -json` prints is a JSON text, whatever the names of the files are. -/
theorem C115_list {H : HereJson} {kept : Info → Info} (hH : HereLaw H kept) (ip : Str) (files : List Parser.File) :
    Document (listOutput H true ip files) := by
  unfold listOutput
  rw [if_pos rfl]
  exact document_encode ⟨trivial, ints_slice _ _ fun f _ => ints_pfile hH f, trivial⟩

/-- **C115** (commands).  Whatever its arguments, `pkger path` and `pkger parse` print a JSON text or nothing, and
`pkger info` and `pkger stat` print JSON texts one after the other, also if they fail on the way. -/
theorem C115_commands {S : Type} (A : Main.Around S) {kept : Info → Info} (hH : HereLaw A.setup.here kept) (w : Stdos.World S)
    (old : Option Str) (args : List Str) :
    (∀ name, name = b! "path" ∨ name = b! "parse" →
      (Main.execSub A w old name args).out = [] ∨ Document (Main.execSub A w old name args).out) ∧
    ∀ name, name = b! "info" ∨ name = b! "stat" → Documents (Main.execSub A w old name args).out := by
  have hshown : ∀ {α : Type} (text : α → Str) (r : Cmd.Shown α), (∀ a, Document (text a)) →
      (Main.shown A w old text r).out = [] ∨ Document (Main.shown A w old text r).out := by
    intro α text r h
    cases r with
    | ok a => exact Or.inr (h a)
    | _ => exact Or.inl rfl
  constructor
  · rintro name (rfl | rfl)
    · unfold Main.execSub
      rw [if_neg (by decide), if_pos rfl]
      exact hshown _ _ fun m => document_encode (ints_members _ _ fun e _ => hH.pathInts _)
    · unfold Main.execSub
      rw [if_neg (by decide), if_neg (by decide), if_pos rfl]
      refine hshown _ _ fun m => document_encode ?_
      have := ints_members (fun (e : Str × List Parser.Decl) => encSlice (encDecl A.setup.here)
        (e.2.zipIdx.map fun d => (d.1, A.pos e.1 d.2))) (sortBy (·.1) m) fun e _ => ints_slice _ _ fun d _ => ints_decl hH d
      exact this
  · rintro name (rfl | rfl)
    · unfold Main.execSub
      rw [if_neg (by decide), if_neg (by decide), if_neg (by decide), if_pos rfl]
      refine ⟨_, rfl, ?_⟩
      intro d hd
      obtain ⟨i, _, rfl⟩ := List.mem_map.mp hd
      exact document_encode (hH.infoInts i)
    · unfold Main.execSub
      rw [if_neg (by decide), if_neg (by decide), if_neg (by decide), if_neg (by decide), if_pos rfl]
      refine ⟨_, rfl, ?_⟩
      intro d hd
      obtain ⟨i, _, rfl⟩ := List.mem_map.mp hd
      rw [← Json.parse_iff]
      exact ⟨_, Json.parse_pretty (u := [32, 32]) (ws := [10]) (by decide) (by decide) ⟨ints_details _ i, trivial⟩⟩

/-- A name with a quotation mark, a line break and a byte that is no text. -/
example : Document (listOutput plainHere true (b! "app")
    [⟨b! "/src/app/a\"b\n" ++ [200], ⟨b! "app", b! "/a\"b\n" ++ [200]⟩, Demo.info⟩]) :=
  C115_list plainHere_law _ _

/-- `pkger stat /f /g /d`, which fails at `/g`, has printed JSON before. -/
example : Documents (Main.execSub (siteAround plainApp) siteStdos none (b! "stat") [b! "/f", b! "/g", b! "/d"]).out ∧
    (Main.execSub (siteAround plainApp) siteStdos none (b! "stat") [b! "/f", b! "/g", b! "/d"]).out ≠ [] ∧
    (Main.execSub (siteAround plainApp) siteStdos none (b! "stat") [b! "/f", b! "/g", b! "/d"]).fin = .err :=
  ⟨(C115_commands (siteAround plainApp) plainHere_law siteStdos none _).2 _ (Or.inr rfl), by decide +kernel, by decide +kernel⟩

end Props
end Verif
