import Verif.Go.HereParse
import Verif.Model.History

/-!
One concrete setting for the examples that show the theorems' hypotheses can be met: module `app` in
directory `/src/app`, with the reconstructed `Parse`, and another package `lib`.
-/

namespace Verif
namespace Demo

def info : Info :=
  { dir := b! "/src/app", importPath := b! "app", name := b! "main",
    module := { path := b! "app", main := true, dir := b! "/src/app", goMod := b! "/src/app/go.mod",
                goVersion := b! "1.13" } }

def libInfo : Info :=
  { dir := b! "/src/lib", importPath := b! "lib", name := b! "lib",
    module := { path := b! "lib", main := false, dir := b! "/src/lib", goMod := b! "/src/lib/go.mod",
                goVersion := b! "1.13" } }

/-- `here.Dir`: the module owning a directory. -/
def dirInfo (d : Str) : Except Err Info :=
  if Str.hasPrefix d (b! "/src/lib") then .ok libInfo
  else if Str.hasPrefix d (b! "/src/app") then .ok info
  else .error (.other 1)

/-- `here.Package`. -/
def pkgInfo (p : Str) : Except Err Info :=
  if p = b! "app" then .ok info else if p = b! "lib" then .ok libInfo else .error (.other 2)

/-- "Compression" that prefixes a magic byte. -/
def gzip (b : Str) : Str := 31 :: b

def gunzip : Str → Except Err Str
  | 31 :: b => .ok b
  | _ => .error .codec

def env : Env := HereParse.env dirInfo pkgInfo gzip gunzip

theorem info_ok : InfoOk info where
  modulePlain := by decide
  dirOk := Or.inr ⟨[b! "src", b! "app"], by decide, by decide, by decide⟩

theorem laws : ParseLaws env info := HereParse.lawful info_ok _ _ _ _

theorem gzipLaw : GzipLaw env := fun _ => rfl

/-- A fresh Pkger of the demo module. -/
def w0 : Mem.World := Mem.new info 1000

/-- The demo Pkger after some operations. -/
def after (ops : List Mem.Op) : Mem.World := Mem.run env w0 ops

end Demo
end Verif
