import Verif.Go.Json

/-! JSON text with indentation, as made by `json.Indent` (used by `json.MarshalIndent` and by `json.Encoder` after
`SetIndent`): a line for each element and member, a blank after the colon of a member, nothing between the brackets of
empty arrays and objects.  The prefix is always empty here. -/

namespace Verif
namespace Json

/-- `newline(dst, "", u, d)` of encoding/json. -/
def newline (u : Str) (d : Nat) : Str := 10 :: (List.replicate d u).flatten

mutual
/-- The text of a value that starts in depth `d`, indented by copies of `u`. -/
def pretty (u : Str) (d : Nat) : Json → Str
  | .arr [] => b! "[]"
  | .arr (j :: l) => 91 :: (newline u (d + 1) ++ (pretty u (d + 1) j ++ prettyElems u d l))
  | .obj [] => b! "{}"
  | .obj ((k, j) :: l) =>
    123 :: (newline u (d + 1) ++ (quote k ++ 58 :: 32 :: (pretty u (d + 1) j ++ prettyMembers u d l)))
  | .null => print .null
  | .bool b => print (.bool b)
  | .num t => print (.num t)
  | .str s => print (.str s)

/-- The elements after the first, up to the closing bracket. -/
def prettyElems (u : Str) (d : Nat) : List Json → Str
  | [] => newline u d ++ [93]
  | j :: l => 44 :: (newline u (d + 1) ++ (pretty u (d + 1) j ++ prettyElems u d l))

/-- The members after the first, up to the closing brace. -/
def prettyMembers (u : Str) (d : Nat) : List (Str × Json) → Str
  | [] => newline u d ++ [125]
  | (k, j) :: l => 44 :: (newline u (d + 1) ++ (quote k ++ 58 :: 32 :: (pretty u (d + 1) j ++ prettyMembers u d l)))
end

end Json
end Verif
