import Verif.Model.Disk

/-! What a disk tree contains, element by element. -/

namespace Verif
namespace Disk
namespace Node

mutual
/-- Every entry of the tree, with the path elements leading to it, a directory before its content. -/
def tree : Node → List (List Str × Node)
  | file d b => [([], file d b)]
  | dir d kids => ([], dir d kids) :: treeKids kids

/-- The entries below the given children. -/
def treeKids : List (Str × Node) → List (List Str × Node)
  | [] => []
  | (name, n) :: rest => (tree n).map (fun e => (name :: e.1, e.2)) ++ treeKids rest
end

mutual
/-- A tree as a file system has it: names are proper path elements and are unique in their directory. -/
def WF : Node → Prop
  | file _ _ => True
  | dir _ kids => (kids.map (·.1)).Nodup ∧ WFKids kids

/-- `WF` for the children. -/
def WFKids : List (Str × Node) → Prop
  | [] => True
  | (name, n) :: rest => GoPath.GoodElem name ∧ WF n ∧ WFKids rest
end

mutual
def decWF : (n : Node) → Decidable (WF n)
  | file _ _ => isTrue trivial
  | dir _ kids =>
    match decWFKids kids with
    | isTrue h => if h' : (kids.map (·.1)).Nodup then isTrue ⟨h', h⟩ else isFalse fun x => h' x.1
    | isFalse h => isFalse fun x => h x.2

def decWFKids : (kids : List (Str × Node)) → Decidable (WFKids kids)
  | [] => isTrue trivial
  | (name, n) :: rest =>
    match decWF n, decWFKids rest with
    | isTrue h, isTrue h' =>
      if h'' : GoPath.GoodElem name then isTrue ⟨h'', h, h'⟩ else isFalse fun x => h'' x.1
    | isFalse h, _ => isFalse fun x => h x.2.1
    | _, isFalse h => isFalse fun x => h x.2.2
end

instance (n : Node) : Decidable (WF n) := decWF n

end Node
end Disk
end Verif
