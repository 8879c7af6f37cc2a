/-!
# Specification vocabulary for C40: binary trees and their fringes
-/
namespace Verif.Fringe

/-- A binary tree; `nil` is the null pointer. -/
inductive Tree (V : Type)
  | nil
  | node (left : Tree V) (value : V) (right : Tree V)
  deriving DecidableEq

/-- The values of a tree from left to right. -/
def Tree.inorder {V : Type} : Tree V → List V
  | .nil => []
  | .node l v r => l.inorder ++ v :: r.inorder

end Verif.Fringe
