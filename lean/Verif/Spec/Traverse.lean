import Verif.Model.Traverse

/-!
# The nodes of a tree
-/

namespace Verif

/-- `m` is the node of the tree `root` reached by the child positions `p`. -/
inductive IsNode (root : M) : Path → M → Prop
  | root : IsNode root [] root
  | child {p m i c} : IsNode root p m → m.children[i]? = some c → IsNode root (p ++ [i]) c

end Verif
