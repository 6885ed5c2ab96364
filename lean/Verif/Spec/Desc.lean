import Verif.Spec.Tree

/-!
# Independent specification of robot descriptions that form a tree

A description has link names and joints; a joint goes from its parent link to its child link.
-/

namespace PK.Spec
open PK
variable {J : Type}

/-- There is a path of `k` joints from link `a` down to link `b`. -/
inductive Reach (par chi : J → Name) (joints : List J) (a : Name) : ℕ → Name → Prop
  | here : Reach par chi joints a 0 a
  | step (k : ℕ) (j : J) : j ∈ joints → Reach par chi joints a k (par j) →
      Reach par chi joints a (k + 1) (chi j)

/-- The joints make the links a tree with the given root: link names are distinct, no two joints have
the same child, no joint leads to the root, joints connect links, every link can be reached from the
root. -/
structure IsTree (links : List Name) (par chi : J → Name) (joints : List J) (root : Name) : Prop where
  links_nodup : links.Nodup
  root_mem : root ∈ links
  child_mem : ∀ j ∈ joints, chi j ∈ links
  parent_mem : ∀ j ∈ joints, par j ∈ links
  one_parent : (joints.map chi).Nodup
  root_top : ∀ j ∈ joints, chi j ≠ root
  reachable : ∀ l ∈ links, ∃ k, Reach par chi joints root k l

/-- `DescPath a b js`: the joints `js`, in this order, lead from link `a` down to link `b`. -/
inductive DescPath (par chi : J → Name) (joints : List J) (a : Name) : Name → List J → Prop
  | nil : DescPath par chi joints a a []
  | snoc (js : List J) (j : J) : DescPath par chi joints a (par j) js → j ∈ joints →
      DescPath par chi joints a (chi j) (js ++ [j])

/-- The link a serial chain starts at: the root when no name is given. -/
def startLink (root rootArg : Name) : Name := if rootArg = [] then root else rootArg

end PK.Spec
