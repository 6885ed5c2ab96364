import Verif.Model.Xml

/-!
# Documents that differ only in formatting

Comments, the order of attributes, the order of elements with different tags, and the text between the child elements of a
container (indentation) carry no meaning.
-/

namespace PK.Spec
open PK

mutual
/-- `Same C a b`: the documents `a` and `b` differ only in comments, in the order of attributes, in the order of
neighbouring elements with different tags, and in the text of elements whose tag is a container (`C`). -/
inductive Same (C : Name → Prop) : Xml → Xml → Prop
  | elem (t : Name) (as bs : List (Name × Name)) (x y : Option Name) (cs ds : List Xml) :
      as.Perm bs → (as.map Prod.fst).Nodup → (C t ∨ x = y) → SameL C cs ds →
      Same C (.elem t as x cs) (.elem t bs y ds)
/-- the same for lists of nodes -/
inductive SameL (C : Name → Prop) : List Xml → List Xml → Prop
  | nil : SameL C [] []
  | left (cs ds : List Xml) : SameL C cs ds → SameL C (.comment :: cs) ds
  | right (cs ds : List Xml) : SameL C cs ds → SameL C cs (.comment :: ds)
  | cons (c d : Xml) (cs ds : List Xml) : Same C c d → SameL C cs ds → SameL C (c :: cs) (d :: ds)
  | swap (cs l r : List Xml) (c d : Xml) : SameL C cs (l ++ c :: d :: r) → c.tag ≠ d.tag → SameL C cs (l ++ d :: c :: r)
end

/-- URDF elements that contain no text: all but the reduction of a transmission. -/
def urdfContainer (t : Name) : Prop := t ≠ n!"mechanicalReduction"

/-- SDF elements that contain other elements, and no text. -/
def sdfContainer (t : Name) : Prop :=
  t ∈ [n!"sdf", n!"model", n!"link", n!"joint", n!"axis", n!"limit", n!"dynamics", n!"inertial", n!"inertia", n!"visual",
    n!"collision", n!"geometry", n!"box", n!"cylinder", n!"sphere", n!"mesh"]

end PK.Spec
