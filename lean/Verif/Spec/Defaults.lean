import Verif.Model.Xml

/-!
# Documents with their defaults written out

`Filled S a b`: the document `b` is `a` with some of the omitted parts written out with their default values.  Which parts have
which defaults is the table `S`.
-/

namespace PK.Spec
open PK

/-- Defaults of a document format: the optional attributes by element, and one optional child element by parent. -/
structure Schema where
  attrs : Name → List (Name × Name)
  child : Xml
  parents : List Name

/-- `bs` is `as` with attributes added, all with the default values of the element. -/
def AttrsFilled (S : Schema) (tag : Name) (as bs : List (Name × Name)) : Prop :=
  ∀ k, bs.lookup k = as.lookup k ∨ as.lookup k = none ∧ ∃ d, (k, d) ∈ S.attrs tag ∧ bs.lookup k = some d

/-- `b` is `a` with omitted attributes and child elements written out, anywhere in the document. -/
inductive Filled (S : Schema) : Xml → Xml → Prop
  | comment : Filled S .comment .comment
  | elem (tag : Name) (as bs : List (Name × Name)) (text : Option Name) (cs l r extra : List Xml) :
      AttrsFilled S tag as bs → List.Forall₂ (Filled S) cs (l ++ r) →
      (extra = [] ∨ extra = [S.child] ∧ tag ∈ S.parents ∧ ∀ c ∈ cs, c.tag ≠ S.child.tag) →
      Filled S (.elem tag as text cs) (.elem tag bs text (l ++ (extra ++ r)))

/-- URDF (http://wiki.ros.org/urdf/XML): an omitted `<origin>`, or `xyz` or `rpy` in it, is zero; so are omitted bounds, gains and
references; the multiplier of a mimic joint is one. -/
def urdfDefaults : Schema where
  attrs tag :=
    if tag = n!"origin" then [(n!"xyz", n!"0 0 0"), (n!"rpy", n!"0 0 0")]
    else if tag = n!"limit" then [(n!"lower", n!"0"), (n!"upper", n!"0")]
    else if tag = n!"dynamics" then [(n!"damping", n!"0"), (n!"friction", n!"0")]
    else if tag = n!"safety_controller" then
      [(n!"k_position", n!"0"), (n!"soft_lower_limit", n!"0"), (n!"soft_upper_limit", n!"0")]
    else if tag = n!"mimic" then [(n!"multiplier", n!"1"), (n!"offset", n!"0")]
    else []
  child := .elem n!"origin" [(n!"xyz", n!"0 0 0"), (n!"rpy", n!"0 0 0")] none []
  parents := [n!"link", n!"visual", n!"collision", n!"inertial", n!"joint"]

/-- SDF (http://sdformat.org/spec): an omitted `<pose>` is zero. -/
def sdfDefaults : Schema where
  attrs _ := []
  child := .elem n!"pose" [] (some n!"0 0 0 0 0 0") []
  parents := [n!"model", n!"link", n!"visual", n!"collision", n!"inertial", n!"joint"]

end PK.Spec
