import Verif.Model.Urdf

/-!
# Model of `Robot.get_root` and `Robot.get_chain`

`UP` = `/repo/src/pytorch_kinematics/urdf_parser_py/urdf.py`. The maps are those that `add_aggregate` builds while a
document is read.
-/

namespace PK.Urdf

/-- UP l.504-506 `joint_map`: a later joint of the same name replaces the earlier one. -/
def Robot.jointMap (r : Robot) : Dict Name Jnt := r.joints.foldl (fun d j => d.set j.name j) []

/-- UP l.507 `parent_map`: the joint that leads to a link, and its parent link. -/
def Robot.parentMap (r : Robot) : Dict Name (Name × Name) := r.joints.foldl (fun d j => d.set j.child (j.name, j.parent)) []

/-- UP l.540-543 one round of the loop of `get_root`; the assertion is a ValueError here. -/
def Robot.rootStep (r : Robot) (root : Option Name) (link : Name) : Except Err (Option Name) :=
  match r.parentMap.get? link with
  | some _ => .ok root
  | none => match root with
    | none => .ok (some link)
    | some _ => .error .valueError

/-- UP l.538-545 `get_root`; the assertion is a ValueError here. -/
def Robot.getRoot (r : Robot) : Except Err Name := do
  let root ← (r.linkMap.map Prod.fst).foldlM r.rootStep none
  match root with
  | some x => .ok x
  | none => .error .valueError

/-- UP l.529-531 what is appended to the chain for a joint -/
def Robot.addJoint (r : Robot) (joints fixed : Bool) (joint : Name) (chain : List Name) : Except Err (List Name) :=
  if joints then
    if fixed then .ok (chain ++ [joint])
    else do
      let j ← r.jointMap.item joint
      if j.type = n!"fixed" then .ok chain else .ok (chain ++ [joint])
  else .ok chain

/-- UP l.527-534 the loop of `get_chain`. `fuel` bounds the number of its iterations, `none` is that it still runs after
them. -/
def Robot.chainLoop (r : Robot) (root : Name) (joints links fixed : Bool) : ℕ → Name → List Name → Except Err (Option (List Name))
  | 0, link, chain => if link = root then .ok (some chain.reverse) else .ok none
  | fuel + 1, link, chain =>
    if link = root then .ok (some chain.reverse)
    else do
      let jp ← r.parentMap.item link
      let chain ← r.addJoint joints fixed jp.1 chain
      chainLoop r root joints links fixed fuel jp.2 (if links then chain ++ [jp.2] else chain)

/-- UP l.522-536 `get_chain` -/
def Robot.getChain (r : Robot) (root tip : Name) (joints links fixed : Bool) (fuel : ℕ) : Except Err (Option (List Name)) :=
  r.chainLoop root joints links fixed fuel tip (if links then [tip] else [])

end PK.Urdf
