import Verif.Model.Xml
import Verif.Model.Transform3d
import Verif.Model.Chain

/-!
# Root detection and recursion shared by `urdf.py` and `sdf.py`

`urdf.py` l.44-70, l.107-118 and `sdf.py` l.45-64, l.85-96 (both under
`/repo/src/pytorch_kinematics/`) are the same code up to how one joint is converted.  `J` is the joint
record, `par`/`chi` its `parent`/`child` fields, `mk` the conversion of one joint to the frame's joint
and link.
-/

namespace PK
variable {J : Type}

/-- urdf.py l.110-114, sdf.py l.88-92: the inner loop body for the pair `(i, j)`. -/
def markPair (par chi : J → Name) (joints : Array J) (i j : ℕ) (hr : List Bool) : List Bool :=
  match joints[i]?, joints[j]? with
  | some a, some b =>
    if par a = chi b then hr.set i false
    else if par b = chi a then hr.set j false
    else hr
  | _, _ => hr

/-- urdf.py l.109-114, sdf.py l.87-92: the double loop `for i in range(n): for j in range(i+1, n)`. -/
def hasRoot (par chi : J → Name) (joints : List J) : List Bool :=
  let n := joints.length
  (List.range n).foldl (fun hr i =>
    (List.range' (i + 1) (n - (i + 1))).foldl (fun hr j => markPair par chi joints.toArray i j hr) hr)
    (List.replicate n true)

/-- urdf.py l.115-118, sdf.py l.93-96: parent name of the first joint still marked; `none` when the
loop ends without assigning `root_link` (then l.119 raises UnboundLocalError). -/
def rootName (par chi : J → Name) (joints : List J) : Option Name :=
  (((hasRoot par chi joints).zip joints).find? fun p => p.1).map fun p => par p.2

/-- urdf.py l.44-70, sdf.py l.45-64 `_build_chain_recurse(root_frame, lmap, joints)`; `fuel` is the
number of nested Python calls still possible, running out is `RecursionError`. The loop with `if` and
`append` is written as `filter` and `mapM`.
The name test l.47 compares with `root_frame.link.name`, which is `lmap[j.child].name`, i.e. the key. -/
def buildRecurse (par chi : J → Name) (mk : J → Except Err (Joint × Link)) (joints : List J) :
    ℕ → Name → Except Err (List Frame)
  | 0, _ => .error .recursionError
  | fuel + 1, name => (joints.filter fun j => decide (par j = name)).mapM fun j => do
      let jl ← mk j
      let cs ← buildRecurse par chi mk joints fuel (chi j)
      pure (Frame.mk (chi j) jl.2 jl.1 cs)

end PK
