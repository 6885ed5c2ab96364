import Verif.Model.Serial

/-!
# Frames as objects: what `SerialChain.__init__` copies and what it shares

`Model/Chain.lean` and `Model/Serial.lean` treat a tree of frames as a value.  Here frames, links and joints are objects
that refer to each other, and a program can change them (`frame.add_child(c)`, `frame.link.offset = …`,
`chain.find_frame('a').joint.limits = …`).  Line numbers refer to `/repo/src/pytorch_kinematics/chain.py` unless another
file is named.

Simplifications: links and joints keep their offsets, visuals, axes and limits as values, so replacing the offset and
writing into its matrix are the same step (`copy.deepcopy` copies all of them); `copy.deepcopy` is without the memo, which
matters only when two frames of a tree share a link, a joint or a child; depth of recursion is a number `fuel`, and
`RecursionError` is raised when it is used up.
-/

namespace PK

/-- frame.py:98-104 a `Frame` object: its name and references to its link, its joint and its children -/
structure FrameRec where
  name : Name
  link : ℕ
  joint : ℕ
  children : List ℕ

/-- the objects of an interpreter -/
structure FHeap where
  frames : List FrameRec := []
  links : List Link := []
  joints : List Joint := []

/-- the tree below a frame object, as a value -/
def FHeap.tree (h : FHeap) : ℕ → ℕ → Option Frame
  | 0, _ => none
  | fuel + 1, r => do
    let f ← h.frames[r]?
    let l ← h.links[f.link]?
    let j ← h.joints[f.joint]?
    let cs ← f.children.mapM (h.tree fuel)
    some (.mk f.name l j cs)

/-- the loop over the children in `copy.deepcopy` -/
def copyList (cp : FHeap → ℕ → Option (FHeap × ℕ)) : FHeap → List ℕ → Option (FHeap × List ℕ)
  | h, [] => some (h, [])
  | h, r :: rs => do
    let a ← cp h r
    let b ← copyList cp a.1 rs
    some (b.1, a.2 :: b.2)

/-- `copy.deepcopy(frame)` (l.670): new objects for the frame, its link, its joint and everything below -/
def FHeap.deepcopy : ℕ → FHeap → ℕ → Option (FHeap × ℕ)
  | 0, _, _ => none
  | fuel + 1, h, r => do
    let f ← h.frames[r]?
    let l ← h.links[f.link]?
    let j ← h.joints[f.joint]?
    let a ← copyList (FHeap.deepcopy fuel) h f.children
    some (⟨a.1.frames ++ [⟨f.name, a.1.links.length, a.1.joints.length, a.2⟩], a.1.links ++ [l], a.1.joints ++ [j]⟩,
      a.1.frames.length)

/-- the loop of l.383-389 -/
def findList (h : FHeap) (name : Name) (rec : ℕ → Option ℕ) : List ℕ → Option ℕ
  | [] => none
  | c :: cs =>
    if (h.frames[c]?).map FrameRec.name = some name then some c
    else match rec c with
      | some r => some r
      | none => findList h name rec cs

/-- l.382-390 `_find_frame_recursive` -/
def FHeap.findRec (h : FHeap) (name : Name) : ℕ → ℕ → Option ℕ
  | 0, _ => none
  | fuel + 1, r =>
    match h.frames[r]? with
    | none => none
    | some f => findList h name (h.findRec name fuel) f.children

/-- l.392-395 `find_frame`: the frame object, not a copy -/
def FHeap.findFrame (h : FHeap) (fuel root : ℕ) (name : Name) : Option ℕ :=
  if (h.frames[root]?).map FrameRec.name = some name then some root else h.findRec name fuel root

/-- assignment to an attribute of a frame object -/
def FHeap.setFrame (h : FHeap) (r : ℕ) (g : FrameRec → FrameRec) : FHeap := { h with frames := h.frames.modify r g }

/-- l.667-673 one pass of the loop: find, copy, cut the children of the end frame -/
noncomputable def serialCopy (fuel : ℕ) (c : Chain) (rootRef endIdx : ℕ) (h : FHeap) (i : ℕ) :
    Except Err (FHeap × ℕ) := do
  let nm ← c.idxToFrame.item i
  match h.findFrame fuel rootRef nm with
  | none => .error .attributeError
  | some r =>
    match h.deepcopy fuel r with
    | none => .error .recursionError
    | some a => .ok (if i = endIdx then a.1.setFrame a.2 fun f => { f with children := [] } else a.1, a.2)

/-- l.665-673 the first pass over the ancestors -/
noncomputable def serialCopies (fuel : ℕ) (c : Chain) (rootRef endIdx : ℕ) :
    FHeap → List ℕ → Except Err (FHeap × List ℕ)
  | h, [] => .ok (h, [])
  | h, i :: is => do
    let a ← serialCopy fuel c rootRef endIdx h i
    let b ← serialCopies fuel c rootRef endIdx a.1 is
    return (b.1, a.2 :: b.2)

/-- l.674-676 the second pass: every frame gets the next one as its only child -/
def linkCopies : FHeap → List ℕ → FHeap
  | h, a :: b :: rest => linkCopies (h.setFrame a fun f => { f with children := [b] }) (b :: rest)
  | h, _ => h

/-- l.681-682 the root of the copies: a new `Joint()`, and no link offset -/
noncomputable def resetCopy (h : FHeap) (r : ℕ) : FHeap :=
  match h.frames[r]? with
  | none => h
  | some f =>
    { frames := h.frames.modify r fun f => { f with joint := h.joints.length }
      links := h.links.modify f.link fun l => { l with offset := none }
      joints := h.joints ++ [Joint.init] }

/-- l.657-659 the frame to start at -/
def serialStartRef (h : FHeap) (fuel root : ℕ) (rootName : Name) : Except Err ℕ :=
  if rootName = [] then .ok root
  else match h.findFrame fuel root rootName with
    | some r => .ok r
    | none => .error .valueError

/-- `Chain(root_frame)` (l.660) reads the tree -/
def readTree (h : FHeap) (fuel r : ℕ) : Except Err Frame :=
  match h.tree fuel r with
  | some t => .ok t
  | none => .error .recursionError

/-- l.656-684 `SerialChain.__init__` up to the call of `super().__init__`: the heap and the copied frames.  The rest of the
constructor only reads. -/
noncomputable def pySerial (fuel : ℕ) (h : FHeap) (root : ℕ) (endName rootName : Name) :
    Except Err (FHeap × List ℕ) := do
  let r ← serialStartRef h fuel root rootName
  let t ← readTree h fuel r
  let c := Chain.init t
  let endIdx ← c.frameToIdx.item endName
  let ancestors ← ancestorsAt c endIdx
  let a ← serialCopies fuel c r endIdx h ancestors
  match a.2 with
  | [] => .error .indexError
  | r0 :: _ => return (resetCopy (linkCopies a.1 a.2) r0, a.2)

/-! ## Programs -/

/-- a reference held by the program -/
inductive FRef where
  | frame (i : ℕ) | link (i : ℕ) | joint (i : ℕ)
  deriving DecidableEq

/-- objects and variables -/
structure FWorld where
  heap : FHeap := {}
  vars : List FRef := []

/-- Statements; numbers refer to the variables so far. -/
inductive FOp where
  /-- `Link(…)` -/
  | newLink (l : Link)
  /-- `Joint(…)` -/
  | newJoint (j : Joint)
  /-- `Frame(name, link=…, joint=…)` -/
  | newFrame (name : Name) (link joint : ℕ)
  /-- `x = v.link` -/
  | getLink (v : ℕ)
  /-- `x = v.joint` -/
  | getJoint (v : ℕ)
  /-- `x = v.children[i]` -/
  | getChild (v i : ℕ)
  /-- `x = chain.find_frame(name)` of a chain with root `v` -/
  | find (v fuel : ℕ) (name : Name)
  /-- attributes of a link -/
  | setLink (v : ℕ) (l : Link)
  /-- attributes of a joint -/
  | setJoint (v : ℕ) (j : Joint)
  /-- `v.name = n` -/
  | setName (v : ℕ) (n : Name)
  /-- `v.link = u` -/
  | assignLink (v u : ℕ)
  /-- `v.joint = u` -/
  | assignJoint (v u : ℕ)
  /-- `v.add_child(u)` (frame.py:126-127) -/
  | addChild (v u : ℕ)
  /-- `v.children = []` -/
  | clearChildren (v : ℕ)

/-- a variable bound to a frame -/
def FWorld.frame (w : FWorld) (v : ℕ) : Option ℕ :=
  match w.vars[v]? with
  | some (.frame i) => some i
  | _ => none
/-- a variable bound to a link -/
def FWorld.link (w : FWorld) (v : ℕ) : Option ℕ :=
  match w.vars[v]? with
  | some (.link i) => some i
  | _ => none
/-- a variable bound to a joint -/
def FWorld.joint (w : FWorld) (v : ℕ) : Option ℕ :=
  match w.vars[v]? with
  | some (.joint i) => some i
  | _ => none

/-- a new variable -/
def FWorld.bind (w : FWorld) (x : FRef) : FWorld := { w with vars := w.vars ++ [x] }

/-- What a statement does; `none` for a statement that raises. -/
def FOp.step (w : FWorld) : FOp → Option FWorld
  | .newLink l => some ⟨{ w.heap with links := w.heap.links ++ [l] }, w.vars ++ [.link w.heap.links.length]⟩
  | .newJoint j => some ⟨{ w.heap with joints := w.heap.joints ++ [j] }, w.vars ++ [.joint w.heap.joints.length]⟩
  | .newFrame n l j => do
    let l ← w.link l
    let j ← w.joint j
    some ⟨{ w.heap with frames := w.heap.frames ++ [⟨n, l, j, []⟩] }, w.vars ++ [.frame w.heap.frames.length]⟩
  | .getLink v => do
    let r ← w.frame v
    let f ← w.heap.frames[r]?
    some (w.bind (.link f.link))
  | .getJoint v => do
    let r ← w.frame v
    let f ← w.heap.frames[r]?
    some (w.bind (.joint f.joint))
  | .getChild v i => do
    let r ← w.frame v
    let f ← w.heap.frames[r]?
    let c ← f.children[i]?
    some (w.bind (.frame c))
  | .find v fuel name => do
    let r ← w.frame v
    let c ← w.heap.findFrame fuel r name
    some (w.bind (.frame c))
  | .setLink v l => do
    let r ← w.link v
    some { w with heap := { w.heap with links := w.heap.links.set r l } }
  | .setJoint v j => do
    let r ← w.joint v
    some { w with heap := { w.heap with joints := w.heap.joints.set r j } }
  | .setName v n => do
    let r ← w.frame v
    some { w with heap := w.heap.setFrame r fun f => { f with name := n } }
  | .assignLink v u => do
    let r ← w.frame v
    let l ← w.link u
    some { w with heap := w.heap.setFrame r fun f => { f with link := l } }
  | .assignJoint v u => do
    let r ← w.frame v
    let j ← w.joint u
    some { w with heap := w.heap.setFrame r fun f => { f with joint := j } }
  | .addChild v u => do
    let r ← w.frame v
    let c ← w.frame u
    some { w with heap := w.heap.setFrame r fun f => { f with children := f.children ++ [c] } }
  | .clearChildren v => do
    let r ← w.frame v
    some { w with heap := w.heap.setFrame r fun f => { f with children := [] } }

/-- A statement in a program that goes on when it raises. -/
def FOp.run (w : FWorld) (op : FOp) : FWorld := (op.step w).getD w

/-- A program. -/
def runFOps (w : FWorld) (ops : List FOp) : FWorld := ops.foldl FOp.run w

/-- `s = SerialChain(chain, end, root)` for the chain with root frame `v`; the frames of `s` (`s._serial_frames`, l.685)
become variables. -/
noncomputable def FWorld.serial (w : FWorld) (fuel v : ℕ) (endName rootName : Name) : Except Err FWorld := do
  match w.frame v with
  | none => .error .attributeError
  | some root =>
    let a ← pySerial fuel w.heap root endName rootName
    return ⟨a.1, w.vars ++ a.2.map .frame⟩

end PK
