import Verif.Model.Alias

/-! # Vocabulary for programs that use transforms: what a statement names, what an object shows -/

namespace PK.Spec
noncomputable section

/-- the transforms that a statement names -/
def usedTransforms : TOp → List ℕ
  | .newTensor .. | .write .. | .ofMatrix .. | .init .. => []
  | .compose t os | .stack t os => t :: os
  | .getMatrix t | .getItem t _ | .inverse t | .translate t .. | .scale t .. | .rotate t _ | .rotateAxisAngle t ..
  | .clone t | .move t .. => [t]

/-- the tensors that a statement names -/
def usedTensors : TOp → List ℕ
  | .write r .. | .ofMatrix r => [r]
  | _ => []

/-- the calls that make a transform and are not meant to be views of their operands; `to` is treated separately -/
def makesCopy : TOp → Prop
  | .compose _ os => os ≠ []
  | .getItem _ (.list _) => True
  | .init .. | .inverse _ | .stack .. | .translate .. | .scale .. | .rotate .. | .rotateAxisAngle .. | .clone _ => True
  | _ => False

/-- what transform `i` shows: class, matrices, dtype, device -/
def shown (w : TWorld) (i : ℕ) : Option T3 := (w.transforms[i]?).map w.value

/-- what tensor `r` shows -/
def shownTensor (w : TWorld) (r : ℕ) : Option (List M4) := (w.tensors[r]?).map w.read

/-- The transform made last in `w'` and everything that exists in `w` are independent: programs that do not name the new
transform do not change it, and programs that name only it and what came later change nothing of what was there before. -/
def Independent (w w' : TWorld) : Prop :=
  (∀ ops, (∀ o ∈ ops, w.transforms.length ∉ usedTransforms o) →
    shown (runTOps w' ops) w.transforms.length = shown w' w.transforms.length) ∧
  (∀ ops, (∀ o ∈ ops, (∀ t ∈ usedTransforms o, w.transforms.length ≤ t) ∧
      ∀ r ∈ usedTensors o, w.tensors.length ≤ r) →
    (∀ i < w.transforms.length, shown (runTOps w' ops) i = shown w i) ∧
    ∀ r < w.tensors.length, shownTensor (runTOps w' ops) r = shownTensor w r)

end
end PK.Spec
