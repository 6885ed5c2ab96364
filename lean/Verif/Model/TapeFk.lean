import Verif.Model.Tape
import Verif.Model.TapeRot
import Verif.Model.Chain

/-!
# Record of forward kinematics, and records of backward passes

Line numbers refer to `/repo/src/pytorch_kinematics/chain.py`, or to `transforms/rotation_conversions.py` where marked `rc`.
-/

namespace PK.AD
noncomputable section
open Classical Sum

variable {ι κ μ ν : Type}

/-- the same operation with other names for the entries -/
def Op.rename (r : ι → κ) : Op ι → Op κ
  | .lin c l => .lin c (l.map fun p => (p.1, r p.2))
  | .mul a b => .mul (r a) (r b)
  | .div a b => .div (r a) (r b)
  | .recip a => .recip (r a)
  | .sqrt a => .sqrt (r a)
  | .sq a => .sq (r a)
  | .sin a => .sin (r a)
  | .cos a => .cos (r a)
  | .acos a => .acos (r a)
  | .abs a => .abs (r a)
  | .atan2 y x => .atan2 (r y) (r x)
  | .clampMin c a => .clampMin c (r a)
  | .clamp lo hi a => .clamp lo hi (r a)
  | .maxC a c => .maxC (r a) c
  | .norm3 a b c => .norm3 (r a) (r b) (r c)
  | .pick f => .pick fun env => r (f fun i => env (r i))

/-- the same record with other names for the inputs -/
def Prog.rename : {ι κ μ : Type} → (ι → κ) → Prog ι μ → Prog κ μ
  | _, _, _, r, .ret out => .ret fun k => r (out k)
  | _, _, _, r, @Prog.stage _ _ σ _ f p => .stage σ (fun k => (f k).rename r) (p.rename (Sum.map r id))

/-- entries of a `(num_frames, B, 4, 4)` tensor -/
abbrev Poses (N B : ℕ) := Fin N × Fin B × Fin 4 × Fin 4

/-- entries of `th`, of `chain._static_offsets` and of `chain.axes` -/
abbrev FkIn (N J B : ℕ) := (Fin B × Fin J) ⊕ ((Fin N × Fin 4 × Fin 4) ⊕ (Fin J × Fin 3))

/-- l.90 `direct_parent_idx[f]`, as an index into the first dimension (the fallback `f` is not reached: the entries of
`direct_parent_idx` are in range) -/
def parentFin (N : ℕ) (parents : List ℤ) (f : Fin N) : Fin N :=
  match pyIndex N (parents.getD f (-1)) with
  | some i => if h : i < N then ⟨i, h⟩ else f
  | none => f

/-- l.88-91: the product of every frame of the level with its parent, written into `T_world_link`; `loc` and `cur` are the entries of
`local_transforms` and of `T_world_link` -/
def fkLevels {N B : ℕ} (par : Fin N → Fin N) : List (List ℕ) → {ι : Type} → (loc cur : Poses N B → ι) → Prog ι (Poses N B)
  | [], _, _, cur => .ret cur
  | l :: ls, _, loc, cur =>
    .stage (Poses N B × Fin 4) (fun p => if (p.1.1 : ℕ) ∈ l
      then .mul (cur (par p.1.1, p.1.2.1, p.1.2.2.1, p.2)) (loc (p.1.1, p.1.2.1, p.2, p.1.2.2.2)) else .lin 0 []) <|
    .stage (Poses N B) (fun p => if (p.1 : ℕ) ∈ l
      then .lin 0 [(1, inr (p, 0)), (1, inr (p, 1)), (1, inr (p, 2)), (1, inr (p, 3))] else .lin 0 [(1, inl (cur p))]) <|
    fkLevels par ls (fun p => inl (inl (loc p))) inr

/-- l.80-91 from the joint transforms on; `S` and `jt` are the entries of `static_offsets` and `joint_transforms` -/
def fkTail {N B : ℕ} (par : Fin N → Fin N) (levels : List (List ℕ)) {ι : Type} (S : Fin N × Fin 4 × Fin 4 → ι)
    (jt : Poses N B → ι) : Prog ι (Poses N B) :=
  .stage (Poses N B × Fin 4) (fun p => .mul (S (p.1.1, p.1.2.2.1, p.2)) (jt (p.1.1, p.1.2.1, p.2, p.1.2.2.2))) <|
  .stage (Poses N B) (fun p => .lin 0 [(1, inr (p, 0)), (1, inr (p, 1)), (1, inr (p, 2)), (1, inr (p, 3))]) <|  -- local_transforms
  .stage (Poses N B) (fun p => if (p.1 : ℕ) ∈ levels.headD [] then .lin 0 [(1, inr p)] else .lin 0 []) <|       -- l.86
  fkLevels par levels.tail (fun p => inl (inr p)) inr

/-- l.63-78 one entry of `joint_transforms`: `where` by the joint type, the entries of the 4x4 matrices of rc l.466-471 and rc l.489-491 -/
def jointEntry {N J B : ℕ} (c : Chain) {ι : Type} (rot : (Fin B × Fin J) × (Fin 3 × Fin 3) → ι) (pos : (Fin B × Fin J) × Fin 3 → ι)
    (p : Poses N B) : Op ι :=
  let t := c.jointTypeIndices.getD p.1 0
  if hj : c.jointIndicesClamped.getD p.1 0 < J then
    let j : Fin J := ⟨c.jointIndicesClamped.getD p.1 0, hj⟩
    if t = 2 then
      if h : (p.2.2.1 : ℕ) < 3 ∧ (p.2.2.2 : ℕ) = 3 then .lin 0 [(1, pos ((p.2.1, j), ⟨p.2.2.1, h.1⟩))]
      else .lin (if p.2.2.1 = p.2.2.2 then 1 else 0) []
    else if t = 1 then
      if h : (p.2.2.1 : ℕ) < 3 ∧ (p.2.2.2 : ℕ) < 3 then .lin 0 [(1, rot ((p.2.1, j), (⟨p.2.2.1, h.1⟩, ⟨p.2.2.2, h.2⟩)))]
      else .lin (if p.2.2.1 = p.2.2.2 then 1 else 0) []
    else .lin (if p.2.2.1 = p.2.2.2 then 1 else 0) []
  else .lin (if p.2.2.1 = p.2.2.2 then 1 else 0) []

/-- l.13-93 `_fk_impl` for a batch of `B` configurations of `J` joints, entry by entry.  Rotations and translations are recorded for all
joints; the code omits those that `where` selects for no frame (l.56, l.59), whose gradients are zero. -/
def fkProg (c : Chain) (N J B : ℕ) : Prog (FkIn N J B) (Poses N B) :=
  .stage (Fin B × Fin J) (fun p => .cos (inl p)) <|                                                         -- rc l.508
  .stage (Fin B × Fin J) (fun p => .lin 1 [(-1, inr p)]) <|                                                 -- one_minus_c
  .stage (Fin B × Fin J) (fun p => .sin (inl (inl (inl p)))) <|
  .stage ((Fin B × Fin J) × (Fin 3 × Fin 3)) (fun p =>
    .mul (inl (inl (inl (inr (inr (p.1.2, p.2.1)))))) (inl (inl (inl (inr (inr (p.1.2, p.2.2))))))) <|
  .stage ((Fin B × Fin J) × (Fin 3 × Fin 3)) (fun p => .mul (inr p) (inl (inl (inr p.1)))) <|
  .stage ((Fin B × Fin J) × Fin 3) (fun p => .mul (inl (inl (inl (inl (inl (inr (inr (p.1.2, p.2)))))))) (inl (inl (inr p.1)))) <|
  .stage ((Fin B × Fin J) × (Fin 3 × Fin 3)) (fun p =>
    if p.2.1 = p.2.2 then .lin 0 [(1, inl (inl (inl (inl (inl (inr p.1)))))), (1, inl (inr p))]
    else .lin 0 ((1, inl (inr p)) :: (aa33Sin p.2).map fun t => (t.1, inr (p.1, t.2)))) <|                   -- rc l.512-520
  .stage ((Fin B × Fin J) × Fin 3) (fun p =>
    .mul (inl (inl (inl (inl (inl (inl (inl (inr (inr (p.1.2, p.2)))))))))) (inl (inl (inl (inl (inl (inl (inl (inl p.1))))))))) <|  -- rc l.465
  .stage (Poses N B) (jointEntry c (fun p => inl (inr p)) inr) <|
  fkTail (parentFin N c.directParentIdx) c.bfsLevels
    (fun p => inl (inl (inl (inl (inl (inl (inl (inl (inl (inr (inl p))))))))))) inr

/-- entries of `th`, of the link offsets and joint offsets of all frames, and of `chain.axes` -/
abbrev FkOffIn (N J B : ℕ) := (Fin B × Fin J) ⊕ (((Fin N × Fin 4 × Fin 4) ⊕ (Fin N × Fin 4 × Fin 4)) ⊕ (Fin J × Fin 3))

/-- l.315-322 in `__init__`, then `_fk_impl`: `static_offset = lo @ jo`.  A frame without offset has the identity there; it is recorded
like the others, as an input whose gradient nobody reads. -/
def fkOffProg (c : Chain) (N J B : ℕ) : Prog (FkOffIn N J B) (Poses N B) :=
  .stage ((Fin N × Fin 4 × Fin 4) × Fin 4) (fun p => .mul (inr (inl (inl (p.1.1, p.1.2.1, p.2)))) (inr (inl (inr (p.1.1, p.2, p.1.2.2))))) <|
  .stage (Fin N × Fin 4 × Fin 4) (fun p => .lin 0 [(1, inr (p, 0)), (1, inr (p, 1)), (1, inr (p, 2)), (1, inr (p, 3))]) <|
  (fkProg c N J B).rename (Sum.elim (fun q => inl (inl (inl q))) (Sum.elim inr fun a => inl (inl (inr (inr a)))))

/-- a chain whose `axes` and `_static_offsets` have been replaced (both are plain attributes, l.249 and l.322, read by l.522-540) -/
def withParams (c : Chain) {N J B : ℕ} (x : FkIn N J B → ℝ) : Chain :=
  { c with
    axes := List.ofFn fun j i => x (inr (inr (j, i)))
    staticOffsets := List.ofFn fun f i j => x (inr (inl (f, i, j))) }

/-- all entries of `forward_kinematics_tensor(th, analytical_grad=False)`, as a function of `th`, `_static_offsets` and `axes`; 0 when
the call raises (it does not, see `fkOf_eq`) -/
def fkOf (c : Chain) {N J B : ℕ} (x : FkIn N J B → ℝ) (p : Poses N B) : ℝ :=
  match (withParams c x).fkTensor (List.ofFn fun j b => x (inl (b, j))) with
  | .ok T => (T.getD p.1 0) p.2.1 p.2.2.1 p.2.2.2
  | .error _ => 0

/-- the inputs of `fkOf` for given offsets of links and joints -/
def staticOf {N J B : ℕ} (x : FkOffIn N J B → ℝ) : FkIn N J B → ℝ :=
  Sum.elim (fun q => x (inl q)) (Sum.elim
    (fun p => ((Matrix.of fun i j => x (inr (inl (inl (p.1, i, j))))) * (Matrix.of fun i j => x (inr (inl (inr (p.1, i, j))))) : M4) p.2.1 p.2.2)
    fun a => x (inr (inr a)))

/-- `th` with the chain's own parameters -/
def ownParams (c : Chain) {N J B : ℕ} (th : List (Fin B → ℝ)) : FkIn N J B → ℝ :=
  Sum.elim (fun q => (th.getD q.2 0) q.1) (Sum.elim (fun p => (c.staticOffsets.getD p.1 0) p.2.1 p.2.2) fun a => (c.axes.getD a.1 0) a.2)

/-! ## Backward passes with `create_graph=True` -/

/-- a record followed by another one that reads the inputs and the results of the first -/
def Prog.andThen : {ι μ ν : Type} → Prog ι μ → Prog (ι ⊕ μ) ν → Prog ι ν
  | _, _, _, .ret out, q => q.rename (Sum.elim id out)
  | _, _, _, @Prog.stage _ _ σ _ f p, q => .stage σ f (p.andThen (q.rename (Sum.map inl id)))

/-- PyTorch's rules for sums, products, sines and cosines (cf. `Op.pull`): operand, number, and factor, so that the operand receives the
number times the gradient times the factor.  The other operations do not occur in the record of `_fk_impl`. -/
def Op.factors : Op ι → List (ι × ℝ × Op ι)
  | .lin _ l => l.map fun p => (p.2, p.1, .lin 1 [])
  | .mul a b => [(a, 1, .lin 0 [(1, b)]), (b, 1, .lin 0 [(1, a)])]
  | .sq a => [(a, 2, .lin 0 [(1, a)])]
  | .sin a => [(a, 1, .cos a)]
  | .cos a => [(a, -1, .sin a)]
  | _ => []

/-- the record that a backward pass with `create_graph=True` leaves: from the inputs and the gradients of the results to the gradients
of the inputs -/
def Prog.grad : {ι μ : Type} → [Fintype ι] → [Fintype μ] → Prog ι μ → Prog (ι ⊕ μ) ι
  | ι, μ, _, _, .ret out =>
    .stage ι (fun j => .lin 0 (((Finset.univ : Finset μ).toList.filter fun k => out k = j).map fun k => (1, inr k))) (.ret inr)
  | ι, μ, _, _, @Prog.stage _ _ κ _ f p =>
    .stage κ (fun k => (f k).rename inl) <|
    (p.grad.rename (Sum.elim (Sum.elim (fun i => inl (inl i)) inr) fun m => inl (inr m))).andThen <|
    .stage (Σ k, Fin (f k).factors.length) (fun s => ((f s.1).factors[s.2]).2.2.rename fun i => inl (inl (inl i))) <|
    .stage (Σ k, Fin (f k).factors.length) (fun s => .mul (inl (inr (inr s.1))) (inr s)) <|
    .stage ι (fun j => .lin 0 ((1, inl (inl (inr (inl j)))) ::
      ((Finset.univ : Finset (Σ k, Fin (f k).factors.length)).toList.filter fun s => ((f s.1).factors[s.2]).1 = j).map fun s =>
        (((f s.1).factors[s.2]).2.1, inr s))) <|
    .ret inr

end
end PK.AD
