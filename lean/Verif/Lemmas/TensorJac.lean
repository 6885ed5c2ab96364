import Verif.Lemmas.TensorGrad

/-!
# The Jacobian on tensors, entry by entry
-/

namespace PK
open Tn Matrix Spec

theorem select0_poses (t : Tag) (F B : ℕ) (m : ℕ → ℕ → M4) {e : ℕ} (he : e < F) :
    select0 (poses t F B m) e = .ok (ofM t [B] 4 4 fun i r c => m e (i.headD 0) r c) := by
  rw [poses, select0_M _ _ _ _ _ _ he]
  congr 1
  refine ofM_congr fun i hi => ?_
  obtain ⟨b, rfl, hb⟩ := validIx_one hi
  rfl

theorem einsum_vecs (t : Tag) (A : List V3) {D B : ℕ} (hA : A.length = D) (R : ℕ → ℕ → M3) :
    einsumNbij (ofM t [D, B] 3 3 fun i r c => R (i.headD 0) (i.getD 1 0) r c) (vecsT t A) =
      .ok (vecs t D B fun j b => R j b *ᵥ A.getD j 0) := by
  rw [vecsT_V, hA, einsumNbij]
  simp only [ofM_shape, ofV_shape, List.cons_append, List.nil_append, and_self, if_true, ofM_tag, ofV_tag, PK.matmul, ok_bind]
  show Except.ok _ = _
  congr 1
  refine eq_ofV rfl rfl fun i k hk hi => ?_
  obtain ⟨j, b, rfl, hj, hb⟩ := validIx_pair hi
  rw [ofFn_get (show ValidIx ([j, b] ++ [k]) [D, B, 3] from validIx_snoc.2 ⟨hi, hk⟩)]
  show ∑ l ∈ Finset.range 3, _ = ∑ l : Fin 3, R j b ⟨k, hk⟩ l * A.getD j 0 l
  rw [← Fin.sum_univ_eq_sum_range (fun l => (ofM t [D, B] 3 3 fun i r c => R (i.headD 0) (i.getD 1 0) r c).get ([j, b] ++ [k] ++ [l]) *
    (ofV t [D] 3 fun i r => A.getD (i.headD 0) 0 r).get [([j, b] ++ [k]).headD 0, l])]
  refine Finset.sum_congr rfl fun l _ => ?_
  have e1 : (ofM t [D, B] 3 3 fun i r c => R (i.headD 0) (i.getD 1 0) r c).get ([j, b] ++ [k] ++ [l.val]) = R j b ⟨k, hk⟩ l :=
    ofM_get (i := [j, b]) hi hk l.2
  have e2 : (ofV t [D] 3 fun i r => A.getD (i.headD 0) 0 r).get [([j, b] ++ [k]).headD 0, l.val] = A.getD j 0 l :=
    ofV_get (i := [j]) (validIx_one_iff.2 hj) l.2
  rw [e1, e2]

theorem sub0_vecs (t : Tag) (D B : ℕ) (p : ℕ → V3) (u : ℕ → ℕ → V3) :
    Tn.sub (unsqueezeAt (ofV t [B] 3 fun i r => p (i.headD 0) r) 0) (vecs t D B u) =
      .ok (vecs t D B fun j b => p b - u j b) := by
  rw [unsqueezeAt_V0, sub_bin, vecs, bin_VB _ _ _ _ _ (bshape_1B D B)]
  congr 1
  refine ofV_congr fun i hi => ?_
  obtain ⟨j, b, rfl, hj, hb⟩ := validIx_pair hi
  rw [bidx_1B hb, bidx_valid hi]
  rfl

theorem expand0_vecs (t : Tag) (D B : ℕ) (p : ℕ → V3) :
    expand (unsqueezeAt (ofV t [B] 3 fun i r => p (i.headD 0) r) 0) [D, B, 3] = .ok (vecs t D B fun _ b => p b) := by
  rw [unsqueezeAt_V0]
  refine (expand_VB t (bshape_1B D B) 3 _).trans ?_
  congr 1
  refine ofV_congr fun i hi => ?_
  obtain ⟨j, b, rfl, hj, hb⟩ := validIx_pair hi
  rw [bidx_1B hb]
  rfl

theorem isRevT (v : Device) (types : List ℕ) {D : ℕ} (h : types.length = D) :
    reshapeInfer (eqZ (ofList (ixTag v) (types.map Int.ofNat)) 1) [1, 1] =
      .ok (ofV (eqT (ixTag v)) [D, 1] 1 fun i _ => decide (types.getD (i.headD 0) 0 = 1)) := by
  rw [eqZ_L, reshapeInfer_L2, List.length_map, h]
  congr 1
  refine ofV_congr fun i hi => ?_
  obtain ⟨f, b, rfl, hf, hb⟩ := validIx_pair hi
  have : f < types.length := by rw [h]; exact hf
  funext _
  simp only [List.headD_cons, List.getD, List.getElem?_map, List.getElem?_eq_getElem this, Option.map_some, Option.getD_some]
  exact decide_eq_decide.2 (by simp only [Int.ofNat_eq_natCast]; omega)

theorem sel_vecs (d : DType) (v : Device) (D B : ℕ) (p : ℕ → Bool) (a b : ℕ → ℕ → V3) :
    sel (ofV (eqT (ixTag v)) [D, 1] 1 fun i _ => p (i.headD 0)) (vecs (flTag d v) D B a) (vecs (flTag d v) D B b) =
      .ok (vecs (flTag d v) D B fun j c => bif p j then a j c else b j c) := by
  rw [vecs, vecs, sel_FV (t := flTag d v) (c := eqT (ixTag v)) rfl]
  refine congrArg Except.ok (ofV_congr fun i hi => ?_)
  funext r
  show (bif p (i.headD 0) then fun r => a (i.headD 0) (i.getD 1 0) r else fun r => b (i.headD 0) (i.getD 1 0) r) r = _
  show _ = (bif p (i.headD 0) then a (i.headD 0) (i.getD 1 0) else b (i.headD 0) (i.getD 1 0)) r
  cases p (i.headD 0) <;> rfl

theorem zeros_vecs (t : Tag) (D B : ℕ) (u : ℕ → ℕ → V3) : fullLike (vecs t D B u) 0 = vecs t D B fun _ _ => 0 :=
  full_V t [D, B] 3 0

theorem posB (d : DType) (v : Device) (B : ℕ) (m : ℕ → M4) :
    posColumn (ofM (flTag d v) [B] 4 4 fun i r c => m (i.headD 0) r c) =
      .ok (ofV (flTag d v) [B] 3 fun i r => (fun b => posPart (m b)) (i.headD 0) r) := posColumn_M d v [B] _

/-! ## The Jacobian -/

/-- What the tables of a serial chain satisfy -/
structure JacTables (s : SerialChain) (N D : ℕ) : Prop where
  dof : s.dofFrameIndices.length = D
  dof_lt : ∀ k ∈ s.dofFrameIndices, k < N
  axes : s.dofAxes.length = D
  types : s.dofTypes.length = D
  eef : s.eefIdx < N

/-- world axis of DOF `j` in row `b` -/
noncomputable def zN (s : SerialChain) (m : ℕ → ℕ → M4) (j b : ℕ) : V3 :=
  rotPart (m (s.dofFrameIndices.getD j 0) b) *ᵥ s.dofAxes.getD j 0

/-- column `j` of the Jacobian in row `b` -/
noncomputable def jcolN (s : SerialChain) (m : ℕ → ℕ → M4) (j b : ℕ) : Fin 6 → ℝ :=
  let z := zN s m j b
  let dp := posPart (m s.eefIdx b) - posPart (m (s.dofFrameIndices.getD j 0) b)
  let jv : V3 := bif decide (s.dofTypes.getD j 0 = 1) then cross z dp else z
  let jw : V3 := bif decide (s.dofTypes.getD j 0 = 1) then z else 0
  ![jv 0, jv 1, jv 2, jw 0, jw 1, jw 2]

theorem append33 (a b : V3) : (Fin.append a b : Fin 6 → ℝ) = ![a 0, a 1, a 2, b 0, b 1, b 2] := by
  funext k
  fin_cases k <;> rfl

theorem zT {s : SerialChain} {N D : ℕ} (h : JacTables s N D) (d : DType) (v : Device) (B : ℕ) (m : ℕ → ℕ → M4) :
    einsumNbij (ofM (flTag d v) [D, B] 3 3 fun i r c => rotPart (m (s.dofFrameIndices.getD (i.headD 0) 0) (i.getD 1 0)) r c)
      (s.tensors d v).dofAxes = .ok (vecs (flTag d v) D B (zN s m)) :=
  einsum_vecs (flTag d v) s.dofAxes h.axes fun j b => rotPart (m (s.dofFrameIndices.getD j 0) b)

theorem dofPoses {s : SerialChain} {N D : ℕ} (h : JacTables s N D) (d : DType) (v : Device) (B : ℕ) (m : ℕ → ℕ → M4) :
    index0 (poses (flTag d v) N B m) (s.tensors d v).dofFrameIndices =
      .ok (poses (flTag d v) D B fun f b => m (s.dofFrameIndices.getD f 0) b) := by
  rw [index0_poses h.dof_lt (show (s.tensors d v).dofFrameIndices.tag = ixTag v from rfl) (picks_nat (ixTag v) N _ h.dof_lt),
    h.dof]

theorem eefPose {s : SerialChain} {N D : ℕ} (h : JacTables s N D) (d : DType) (v : Device) (B : ℕ) (m : ℕ → ℕ → M4) :
    select0 (poses (flTag d v) N B m) (s.tensors d v).eefIdx =
      .ok (ofM (flTag d v) [B] 4 4 fun i r c => m s.eefIdx (i.headD 0) r c) := select0_poses (flTag d v) N B m h.eef

theorem jacobianOf_poses {s : SerialChain} {N D : ℕ} (h : JacTables s N D) (d : DType) (v : Device) (B : ℕ) (m : ℕ → ℕ → M4) :
    (s.tensors d v).jacobianOf (poses (flTag d v) N B m) =
      .ok (ofM (flTag d v) [B] 6 D fun i r c => jcolN s m c (i.headD 0) r) := by
  have hr : reshapeInfer (eqZ (s.tensors d v).dofTypes 1) [1, 1] = _ := isRevT v s.dofTypes h.types
  rw [SerialT.jacobianOf, SerialT.jacobianRows, eefPose h, ok_bind, posB d v B (m s.eefIdx), ok_bind, dofPoses h, ok_bind, rotBlock_poses, ok_bind,
    posColumn_poses, ok_bind, zT h, ok_bind]
  rw [sub0_vecs _ _ _ fun b => posPart (m s.eefIdx b), ok_bind, vecs_cross, ok_bind, hr, ok_bind, sel_vecs _ _ _ _ (fun j => decide (s.dofTypes.getD j 0 = 1)), ok_bind,
    zeros_vecs, sel_vecs _ _ _ _ (fun j => decide (s.dofTypes.getD j 0 = 1)), ok_bind, vecs, vecs, cat_V, ok_bind, permute_V120]
  congr 1
  refine ofM_congr fun i hi => ?_
  funext r c
  obtain ⟨b, rfl, hb⟩ := validIx_one hi
  exact congrFun (append33 _ _) r

/-! ## With a tool -/

theorem setMid_M (t : Tag) (B r c : ℕ) {n : ℕ} (hn : n ≤ r) (f : List ℕ → Fin r → Fin c → ℝ) (g : List ℕ → Fin n → Fin c → ℝ) :
    setMid (ofM t [B] r c f) n (ofM t [B] n c g) =
      .ok (ofM t [B] r c fun i k l => if h : k.val < n then g i ⟨k, h⟩ l else f i k l) := by
  rw [setMid]
  simp only [ofM_shape, List.cons_append, List.nil_append, hn, if_true]
  rw [valueFor_same (show (ofM t [B] n c g).shape = [B, n, c] from rfl), ok_bind]
  show Except.ok _ = _
  congr 1
  refine eq_ofM rfl rfl fun i k l hk hl hi => ?_
  have hv : ValidIx (i ++ [k, l]) [B, r, c] := validIx_two.2 ⟨hi, hk, hl⟩
  rw [ofFn_get hv]
  have hd : (i ++ [k, l]).dropLast.getLastD 0 = k := by
    rw [show i ++ [k, l] = (i ++ [k]) ++ [l] by simp, List.dropLast_concat, List.getLastD_concat]
  rw [hd]
  by_cases h : k < n
  · rw [if_pos h, ofM_get hi h hl]
    simp [h]
  · rw [if_neg h, ofM_get hi hk hl]
    simp [h]

theorem bin_M (f : ℝ → ℝ → ℝ) (t : Tag) (s : Shape) (n m : ℕ) (a b : List ℕ → Fin n → Fin m → ℝ) :
    bin f (ofM t s n m a) (ofM t s n m b) = .ok (ofM t s n m fun i k l => f (a i k l) (b i k l)) := by
  rw [bin_same (t := t) (s := s ++ [n, m]) f rfl rfl rfl rfl]
  congr 1
  refine eq_ofM rfl rfl fun i k l hk hl hi => ?_
  rw [ofFn_get (validIx_two.2 ⟨hi, hk, hl⟩), ofM_get hi hk hl, ofM_get hi hk hl]

/-- the row of a tool of `n` matrices that belongs to row `b` -/
def toolIx (n b : ℕ) : ℕ := if n = 1 then 0 else b

theorem bshape_tool {B n : ℕ} (h : n = B ∨ n = 1) : bshape [B] [n] = .ok [B] := by
  rcases h with rfl | rfl
  · exact bshape_self _
  · exact bshape_snoc (bshape_self []) (.inr (.inr ⟨rfl, rfl⟩))

theorem tool_matmul (d : DType) (v : Device) {B n : ℕ} (h : n = B ∨ n = 1) (m w : ℕ → M4) :
    matmulT (ofM (flTag d v) [B] 4 4 fun i r c => m (i.headD 0) r c) (ofM (flTag d v) [n] 4 4 fun i r c => w (i.headD 0) r c) =
      .ok (ofM (flTag d v) [B] 4 4 fun i r c => (fun b => m b * w (toolIx n b)) (i.headD 0) r c) := by
  rw [matmulT_MB _ 4 4 4 _ _ (bshape_tool h)]
  refine congrArg Except.ok (ofM_congr fun i hi => ?_)
  obtain ⟨b, rfl, hb⟩ := validIx_one hi
  rw [bidx_valid hi]
  funext r c
  have : bidx [n] [b] = [toolIx n b] := by
    simp [bidx, bidxR, toolIx]
  rw [this]
  rfl

/-- column `j` of the Jacobian of a tool in row `b` -/
noncomputable def toolColN (s : SerialChain) (m : ℕ → ℕ → M4) (w : ℕ → M4) (n j b : ℕ) : Fin 6 → ℝ :=
  let dp := posPart (m s.eefIdx b * w (toolIx n b)) - posPart (m s.eefIdx b)
  let k : V3 := bif decide (s.dofTypes.getD j 0 = 1) then cross (zN s m j b) dp else 0
  let c := jcolN s m j b
  ![c 0 + k 0, c 1 + k 1, c 2 + k 2, c 3, c 4, c 5]

/-- l.780-811 after the forward pass -/
noncomputable def toolJacT (s : SerialT) (all tool : Tn ℝ) : Except Err (Tn ℝ × Tn ℝ) := do
  let J ← s.jacobianOf all
  let T_ee ← select0 all s.eefIdx
  let T_ee_tool ← matmulT T_ee tool
  let delta_p ← sub (← posColumn T_ee_tool) (← posColumn T_ee)
  let T_dof ← index0 all s.dofFrameIndices
  let z ← einsumNbij (← rotBlock T_dof) s.dofAxes
  let correction ← crossT z (← expand (unsqueezeAt delta_p 0) z.shape)
  let is_rev ← reshapeInfer (eqZ s.dofTypes 1) [1, 1]
  let correction ← sel is_rev correction (fullLike correction 0)
  let J ← setMid J 3 (← add (← sliceMid J 3) (← permute correction [1, 2, 0]))
  return (J, T_ee_tool)

theorem jacobianTool_eq (s : SerialT) (junk : List ℕ → ℝ) (th tool : Tn ℝ) :
    s.jacobianTool junk th tool = (do
      let all ← s.chain.fkImpl junk (← oneRowT th)
      toolJacT s all tool) := rfl

theorem toolJacT_poses {s : SerialChain} {N D : ℕ} (h : JacTables s N D) (d : DType) (v : Device) {B n : ℕ} (hn : n = B ∨ n = 1)
    (m : ℕ → ℕ → M4) (w : ℕ → M4) :
    toolJacT (s.tensors d v) (poses (flTag d v) N B m) (ofM (flTag d v) [n] 4 4 fun i r c => w (i.headD 0) r c) =
      .ok (ofM (flTag d v) [B] 6 D fun i r c => toolColN s m w n c (i.headD 0) r,
        ofM (flTag d v) [B] 4 4 fun i r c => (m s.eefIdx (i.headD 0) * w (toolIx n (i.headD 0))) r c) := by
  have hr : reshapeInfer (eqZ (s.tensors d v).dofTypes 1) [1, 1] = _ := isRevT v s.dofTypes h.types
  rw [toolJacT, jacobianOf_poses h, ok_bind, eefPose h, ok_bind, tool_matmul d v hn (m s.eefIdx) w, ok_bind,
    posB d v B (fun b => m s.eefIdx b * w (toolIx n b)), ok_bind, posB d v B (m s.eefIdx), ok_bind, sub_bin, bin_V, ok_bind,
    dofPoses h, ok_bind, rotBlock_poses, ok_bind, zT h, ok_bind]
  rw [show (ofV (flTag d v) [B] 3 fun (i : List ℕ) k => (fun b => posPart (m s.eefIdx b * w (toolIx n b))) (i.headD 0) k -
      (fun b => posPart (m s.eefIdx b)) (i.headD 0) k) = ofV (flTag d v) [B] 3 fun i r =>
        (fun b => posPart (m s.eefIdx b * w (toolIx n b)) - posPart (m s.eefIdx b)) (i.headD 0) r from rfl]
  rw [show (vecs (flTag d v) D B (zN s m)).shape = [D, B, 3] from rfl,
    expand0_vecs _ _ _ fun b => posPart (m s.eefIdx b * w (toolIx n b)) - posPart (m s.eefIdx b), ok_bind, vecs_cross, ok_bind,
    hr, ok_bind, zeros_vecs, sel_vecs _ _ _ _ (fun j => decide (s.dofTypes.getD j 0 = 1)), ok_bind, sliceMid,
    sliceRows_M _ _ _ _ _ 3 (by omega), ok_bind, vecs, permute_V120, ok_bind, add_bin, bin_M, ok_bind,
    setMid_M _ _ _ _ (by omega), ok_bind, pure_ok]
  refine congrArg Except.ok (congrArg₂ Prod.mk (ofM_congr fun i hi => ?_) rfl)
  obtain ⟨b, rfl, hb⟩ := validIx_one hi
  funext k c
  fin_cases k <;> rfl

end PK
