import Verif.Lemmas.TensorChain
import Verif.Lemmas.TapeFk
import Verif.Lemmas.Names

/-!
# Forward kinematics on tensors, entry by entry
-/

namespace PK
open Tn Matrix Spec

/-- The `(F, B, 4, 4)` tensor with the given matrices -/
noncomputable def poses (t : Tag) (F B : ℕ) (m : ℕ → ℕ → M4) : Tn ℝ :=
  ofM t [F, B] 4 4 fun i r c => m (i.headD 0) (i.getD 1 0) r c

theorem poses_congr {t : Tag} {F B : ℕ} {m m' : ℕ → ℕ → M4} (h : ∀ f < F, ∀ b < B, m f b = m' f b) :
    poses t F B m = poses t F B m' := by
  refine ofM_congr fun i hi => ?_
  obtain ⟨f, b, rfl, hf, hb⟩ := validIx_pair hi
  funext r c
  exact congrFun (congrFun (h f hf b hb) r) c

theorem poses_shape (t : Tag) (F B : ℕ) (m : ℕ → ℕ → M4) : (poses t F B m).shape = [F, B, 4, 4] := rfl

theorem poses_get (t : Tag) {F B : ℕ} (m : ℕ → ℕ → M4) {f b : ℕ} (hf : f < F) (hb : b < B) (r c : Fin 4) :
    (poses t F B m).get [f, b, r, c] = m f b r c :=
  ofM_get (i := [f, b]) (validIx_pair_iff.2 ⟨hf, hb⟩) r.2 c.2

/-! ## Writing rows -/

theorem find_rev {l : List ℕ} (hn : l.Nodup) {k : ℕ} (hk : k ∈ l) :
    (List.range l.length).reverse.find? (fun j => l[j]? == some k) = some (l.idxOf k) := by
  have hlt : l.idxOf k < l.length := List.idxOf_lt_length_of_mem hk
  have hiff : ∀ j ∈ (List.range l.length).reverse, (l[j]? == some k) = (j == l.idxOf k) := by
    intro j hj
    have hj' : j < l.length := by simpa using hj
    rw [List.getElem?_eq_getElem hj', Bool.eq_iff_iff, beq_iff_eq, beq_iff_eq, Option.some.injEq]
    constructor
    · rintro rfl; exact (hn.idxOf_getElem j hj').symm
    · rintro rfl; exact List.getElem_idxOf hlt
  rw [List.find?_congr hiff]
  cases hf : List.find? (fun j => j == l.idxOf k) (List.range l.length).reverse with
  | none =>
    have := List.find?_eq_none.1 hf (l.idxOf k) (by simpa using hlt)
    simp at this
  | some j => simpa using List.find?_some hf

theorem find_rev_none {l : List ℕ} {k : ℕ} (hk : k ∉ l) :
    (List.range l.length).reverse.find? (fun j => l[j]? == some k) = none := by
  rw [List.find?_eq_none]
  intro j _ h
  exact hk (List.mem_of_getElem? (by simpa using h))

theorem put0_M {t : Tag} {ix : Tn ℤ} (hx : ix.tag.dev = t.dev) {n : ℕ} {l : List ℕ} (hp : picks n ix = .ok l)
    (hn : l.Nodup) (s : Shape) (p q : ℕ) (f g : List ℕ → Fin p → Fin q → ℝ) :
    put0 (ofM t (n :: s) p q f) ix (ofM t (l.length :: s) p q g) =
      .ok (ofM t (n :: s) p q fun i => if i.headD 0 ∈ l then g (l.idxOf (i.headD 0) :: i.tail) else f i) := by
  rw [put0]
  simp only [ofM_shape, List.cons_append, hp, ok_bind, ofM_tag]
  rw [indexPut, if_pos ⟨.inl hx, rfl⟩, ok_bind, valueFor_same (s := l.length :: (s ++ [p, q])) rfl, ok_bind]
  show Except.ok _ = _
  congr 1
  refine eq_ofM rfl rfl fun i r c hr hc hi => ?_
  obtain ⟨k, j, rfl, hk, hj⟩ := validIx_cons_cases hi
  have e : ValidIx ((k :: j) ++ [r, c]) (n :: (s ++ [p, q])) := validIx_two.2 ⟨hi, hr, hc⟩
  rw [ofFn_get e]
  show _ = (if (k :: j).headD 0 ∈ l then g (l.idxOf k :: j) else f (k :: j)) _ _
  by_cases hm : k ∈ l
  · rw [if_pos (show (k :: j).headD 0 ∈ l from hm)]
    simp only [List.cons_append, List.head?_cons, List.tail_cons]
    rw [find_rev hn hm]
    exact ofM_get (i := l.idxOf k :: j) (validIx_cons.2 ⟨List.idxOf_lt_length_of_mem hm, hj⟩) hr hc
  · rw [if_neg (show (k :: j).headD 0 ∉ l from hm)]
    simp only [List.cons_append, List.head?_cons, List.tail_cons]
    rw [find_rev_none hm]
    exact ofM_get hi hr hc

/-! ## Gathering, writing and multiplying poses -/

theorem index0_poses {d : DType} {v : Device} {F B : ℕ} {l : List ℕ} (hl : ∀ k ∈ l, k < F) {ix : Tn ℤ}
    (hx : ix.tag = ixTag v) (hp : picks F ix = .ok l) (m : ℕ → ℕ → M4) :
    index0 (poses (flTag d v) F B m) ix = .ok (poses (flTag d v) l.length B fun f b => m (l.getD f 0) b) := by
  rw [poses, index0_M (by rw [hx]; rfl) hp hl [B] 4 4]
  congr 1
  refine ofM_congr fun i hi => ?_
  obtain ⟨f, b, rfl, hf, hb⟩ := validIx_pair hi
  rfl

theorem matmul_poses (t : Tag) (F B : ℕ) (m m' : ℕ → ℕ → M4) :
    matmulT (poses t F B m) (poses t F B m') = .ok (poses t F B fun f b => m f b * m' f b) := by
  rw [poses, poses, matmulT_MB t 4 4 4 _ _ (bshape_self [F, B])]
  congr 1
  refine ofM_congr fun i hi => ?_
  rw [bidx_valid hi]
  funext r c
  exact (Matrix.mul_apply ..).symm

/-- l.89-91 one level -/
def levelN (N : ℕ) (parents : List ℤ) (L T : ℕ → ℕ → M4) (l : List ℕ) : ℕ → ℕ → M4 := fun f b =>
  if f ∈ l then T ((pyIndex N (parents.getD f 0)).getD 0) b * L f b else T f b

/-- what the levels after the first one need -/
structure LevelOk (N : ℕ) (parents : List ℤ) (l : List ℕ) : Prop where
  nodup : l.Nodup
  lt : ∀ k ∈ l, k < N
  parent : ∀ k ∈ l, pyIndex N (parents.getD k 0) = some ((pyIndex N (parents.getD k 0)).getD 0)

theorem pyIndex_lt {n k : ℕ} {z : ℤ} (h : pyIndex n z = some k) : k < n := by
  unfold pyIndex at h
  split_ifs at h <;> simp only [Option.some.injEq] at h <;> omega

theorem fkLevelsT_poses (d : DType) (v : Device) (N B : ℕ) (parents : List ℤ) (hpl : parents.length = N) (L : ℕ → ℕ → M4)
    (ls : List (List ℕ)) : ∀ (T : ℕ → ℕ → M4), (∀ l ∈ ls, LevelOk N parents l) →
    fkLevelsT (ofList (ixTag v) parents) (poses (flTag d v) N B L) (ls.map fun l => ofList (ixTag v) (l.map Int.ofNat))
      (poses (flTag d v) N B T) = .ok (poses (flTag d v) N B (ls.foldl (levelN N parents L) T)) := by
  induction ls with
  | nil => intro T _; rfl
  | cons l ls ih =>
    intro T h
    have hl := h l (by simp)
    rw [List.map_cons, fkLevelsT]
    have hpk : picks parents.length (ofList (ixTag v) (l.map Int.ofNat)) = .ok l := by
      rw [hpl]; exact picks_nat _ _ _ hl.lt
    have hpk' := hpk
    rw [hpl] at hpk'
    rw [index0_L (t := ixTag v) rfl parents hpk (by rw [hpl]; exact hl.lt), ok_bind]
    have hpar : picks N (ofList (ixTag v) (l.map fun k => parents.getD k default)) =
        .ok ((l.map fun k => parents.getD k default).map fun z => (pyIndex N z).getD 0) :=
      picks_ofList _ _ _ _ (by
        intro z hz
        obtain ⟨k, hk, rfl⟩ := List.mem_map.1 hz
        exact hl.parent k hk)
    rw [index0_poses (by
        intro k hk
        obtain ⟨z, hz, rfl⟩ := List.mem_map.1 hk
        obtain ⟨k', hk', rfl⟩ := List.mem_map.1 hz
        exact pyIndex_lt (hl.parent k' hk')) rfl hpar, ok_bind,
      index0_poses hl.lt rfl hpk', ok_bind, List.length_map, List.length_map, matmul_poses, ok_bind]
    rw [poses, poses, put0_M (t := flTag d v) rfl hpk' hl.nodup [B] 4 4, ok_bind, List.foldl_cons]
    refine Eq.trans ?_ (ih (levelN N parents L T l) fun l' h' => h l' (List.mem_cons_of_mem _ h'))
    congr 1
    refine ofM_congr fun i hi => ?_
    obtain ⟨f, b, rfl, hf, hb⟩ := validIx_pair hi
    funext r c
    show (if [f, b].headD 0 ∈ l then _ else _ : Fin 4 → Fin 4 → ℝ) r c = levelN N parents L T l f b r c
    unfold levelN
    by_cases hm : f ∈ l
    · have hlt := List.idxOf_lt_length_of_mem hm
      rw [if_pos (show [f, b].headD 0 ∈ l from hm), if_pos hm]
      simp only [List.headD_cons, List.tail_cons, List.getD_cons_succ, List.getD_cons_zero]
      rw [getD_of_lt _ _ (by simpa using hlt), getD_of_lt _ _ hlt]
      simp only [List.getElem_map, List.getElem_idxOf]
      rfl
    · rw [if_neg (show [f, b].headD 0 ∉ l from hm), if_neg hm]
      rfl

/-! ## The tables as tensors -/

theorem matsT_M (t : Tag) (l : List M4) : matsT t l = ofM t [l.length] 4 4 fun i r c => l.getD (i.headD 0) 0 r c := by
  refine eq_ofM rfl rfl fun i r c hr hc hi => ?_
  obtain ⟨k, rfl, hk⟩ := validIx_one hi
  have e : ValidIx ([k] ++ [r, c]) [l.length, 4, 4] := validIx_two.2 ⟨hi, hr, hc⟩
  rw [matsT, ofFn_get e]
  show l.getD k 0 (Fin.ofNat 4 r) (Fin.ofNat 4 c) = _
  rw [show Fin.ofNat 4 r = ⟨r, hr⟩ from Fin.ext (Nat.mod_eq_of_lt hr), show Fin.ofNat 4 c = ⟨c, hc⟩ from Fin.ext (Nat.mod_eq_of_lt hc)]
  rfl

theorem vecsT_V (t : Tag) (l : List V3) : vecsT t l = ofV t [l.length] 3 fun i r => l.getD (i.headD 0) 0 r := by
  refine eq_ofV rfl rfl fun i r hr hi => ?_
  obtain ⟨k, rfl, hk⟩ := validIx_one hi
  have e : ValidIx ([k] ++ [r]) [l.length, 3] := validIx_snoc.2 ⟨hi, hr⟩
  rw [vecsT, ofFn_get e]
  show l.getD k 0 (Fin.ofNat 3 r) = _
  rw [show Fin.ofNat 3 r = ⟨r, hr⟩ from Fin.ext (Nat.mod_eq_of_lt hr)]
  rfl

/-- the column that joint `k` uses -/
def colIx (n k : ℕ) : ℕ := if n = 1 then 0 else k

theorem bidx_cols {B n b k : ℕ} (hb : b < B) : bidx [B, n] [b, k] = [b, colIx n k] := by
  have := bidx_snoc [B] [b] n k
  simp only [List.singleton_append, bidx_valid (validIx_one_iff.2 hb)] at this
  exact this

theorem bshape_cols {B J n : ℕ} (h : n = J ∨ n = 1) : bshape [B, J] [B, n] = .ok [B, J] :=
  bshape_snoc (s := [B]) (t := [B]) (r := [B]) (bshape_self [B]) (by
    rcases h with rfl | rfl
    · exact .inl ⟨rfl, rfl⟩
    · exact .inr (.inr ⟨rfl, rfl⟩))

theorem perFrameT {d : DType} {v : Device} (c : ChainT) {G : V3 → ℝ → M4} {g : Tn ℝ → Tn ℝ → Except Err (Tn ℝ)}
    (hG : ∀ {sa st : Shape}, bshape sa st = .ok sa → ∀ (axis : List ℕ → Fin 3 → ℝ) (x : List ℕ → ℝ),
      g (ofV (flTag d v) sa 3 axis) (ofFn (flTag d v) st x) =
        .ok (ofM (flTag d v) sa 4 4 fun i r c => G (axis i) (x (bidx st i)) r c))
    {jidx : List ℕ} (hj : c.jointIndicesClamped = ofList (ixTag v) (jidx.map Int.ofNat)) {J B n : ℕ}
    (hlt : ∀ k ∈ jidx, k < J) (hn : n = J ∨ n = 1) (A : ℕ → V3) (x : List ℕ → ℝ) :
    c.perFrame g (ofV (flTag d v) [B, J] 3 fun i => A (i.getD 1 0)) (ofFn (flTag d v) [B, n] x) =
      .ok (poses (flTag d v) jidx.length B fun f b => G (A (jidx.getD f 0)) (x [b, colIx n (jidx.getD f 0)])) := by
  rw [ChainT.perFrame, hG (bshape_cols hn), ok_bind, hj, index1_M (t := flTag d v) rfl (picks_nat (ixTag v) _ _ hlt) hlt, ok_bind,
    permute_M1023]
  congr 1
  refine ofM_congr fun i hi => ?_
  obtain ⟨f, b, rfl, hf, hb⟩ := validIx_pair hi
  funext r c
  show G (A (jidx.getD f 0)) (x (bidx [B, n] [b, jidx.getD f 0])) r c = _
  rw [bidx_cols hb]
  rfl

theorem eyesT {d : DType} {v : Device} (c : ChainT) {th : Tn ℝ} (ht : th.tag = flTag d v) (B : ℕ) :
    c.eyes th B = .ok (poses (flTag d v) c.numFrames B fun _ _ => 1) := by
  have he : eye4 (flTag d v) = ofM (flTag d v) [] 4 4 fun _ r c => (1 : M4) r c := by
    refine eq_ofM rfl rfl fun i r c hr hc hi => ?_
    obtain rfl := validIx_nil.1 hi
    have e : ValidIx ([] ++ [r, c]) [4, 4] := validIx_two.2 ⟨hi, hr, hc⟩
    rw [eye4, ofFn_get e]
    simp [Matrix.one_apply]
  rw [ChainT.eyes, ht, he]
  have hr : reshape (ofM (flTag d v) [] 4 4 fun _ r c => (1 : M4) r c) [1, 1, 4, 4] =
      .ok (ofM (flTag d v) [1, 1] 4 4 fun _ r c => (1 : M4) r c) := by
    rw [reshape, if_pos (by simp)]
    congr 1
    refine eq_ofM rfl rfl fun i r c hr hc hi => ?_
    obtain ⟨k, j, rfl, hk, hj⟩ := validIx_pair hi
    have e : ValidIx ([k, j] ++ [r, c]) [1, 1, 4, 4] := validIx_two.2 ⟨hi, hr, hc⟩
    obtain rfl : k = 0 := by omega
    obtain rfl : j = 0 := by omega
    rw [ofFn_get e]
    have hu : unravel [4, 4] (ravel [1, 1, 4, 4] ([0, 0] ++ [r, c])) = [] ++ [r, c] := by
      simp only [ravel, unravel, List.cons_append, List.nil_append, List.headD_cons, List.tail_cons, List.prod_cons, List.prod_nil]
      congr 1
      · omega
      · congr 1; omega
    simp only [ofM_shape, List.nil_append] at hu ⊢
    rw [hu]
    exact ofM_get (i := []) (validIx_nil.2 rfl) hr hc
  rw [hr, ok_bind]
  exact (expand_MB (flTag d v) (bshape_11 c.numFrames B) 4 4 fun _ r c => (1 : M4) r c)

/-! ## Joint transforms -/

/-- l.55-78: the transform of one joint -/
noncomputable def jointMatN (c : Chain) (n : ℕ) (x : List ℕ → ℝ) (f b : ℕ) : M4 :=
  let k := c.jointIndicesClamped.getD f 0
  if c.jointTypeIndices.getD f 0 = 2 then axisAndDToPrisMatrix (c.axes.getD k 0) (x [b, colIx n k])
  else if c.jointTypeIndices.getD f 0 = 1 then PK.axisAndAngleToMatrix44 (c.axes.getD k 0) (x [b, colIx n k])
  else 1

theorem flagsT (d : DType) (v : Device) (c : Chain) (k : ℕ) :
    reshapeInfer (eqZ (c.tensors d v).jointTypeIndices k) [1, 1, 1] =
      .ok (ofM (eqT (ixTag v)) [c.jointTypeIndices.length, 1] 1 1 fun i _ _ => decide (c.jointTypeIndices.getD (i.headD 0) 0 = k)) := by
  show reshapeInfer (eqZ (ofList (ixTag v) (c.jointTypeIndices.map Int.ofNat)) k) [1, 1, 1] = _
  rw [eqZ_L, List.length_map, reshapeInfer_L]
  congr 1
  refine ofM_congr fun i hi => ?_
  obtain ⟨f, b, rfl, hf, hb⟩ := validIx_pair hi
  funext _ _
  simp only [List.headD_cons, List.getD_eq_getElem?_getD, List.getElem?_map, List.getElem?_eq_getElem hf, Option.map_some,
    Option.getD_some]
  exact decide_eq_decide.2 Int.ofNat_inj

theorem sel_poses {t c : Tag} (hc : c.dev = t.dev) (F B : ℕ) (p : ℕ → Bool) (m m' : ℕ → ℕ → M4) :
    sel (ofM c [F, 1] 1 1 fun i _ _ => p (i.headD 0)) (poses t F B m) (poses t F B m') =
      .ok (poses t F B fun f b => bif p f then m f b else m' f b) := by
  rw [poses, poses, sel_FB hc]
  refine congrArg Except.ok (ofM_congr fun i hi => ?_)
  obtain ⟨f, b, rfl, hf, hb⟩ := validIx_pair hi
  funext r c
  show (bif p f then _ else _ : Fin 4 → Fin 4 → ℝ) r c = (bif p f then m f b else m' f b) r c
  cases p f <;> rfl

theorem getD_any {l : List ℕ} {f t : ℕ} (hf : f < l.length) (h : l.any (· == t) = false) : l.getD f 0 ≠ t :=
  AD.any_false (n := l.length) h ⟨f, hf⟩ rfl

theorem jointTransformsT {d : DType} {v : Device} {c : Chain} {N J : ℕ} (h : AD.TablesOk c N J) (hax : c.axes.length = J)
    {B n : ℕ} (hn : n = J ∨ n = 1) (x : List ℕ → ℝ) :
    (c.tensors d v).jointTransforms (ofFn (flTag d v) [B, n] x) B n =
      .ok (poses (flTag d v) N B (jointMatN c n x)) := by
  have hne : J ≠ 0 → n ≠ 0 := by rcases hn with rfl | rfl <;> simp
  have hlt : 0 < J → ∀ k ∈ c.jointIndicesClamped, k < J := by
    intro hJ k hk
    obtain ⟨i, hi, rfl⟩ := List.mem_iff_getElem.1 hk
    have := h.lt hJ ⟨i, by rw [← h.idx]; exact hi⟩
    rwa [getD_of_lt _ _ hi] at this
  have hexp : expandFirst (unsqueezeAt (c.tensors d v).axes 0) B =
      .ok (ofV (flTag d v) [B, J] 3 fun i => c.axes.getD (i.getD 1 0) 0) := by
    show expandFirst (unsqueezeAt (vecsT (flTag d v) c.axes) 0) B = _
    rw [vecsT_V, unsqueezeAt_V0, hax, expandFirst_V]
    rfl
  have hR := fun hJ : 0 < J => perFrameT (d := d) (v := v) (B := B) (c.tensors d v)
    (fun h => axisAndAngleToMatrix44_V d v h) rfl (hlt hJ) hn (fun k => c.axes.getD k 0) x
  have hP := fun hJ : 0 < J => perFrameT (d := d) (v := v) (B := B) (c.tensors d v)
    (fun h => axisAndDToPrisMatrix_V d v h) rfl (hlt hJ) hn (fun k => c.axes.getD k 0) x
  have heye := eyesT (d := d) (v := v) (c.tensors d v) (th := ofFn (flTag d v) [B, n] x) rfl B
  have hnf : (c.tensors d v).numFrames = N := h.frames
  have h1 := flagsT d v c 1
  have h2 := flagsT d v c 2
  rw [Nat.cast_one] at h1
  rw [Nat.cast_ofNat] at h2
  rw [h.types] at h1 h2
  rw [hnf] at heye
  rw [h.idx] at hR hP
  have hr0 : (c.tensors d v).hasRevolute = c.hasRevolute := rfl
  have hp0 : (c.tensors d v).hasPrismatic = c.hasPrismatic := rfl
  have hty : ∀ f < N, f < c.jointTypeIndices.length := fun f hf => by rw [h.types]; exact hf
  cases hRv : c.hasRevolute <;> cases hPv : c.hasPrismatic
  · have e : (c.tensors d v).jointTransforms (ofFn (flTag d v) [B, n] x) B n =
        (c.tensors d v).eyes (ofFn (flTag d v) [B, n] x) B := by
      rw [ChainT.jointTransforms]
      by_cases h0 : 0 < n
      · simp [h0, hr0, hp0, hRv, hPv, hexp, ok_bind, pure_ok]
      · simp [h0, hr0, hp0, hRv, hPv, ok_bind, pure_ok]
    rw [e, heye]
    congr 1
    refine poses_congr fun f hf b hb => ?_
    have a1 := getD_any (hty f hf) (h.rev ▸ hRv)
    have a2 := getD_any (hty f hf) (h.pris ▸ hPv)
    simp only [jointMatN, if_neg a1, if_neg a2]
  · have hJ := h.pos (.inr hPv)
    have h0 : 0 < n := Nat.pos_of_ne_zero (hne hJ.ne')
    rw [ChainT.jointTransforms]
    simp only [hr0, hp0, hRv, hPv, Bool.false_eq_true, and_false, if_false, Bool.false_and, and_true, h0, if_true, Bool.not_false, Bool.and_true,
      hexp, ok_bind, pure_ok, hP hJ, Functor.map, Except.map, bound, h2, heye]
    rw [sel_poses (c := eqT (ixTag v)) (t := flTag d v) rfl N B (fun f => decide (c.jointTypeIndices.getD f 0 = 2))]
    congr 1
    refine poses_congr fun f hf b hb => ?_
    have a1 := getD_any (hty f hf) (h.rev ▸ hRv)
    simp only [jointMatN, if_neg a1]
    by_cases h2 : c.jointTypeIndices.getD f 0 = 2 <;> simp [h2]
  · have hJ := h.pos (.inl hRv)
    have h0 : 0 < n := Nat.pos_of_ne_zero (hne hJ.ne')
    rw [ChainT.jointTransforms]
    simp only [hr0, hp0, hRv, hPv, Bool.false_eq_true, and_false, if_false, and_true, h0, if_true, Bool.not_false, Bool.and_true,
      hexp, ok_bind, pure_ok, hR hJ, Functor.map, Except.map, bound, h1, heye]
    rw [sel_poses (c := eqT (ixTag v)) (t := flTag d v) rfl N B (fun f => decide (c.jointTypeIndices.getD f 0 = 1))]
    congr 1
    refine poses_congr fun f hf b hb => ?_
    have a2 := getD_any (hty f hf) (h.pris ▸ hPv)
    simp only [jointMatN, if_neg a2]
    by_cases h2 : c.jointTypeIndices.getD f 0 = 1 <;> simp [h2]
  · have hJ := h.pos (.inl hRv)
    have h0 : 0 < n := Nat.pos_of_ne_zero (hne hJ.ne')
    rw [ChainT.jointTransforms]
    simp only [hr0, hp0, hRv, hPv, Bool.false_eq_true, and_false, if_false, and_true, h0, if_true, Bool.not_true, Bool.and_false, Bool.and_self,
      hexp, ok_bind, pure_ok, hR hJ, hP hJ, Functor.map, Except.map, bound, h1, h2, heye]
    rw [sel_poses (c := eqT (ixTag v)) (t := flTag d v) rfl N B (fun f => decide (c.jointTypeIndices.getD f 0 = 1)), ok_bind,
      sel_poses (c := eqT (ixTag v)) (t := flTag d v) rfl N B (fun f => decide (c.jointTypeIndices.getD f 0 = 2))]
    congr 1
    refine poses_congr fun f hf b hb => ?_
    simp only [jointMatN, Bool.cond_decide]

/-! ## `_fk_impl` -/

theorem offsetsT_matmul (d : DType) (v : Device) (c : Chain) {N B : ℕ} (hl : c.staticOffsets.length = N) (m : ℕ → ℕ → M4) :
    matmulT (unsqueezeAt (c.tensors d v).staticOffsets 1) (poses (flTag d v) N B m) =
      .ok (poses (flTag d v) N B fun f b => c.staticOffsets.getD f 0 * m f b) := by
  show matmulT (unsqueezeAt (matsT (flTag d v) c.staticOffsets) 1) _ = _
  rw [matsT_M, unsqueezeAt_M1, hl, poses, matmulT_MB _ 4 4 4 _ _ (bshape_F1 N B)]
  congr 1
  refine ofM_congr fun i hi => ?_
  obtain ⟨f, b, rfl, hf, hb⟩ := validIx_pair hi
  funext r c
  rw [bidx_F1 (B := B) hf, bidx_valid hi]
  exact (Matrix.mul_apply ..).symm

/-- the local transforms of `_fk_impl` -/
noncomputable def localN (c : Chain) (n : ℕ) (x : List ℕ → ℝ) (f b : ℕ) : M4 := c.staticOffsets.getD f 0 * jointMatN c n x f b

theorem fkImplT {d : DType} {v : Device} {c : Chain} {N J : ℕ} (h : AD.TablesOk c N J) (hax : c.axes.length = J)
    (hso : c.staticOffsets.length = N) (hpl : c.directParentIdx.length = N) {l0 : List ℕ} {ls : List (List ℕ)}
    (hbl : c.bfsLevels = l0 :: ls) (h0 : l0.Nodup) (h0' : ∀ k ∈ l0, k < N) (hls : ∀ l ∈ ls, LevelOk N c.directParentIdx l)
    {B n : ℕ} (hn : n = J ∨ n = 1) (x junk : List ℕ → ℝ) :
    (c.tensors d v).fkImpl junk (ofFn (flTag d v) [B, n] x) =
      .ok (poses (flTag d v) N B (ls.foldl (levelN N c.directParentIdx (localN c n x))
        fun f b => if f ∈ l0 then localN c n x f b else .of fun r k => junk [f, b, r, k])) := by
  rw [ChainT.fkImpl]
  simp only [ofFn_shape, ofFn_tag]
  rw [jointTransformsT h hax hn, ok_bind, offsetsT_matmul d v c hso, ok_bind]
  have hb : (c.tensors d v).bfsLevels = ofList (ixTag v) (l0.map Int.ofNat) :: ls.map fun l => ofList (ixTag v) (l.map Int.ofNat) := by
    show c.bfsLevels.map _ = _
    rw [hbl]; rfl
  have hnf : (c.tensors d v).numFrames = N := h.frames
  have hT : (ofFn (flTag d v) [N, B, 4, 4] junk) = poses (flTag d v) N B fun f b => .of fun r k => junk [f, b, r, k] := by
    refine eq_ofM rfl rfl fun i r c hr hc hi => ?_
    obtain ⟨f, b, rfl, hf, hb⟩ := validIx_pair hi
    have e : ValidIx ([f, b] ++ [r, c]) [N, B, 4, 4] := validIx_two.2 ⟨hi, hr, hc⟩
    rw [ofFn_get e]; rfl
  have hpk := picks_nat (ixTag v) N l0 h0'
  simp only [hb, hnf, hT]
  rw [index0_poses h0' rfl hpk, ok_bind, poses, poses, put0_M (t := flTag d v) rfl hpk h0 [B] 4 4, ok_bind]
  refine Eq.trans ?_ (fkLevelsT_poses d v N B c.directParentIdx hpl (localN c n x) ls _ hls)
  show fkLevelsT (ofList (ixTag v) c.directParentIdx) _ _ _ = _
  congr 1
  refine ofM_congr fun i hi => ?_
  obtain ⟨f, b, rfl, hf, hb⟩ := validIx_pair hi
  funext r c
  show (if [f, b].headD 0 ∈ l0 then _ else _ : Fin 4 → Fin 4 → ℝ) r c = (if f ∈ l0 then _ else _ : M4) r c
  by_cases hm : f ∈ l0
  · have hlt := List.idxOf_lt_length_of_mem hm
    rw [if_pos (show [f, b].headD 0 ∈ l0 from hm), if_pos hm]
    simp only [List.headD_cons, List.tail_cons, List.getD_cons_succ, List.getD_cons_zero]
    rw [getD_of_lt _ _ hlt]
    simp only [List.getElem_idxOf]
    try rfl
  · rw [if_neg (show [f, b].headD 0 ∉ l0 from hm), if_neg hm]

/-! ## Agreement with the model on lists -/

theorem levelN_agree {N B : ℕ} (parents : List ℤ) (Ls : List (Fin B → M4)) (L : ℕ → ℕ → M4)
    (hL : ∀ f l, Ls[f]? = some l → ∀ b : Fin B, L f b = l b) (ls : List (List ℕ)) :
    ∀ (T : ℕ → Option (Fin B → M4)) (T' : ℕ → ℕ → M4), (∀ f m, T f = some m → ∀ b : Fin B, T' f b = m b) →
    ∀ f m, ls.foldl (levelStep N parents Ls) T f = some m → ∀ b : Fin B, ls.foldl (levelN N parents L) T' f b = m b := by
  induction ls with
  | nil => intro T T' h; exact h
  | cons l ls ih =>
    intro T T' h
    simp only [List.foldl_cons]
    apply ih
    intro f m hm b
    unfold levelStep at hm
    unfold levelN
    by_cases hf : f ∈ l
    · rw [if_pos hf] at hm ⊢
      simp only [bind, Option.bind_eq_some_iff] at hm
      obtain ⟨p, h1, pi, h2, a, h3, l', h4, h5⟩ := hm
      rw [Option.some.injEq] at h5
      rw [List.getD_eq_getElem?_getD, h1, Option.getD_some, h2, Option.getD_some, h _ _ h3 b, hL _ _ h4 b, ← h5]
      rfl
    · rw [if_neg hf] at hm ⊢
      exact h f m hm b

/-- poses given by a function on the batch -/
noncomputable def posesF (t : Tag) (F B : ℕ) (m : ℕ → Fin B → M4) : Tn ℝ :=
  poses t F B fun f b => if h : b < B then m f ⟨b, h⟩ else 0

/-- the columns of a `(B, n)` tensor as the joints use them -/
def colsN (B J n : ℕ) (x : List ℕ → ℝ) : List (Fin B → ℝ) := (List.range J).map fun k b => x [b, colIx n k]

theorem colsN_length (B J n : ℕ) (x : List ℕ → ℝ) : (colsN B J n x).length = J := by simp [colsN]

theorem colsN_colVal {root : Frame} {B n : ℕ} {x : List ℕ → ℝ} {e : QItem} (he : e ∈ visit root) (hm : Moving e.1.joint) (b : Fin B) :
    colVal root (colsN B (movingJoints root).length n x) b e.1.joint = x [b, colIx n (column root e.1.joint)] := by
  have := column_lt he hm
  simp [colVal, colsN, List.getD_eq_getElem?_getD, this]

theorem localN_eq {root : Frame} (hn : ((movingJoints root).map Joint.name).Nodup) {B n : ℕ} {x : List ℕ → ℝ} {f : ℕ} {e : QItem}
    (he : (visit root)[f]? = some e) (b : Fin B) :
    localN (Chain.init root) n x f b = localT e.1 (colVal root (colsN B (movingJoints root).length n x) b e.1.joint) := by
  have hmem : e ∈ visit root := List.mem_of_getElem? he
  have hty : (Chain.init root).jointTypeIndices.getD f 0 = e.1.joint.jtype.index := by
    rw [init_types, List.getD_eq_getElem?_getD, List.getElem?_map, he]; rfl
  have hcl : (Chain.init root).jointIndicesClamped.getD f 0 = if e.1.joint.jtype = .fixed then 0 else column root e.1.joint := by
    rw [init_clamped, List.getD_eq_getElem?_getD, List.getElem?_map, he]; rfl
  have hso : (Chain.init root).staticOffsets.getD f 0 = e.1.link.offset.getD 1 * e.1.joint.offset.getD 1 := by
    rw [init_staticOffsets, List.getD_eq_getElem?_getD, List.getElem?_map, he]; rfl
  have hax : Moving e.1.joint → (Chain.init root).axes.getD (column root e.1.joint) 0 = e.1.joint.axis := by
    intro hm
    simp [List.getD, init_axes_get hn hmem hm]
  rw [localN, hso, localT]
  congr 1
  simp only [jointMatN, hty, hcl]
  cases ht : e.1.joint.jtype
  · simp [JType.index, motion, ht]
  · have hm : Moving e.1.joint := by simp [Moving, ht]
    simp only [JType.index, reduceCtorEq, if_false, hax hm, colsN_colVal hmem hm, axisAndAngleToMatrix44_eq]
    simp [motion, ht]
  · have hm : Moving e.1.joint := by simp [Moving, ht]
    simp only [JType.index, reduceCtorEq, if_false, hax hm, colsN_colVal hmem hm, axisAndDToPrisMatrix_eq]
    simp [motion, ht]

theorem levelOk_init (root : Frame) (dd : ℕ) :
    LevelOk (visit root).length ((visit root).map fun e => e.2.1) (levelAt ((visit root).map fun e => e.2.2) (dd + 1)) := by
  have hlt : ∀ k ∈ levelAt ((visit root).map fun e => e.2.2) (dd + 1), k < (visit root).length := by
    intro k hk
    have := mem_levelAt.1 hk
    have := (List.getElem?_eq_some_iff.1 this).1
    simpa using this
  refine ⟨List.nodup_range.filter _, hlt, ?_⟩
  intro k hk
  have hd := mem_levelAt.1 hk
  have hk' := hlt k hk
  rw [List.getElem?_map, List.getElem?_eq_getElem hk', Option.map_some, Option.some.injEq] at hd
  have he := List.getElem?_eq_getElem hk'
  have h0 : 0 < k := by
    rcases Nat.eq_zero_or_pos k with h | h
    · have := (visit_depth_zero root he).2 h
      omega
    · exact h
  obtain ⟨i, hi, e', h1, h2, -⟩ := visit_parent root he h0
  rw [List.getD_eq_getElem?_getD, List.getElem?_map, he, Option.map_some, Option.getD_some, h2]
  have : pyIndex (visit root).length (i : ℤ) = some i := pyIndex_nat (by omega)
  rw [this]; rfl

theorem fkImpl_root {root : Frame} (hn : ((movingJoints root).map Joint.name).Nodup) (d : DType) (v : Device) {B n : ℕ}
    (hw : n = (movingJoints root).length ∨ n = 1) (x junk : List ℕ → ℝ) :
    ((Chain.init root).tensors d v).fkImpl junk (ofFn (flTag d v) [B, n] x) =
      .ok (posesF (flTag d v) (visit root).length B (poseAt root (colsN B (movingJoints root).length n x))) := by
  have ht := AD.tablesOk_init root
  rw [init_numFrames, init_nJoints] at ht
  have hbl := init_bfsLevels root
  rw [bfsLevelsOf_eq] at hbl
  rw [fkImplT ht (init_axes_length root) (by rw [init_staticOffsets]; simp) (by rw [init_directParents]; simp) hbl
    (List.nodup_range.filter _) (by
      intro k hk
      have := (List.getElem?_eq_some_iff.1 (mem_levelAt.1 hk)).1
      simpa using this) (by
      intro l hl
      obtain ⟨dd, -, rfl⟩ := List.mem_map.1 hl
      rw [init_directParents]
      exact levelOk_init root dd) hw]
  congr 1
  refine poses_congr fun f hf b hb => ?_
  rw [dif_pos hb]
  set cols := colsN B (movingJoints root).length n x
  have hfk := fkAccum_visit root ((visit root).map fun e b => localT e.1 (colVal root cols b e.1.joint)) (by simp)
  rw [bfsLevelsOf_eq] at hfk
  simp only [fkAccum] at hfk
  obtain ⟨m, h1, h2⟩ := AD.mapM_ok_get hfk f f (by simp [hf])
  rw [List.getElem?_map, List.getElem?_range hf, Option.map_some, Option.some.injEq] at h1
  subst h1
  split at h2
  · rename_i m hm
    have := levelN_agree (N := (visit root).length) ((visit root).map fun e => e.2.1) _ (localN (Chain.init root) n x) (by
      intro f l hl b
      rw [List.getElem?_map] at hl
      obtain ⟨e, he, rfl⟩ := Option.map_eq_some_iff.1 hl
      exact localN_eq hn he b) _ _
      (fun f b => if f ∈ levelAt ((visit root).map fun e => e.2.2) 0 then localN (Chain.init root) n x f b
        else .of fun r k => junk [f, b, r, k]) (by
      intro f m hm b
      by_cases hf : f ∈ levelAt ((visit root).map fun e => e.2.2) 0
      · simp only [if_pos hf] at hm ⊢
        rw [List.getElem?_map] at hm
        obtain ⟨e, he, rfl⟩ := Option.map_eq_some_iff.1 hm
        exact localN_eq hn he b
      · simp only [if_neg hf] at hm
        cases hm) f m hm ⟨b, hb⟩
    rw [init_directParents]
    exact this.trans (congrFun (Except.ok.inj h2) _)
  · cases h2

end PK
