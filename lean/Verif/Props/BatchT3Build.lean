import Verif.Props.BatchT3Init

/-!
# C124: the classes `Translate`, `Scale`, `Rotate`, `RotateAxisAngle`, the methods built on them, `to` and `clone`
-/

namespace PK
namespace Tn
open Spec

section
variable {rd : DType → ℝ → ℝ} {t : Tag} {n m p q : ℕ} {d : DType} {v w : Device} {f g : ℕ → ℕ → ℕ → ℝ}

theorem castT_box' (dd : Dt) : castT rd dd (box t n p q f) = box ⟨dd, t.dev⟩ n p q fun i j l => conv2 rd dd t.dt (f i j l) := by
  by_cases h : t.dt = dd
  · rw [castT, box_tag, if_pos h]
    subst h
    simp only [conv2, if_true]
  · rw [castT_box rd dd h]
    simp only [conv2, if_neg (Ne.symm h)]

theorem castT_flat (dd : Dt) (f : ℕ → ℕ → ℝ) :
    castT rd dd (flatB t n p f) = flatB ⟨dd, t.dev⟩ n p fun i j => conv2 rd dd t.dt (f i j) := by
  by_cases h : t.dt = dd
  · rw [castT, flatB_tag, if_pos h]
    subst h
    simp only [conv2, if_true]
  · rw [castT, flatB_tag, if_neg h]
    refine eq_flatB rfl rfl fun i hi j hj => ?_
    refine (ofFn_get (valid2.2 ⟨hi, hj⟩)).trans ?_
    simp only [conv2, if_neg (Ne.symm h)]
    rw [flatB_get hi hj]

theorem castT_line (dd : Dt) (f : ℕ → ℝ) : castT rd dd (lineB t n f) = lineB ⟨dd, t.dev⟩ n fun i => conv2 rd dd t.dt (f i) := by
  by_cases h : t.dt = dd
  · rw [castT, lineB_tag, if_pos h]
    subst h
    simp only [conv2, if_true]
  · rw [castT, lineB_tag, if_neg h]
    refine eq_lineB rfl rfl fun i hi => ?_
    refine (ofFn_get (valid1.2 hi)).trans ?_
    simp only [conv2, if_neg (Ne.symm h)]
    rw [lineB_get hi]

theorem moveT_box : moveT v (box t n p q f) = box ⟨t.dt, v⟩ n p q f := by
  refine eq_box rfl rfl fun i hi j hj l hl => ?_
  refine (ofFn_get (valid3.2 ⟨hi, hj, hl⟩)).trans ?_
  rw [box_get hi hj hl]

theorem moveT_self {a : Tn ℝ} (h : a.tag.dev = v) : moveT v a = a := by
  subst h
  exact Tn.ext' rfl rfl fun i hi => ofFn_get hi

theorem castT_self {a : Tn ℝ} {dd : Dt} (h : a.tag.dt = dd) : castT rd dd a = a := if_pos h

theorem setEntries_box {r c : ℕ} (hr : r < p) (hc : c < q) {t' : Tag} {g : ℕ → ℝ} : setEntries (box t n p q f) r c (lineB t' n g) =
    .ok (box t n p q fun i j l => if j = r ∧ l = c then g i else f i j l) := by
  show (if r < p ∧ c < q then _ else _) = _
  rw [if_pos ⟨hr, hc⟩]
  show (valueFor (lineB t' n g) [n] >>= _) = _
  rw [valueFor_same (by rfl), ok_bind, pure_ok]
  refine congrArg Except.ok (eq_box rfl rfl fun i hi j hj l hl => ?_)
  refine (ofFn_get (valid3.2 ⟨hi, hj, hl⟩)).trans ?_
  show (if j = r ∧ l = c then (lineB t' n g).get [i] else (box t n p q f).get [i, j, l]) = _
  split_ifs with h
  · exact lineB_get hi
  · exact box_get hi hj hl

theorem expand_line {f : ℕ → ℝ} (h : m = 1 ∨ m = n) : expand (lineB t m f) [n] = .ok (lineB t n fun i => f (bcRow m i)) := by
  have hb : bshape [m] [n] = .ok [n] := by
    have := bshape_snoc (s := []) (r := []) (t := []) (a := m) (b := n) (c := n) (bshape_self []) (by
      rcases h with h | h
      · exact .inr (.inl ⟨h, rfl⟩)
      · exact .inl ⟨h, h.symm ▸ rfl⟩)
    simpa using this
  rw [expand, lineB_shape, if_pos hb]
  refine congrArg Except.ok (eq_lineB rfl rfl fun i hi => ?_)
  refine (ofFn_get (valid1.2 hi)).trans ?_
  show (lineB t m f).get (bidx [m] [i]) = _
  have e : bidx [m] [i] = [bcRow m i] := by simp [bidx, bidxR, bcRow]
  rw [e]
  refine lineB_get ?_
  unfold bcRow
  split_ifs <;> omega

theorem stack3_line {a b c : DType} {f g h : ℕ → ℝ} :
    stackLast [lineB (flTag a v) n f, lineB (flTag b v) n g, lineB (flTag c v) n h] =
      .ok (flatB (flTag (wider (wider a b) c) v) n 3 fun i j => if j = 0 then f i else if j = 1 then g i else h i) := by
  rw [stackLast, if_pos (by simp)]
  have ht : tags [lineB (flTag a v) n f, lineB (flTag b v) n g, lineB (flTag c v) n h] = .ok (flTag (wider (wider a b) c) v) := by
    cases a <;> cases b <;> cases c <;> simp [tags, stackT, ew, flTag, wider, Dt.promote, ok_bind, pure_ok]
  rw [ht, ok_bind, pure_ok]
  refine congrArg Except.ok (eq_flatB rfl rfl fun i hi j hj => ?_)
  refine (ofFn_get (valid2.2 ⟨hi, hj⟩)).trans ?_
  interval_cases j
  · exact lineB_get hi
  · exact lineB_get hi
  · exact lineB_get hi

end
end Tn

open Tn Spec Matrix

section
variable {rd : DType → ℝ → ℝ} {T : T3T} {n m : ℕ} {d d' dx dy dz : DType} {v w : Device}

/-- A vector of dtype `d'` converted to `d` -/
noncomputable def asVec (rd : DType → ℝ → ℝ) (d d' : DType) (p : V3) : V3 := if d = d' then p else fun l => rd d (p l)

theorem asVec_apply (p : V3) (l : Fin 3) : asVec rd d d' p l = conv2 rd (.fl d) (.fl d') (p l) := by
  rw [conv2_eq]; unfold asVec
  split_ifs <;> rfl

/-! ## `Translate` and `Scale` -/

/-- A coordinate: a Python number, a tensor without dimensions, a tensor of shape `(n,)`; the number of values, their dtype and device,
and the values -/
inductive GivesCoord (rd : DType → ℝ → ℝ) (dtype : DType) (device : Device) : ArgT → ℕ → DType → Device → (ℕ → ℝ) → Prop
  | num (x : ℝ) : GivesCoord rd dtype device (.num x) 1 dtype device fun _ => rd dtype x
  | scalar {X : Tn ℝ} {dx : DType} {w : Device} : HasNum X [] (flTag dx w) → GivesCoord rd dtype device (.ten X) 1 dx w fun _ => X.get []
  | line {X : Tn ℝ} {n : ℕ} {dx : DType} {w : Device} : HasNum X [n] (flTag dx w) →
      GivesCoord rd dtype device (.ten X) n dx w fun i => X.get [i]

theorem handleCoordT_ok {dtype : DType} {device : Device} {x : ArgT} {f : ℕ → ℝ} (h : GivesCoord rd dtype device x n dx w f) :
    handleCoordT rd dtype device x = .ok (lineB (flTag dx w) n f) := by
  cases h with
  | num x => rfl
  | @scalar X _ _ h =>
    rw [handleCoordT, h.1]
    simp only [List.length_nil, if_true]
    rw [reshape, h.1, if_pos (by rfl), h.2]
    refine congrArg Except.ok (eq_lineB rfl rfl fun i hi => ?_)
    refine (ofFn_get (valid1.2 hi)).trans ?_
    congr 1
  | @line X _ _ _ h =>
    rw [handleCoordT, h.1]
    simp only [List.length_cons, List.length_nil, Nat.zero_add, Nat.one_ne_zero, if_false]
    have e := eta1 (a := X) h.1
    rw [h.2] at e
    exact congrArg _ e

theorem GivesCoord.rank {dtype : DType} {device : Device} {X : Tn ℝ} {f : ℕ → ℝ} (h : GivesCoord rd dtype device (.ten X) n dx w f) :
    X.shape.length ≠ 2 := by
  cases h with
  | scalar h => rw [h.1]; simp
  | line h => rw [h.1]; simp

/-- The vectors that the arguments `x`, `y`, `z` give: their number, dtype and device, and the vector of every row.  `s` says whether
one coordinate alone stands for all three (`Scale`). -/
inductive GivesVecs (rd : DType → ℝ → ℝ) (dtype : DType) (device : Device) (s : Bool) :
    ArgT → ArgT → ArgT → ℕ → DType → Device → (ℕ → V3) → Prop
  /-- a tensor of shape `(n, 3)` -/
  | rows {X : Tn ℝ} {n : ℕ} {dx : DType} {w : Device} : HasVec X [n] 3 (flTag dx w) →
      GivesVecs rd dtype device s (.ten X) .none .none n dx w fun i => vecAt 3 X [i]
  /-- three coordinates -/
  | coords {x y z : ArgT} {nx ny nz : ℕ} {dx dy dz : DType} {w : Device} {f g h : ℕ → ℝ} :
      GivesCoord rd dtype device x nx dx w f → GivesCoord rd dtype device y ny dy w g → GivesCoord rd dtype device z nz dz w h →
      (∀ k ∈ [nx, ny, nz], k = 1 ∨ k = max nx (max ny nz)) →
      GivesVecs rd dtype device s x y z (max nx (max ny nz)) (wider (wider dx dy) dz) w fun i =>
        ![f (bcRow nx i), g (bcRow ny i), h (bcRow nz i)]
  /-- one coordinate for all three -/
  | single {x : ArgT} {n : ℕ} {dx : DType} {w : Device} {f : ℕ → ℝ} : s = true → GivesCoord rd dtype device x n dx w f →
      GivesVecs rd dtype device s x .none .none n dx w fun i _ => f i

theorem wider_self {d : DType} : wider d d = d := by cases d <;> rfl

theorem coords_ok {dtype : DType} {device : Device} {x y z : ArgT} {nx ny nz : ℕ} {f g h : ℕ → ℝ} {s : Bool}
    (hx : GivesCoord rd dtype device x nx dx w f) (hy : GivesCoord rd dtype device y ny dy w g)
    (hz : GivesCoord rd dtype device z nz dz w h) (hn : ∀ k ∈ [nx, ny, nz], k = 1 ∨ k = max nx (max ny nz))
    (x' y' z' : ArgT) (hyz : x' = x ∧ fillYZ s x y' z' = (y, z)) :
    handleInputT.coords rd x' y' z' dtype device s = .ok (flatB (flTag (wider (wider dx dy) dz) w) (max nx (max ny nz)) 3 fun i j =>
      if j = 0 then f (bcRow nx i) else if j = 1 then g (bcRow ny i) else h (bcRow nz i)) := by
  obtain ⟨rfl, hyz⟩ := hyz
  rw [handleInputT.coords, hyz]
  simp only
  rw [handleCoordT_ok hx, ok_bind, handleCoordT_ok hy, ok_bind, handleCoordT_ok hz, ok_bind]
  simp only [lineB_shape, List.headD_cons]
  have h1 := hn nx (by simp)
  have h2 := hn ny (by simp)
  have h3 := hn nz (by simp)
  have hc : ([lineB (flTag dx w) nx f, lineB (flTag dy w) ny g, lineB (flTag dz w) nz h].any fun c =>
      c.shape.headD 0 != 1 && c.shape.headD 0 != max nx (max ny nz)) = false := by
    simp only [List.any_cons, List.any_nil, lineB_shape, List.headD_cons, Bool.or_eq_false_iff, Bool.and_eq_false_iff, bne_eq_false_iff_eq]
    exact ⟨h1, h2, h3, trivial⟩
  simp only [hc, Bool.false_eq_true, if_false]
  rw [expand_line h1, ok_bind, expand_line h2, ok_bind, expand_line h3, ok_bind, stack3_line]

theorem handleInputT_ok {dtype : DType} {device : Device} {s : Bool} {x y z : ArgT} {p : ℕ → V3}
    (h : GivesVecs rd dtype device s x y z n dx w p) :
    ∃ g, handleInputT rd x y z dtype device s = .ok (flatB (flTag dx w) n 3 g) ∧ ∀ i < n, ∀ l : Fin 3, g i l = p i l := by
  cases h with
  | @rows X _ _ _ h =>
    have e := eta2 (a := X) h.1
    rw [h.2] at e
    refine ⟨_, Eq.trans ?_ (congrArg _ e), fun i _ l => rfl⟩
    simp only [handleInputT, h.1]
    simp
  | @coords x y z nx ny nz dx dy dz w f g h hx hy hz hn =>
    refine ⟨_, Eq.trans ?_ (coords_ok (s := s) hx hy hz hn x y z ⟨rfl, ?_⟩), fun i _ l => ?_⟩
    · cases hx with
      | num => rfl
      | scalar hh => simp only [handleInputT, hh.1]; rfl
      | line hh => simp only [handleInputT, hh.1]; rfl
    · cases hy <;> cases s <;> rfl
    · fin_cases l <;> rfl
  | @single x _ _ _ f hs hx =>
    subst hs
    have key := coords_ok (s := true) hx hx hx (by simp) x .none .none ⟨rfl, rfl⟩
    simp only [max_self, wider_self] at key
    refine ⟨_, Eq.trans ?_ key, fun i hi l => ?_⟩
    · cases hx with
      | num => rfl
      | scalar hh => simp only [handleInputT, hh.1]; rfl
      | line hh => simp only [handleInputT, hh.1]; rfl
    · have hr : bcRow n i = i := by unfold bcRow; split_ifs <;> omega
      rw [hr]
      fin_cases l <;> rfl

/-- `Translate`: every row is the translation by its vector, converted to `dtype`. -/
theorem C124_translate {dtype : DType} {device : Device} {x y z : ArgT} {p : ℕ → V3} (h : GivesVecs rd dtype device false x y z n dx w p) :
    ∃ R, T3T.mkTranslate rd x y z dtype device = .ok R ∧ IsT R n dtype device ∧ R.kind = .translate ∧ R.device = device ∧
      ∀ i < n, mat R i = mkHom 1 (asVec rd dtype dx (p i)) := by
  obtain ⟨g, hg, hv⟩ := handleInputT_ok h
  rw [T3T.mkTranslate, hg, ok_bind]
  simp only [flatB_shape, List.headD_cons]
  rw [eyes4T_box, ok_bind, castT_flat, setColumn_box (by omega) (by omega), ok_bind, pure_ok]
  refine ⟨_, rfl, ⟨rfl, rfl⟩, rfl, rfl, fun i hi => ?_⟩
  rw [mat_box hi]
  have h0 := hv i hi 0; have h1 := hv i hi 1; have h2 := hv i hi 2
  ext r c
  fin_cases r <;> fin_cases c <;> simp [mkHom, idE, asVec_apply, ← h0, ← h1, ← h2, flTag]

/-- `Scale`: every row is the scaling by its factors, converted to `dtype`. -/
theorem C124_scale {dtype : DType} {device : Device} {x y z : ArgT} {p : ℕ → V3} (h : GivesVecs rd dtype device true x y z n dx w p) :
    ∃ R, T3T.mkScale rd x y z dtype device = .ok R ∧ IsT R n dtype device ∧ R.kind = .scale ∧ R.device = device ∧
      ∀ i < n, mat R i = mkHom (Matrix.diagonal (asVec rd dtype dx (p i))) 0 := by
  obtain ⟨g, hg, hv⟩ := handleInputT_ok h
  rw [T3T.mkScale, hg, ok_bind]
  simp only [flatB_shape, List.headD_cons]
  rw [eyes4T_box, ok_bind, selectLast_flat (by omega), ok_bind, castT_line, setEntries_box (by omega) (by omega), ok_bind,
    selectLast_flat (by omega), ok_bind, castT_line, setEntries_box (by omega) (by omega), ok_bind,
    selectLast_flat (by omega), ok_bind, castT_line, setEntries_box (by omega) (by omega), ok_bind, pure_ok]
  refine ⟨_, rfl, ⟨rfl, rfl⟩, rfl, rfl, fun i hi => ?_⟩
  rw [mat_box hi]
  have h0 := hv i hi 0; have h1 := hv i hi 1; have h2 := hv i hi 2
  ext r c
  fin_cases r <;> fin_cases c <;> simp [mkHom, idE, asVec_apply, ← h0, ← h1, ← h2, flTag]

/-- Numbers of rows that differ, none of them 1: `ValueError` -/
theorem C124_coords_sizes {dtype : DType} {device : Device} {x y z : ArgT} {nx ny nz : ℕ} {wy wz : Device} {f g h : ℕ → ℝ}
    (hx : GivesCoord rd dtype device x nx dx w f) (hy : GivesCoord rd dtype device y ny dy wy g)
    (hz : GivesCoord rd dtype device z nz dz wz h) (hn : ∃ k ∈ [nx, ny, nz], k ≠ 1 ∧ k ≠ max nx (max ny nz)) :
    T3T.mkTranslate rd x y z dtype device = .error .valueError ∧ T3T.mkScale rd x y z dtype device = .error .valueError := by
  have hc : ([lineB (flTag dx w) nx f, lineB (flTag dy wy) ny g, lineB (flTag dz wz) nz h].any fun c =>
      c.shape.headD 0 != 1 && c.shape.headD 0 != max nx (max ny nz)) = true := by
    obtain ⟨k, hk, h1, h2⟩ := hn
    simp only [List.mem_cons, List.not_mem_nil, or_false] at hk
    simp only [List.any_cons, List.any_nil, lineB_shape, List.headD_cons, Bool.or_eq_true, Bool.and_eq_true, bne_iff_ne, Bool.false_eq_true]
    rcases hk with rfl | rfl | rfl
    · exact .inl ⟨h1, h2⟩
    · exact .inr (.inl ⟨h1, h2⟩)
    · exact .inr (.inr (.inl ⟨h1, h2⟩))
  have key : ∀ s, handleInputT rd x y z dtype device s = .error .valueError := by
    intro s
    have h1 : handleInputT.coords rd x y z dtype device s = .error .valueError := by
      have hyz : fillYZ s x y z = (y, z) := by cases hy <;> cases s <;> rfl
      rw [handleInputT.coords, hyz]
      simp only
      rw [handleCoordT_ok hx, ok_bind, handleCoordT_ok hy, ok_bind, handleCoordT_ok hz, ok_bind]
      simp only [lineB_shape, List.headD_cons]
      simp only [hc, if_true]
    refine Eq.trans ?_ h1
    cases hx with
    | num => rfl
    | scalar hh => simp only [handleInputT, hh.1]; rfl
    | line hh => simp only [handleInputT, hh.1]; rfl
  exact ⟨by rw [T3T.mkTranslate, key]; rfl, by rw [T3T.mkScale, key]; rfl⟩

/-- A tensor of shape `(n, k)` with `k ≠ 3`: `ValueError` -/
theorem C124_coords_columns {dtype : DType} {device : Device} {X : Tn ℝ} {y z : ArgT} {k : ℕ} (hX : X.shape = [n, k]) (hk : k ≠ 3) :
    T3T.mkTranslate rd (.ten X) y z dtype device = .error .valueError ∧ T3T.mkScale rd (.ten X) y z dtype device = .error .valueError := by
  have key : ∀ s, handleInputT rd (.ten X) y z dtype device s = .error .valueError := by
    intro s
    simp only [handleInputT, hX]
    simp [hk]
  exact ⟨by rw [T3T.mkTranslate, key]; rfl, by rw [T3T.mkScale, key]; rfl⟩

/-- `Translate(x)` with one coordinate: `TypeError` -/
theorem C124_translate_single {dtype : DType} {device : Device} {x : ArgT} {f : ℕ → ℝ} (hx : GivesCoord rd dtype device x n dx w f) :
    T3T.mkTranslate rd x .none .none dtype device = .error .typeError := by
  have h1 : handleInputT rd x .none .none dtype device false = .error .typeError := by
    have : handleInputT.coords rd x .none .none dtype device false = .error .typeError := by
      rw [handleInputT.coords, show fillYZ false x .none .none = (.none, .none) from rfl]
      simp only
      rw [handleCoordT_ok hx, ok_bind]
      rfl
    refine Eq.trans ?_ this
    cases hx with
    | num => rfl
    | scalar hh => simp only [handleInputT, hh.1]; rfl
    | line hh => simp only [handleInputT, hh.1]; rfl
  rw [T3T.mkTranslate, h1]
  rfl

/-! ## `Rotate` and `RotateAxisAngle` -/

theorem rotate_core {R : Tn ℝ} {mo : Option ℕ} {Q : ℕ → M3} (h : GivesRot (moveT v (castT rd (.fl d) R)) (flTag d v) mo Q) :
    ∃ S, T3T.mkRotate rd R d v = .ok S ∧ IsT S (mo.getD 1) d v ∧ S.kind = .rotate ∧ S.device = v ∧ ∀ i < mo.getD 1, mat S i = mkHom (Q i) 0 := by
  obtain ⟨h1, h2⟩ := rotMatrixT_arg h
  have hval : ∀ (m : ℕ) (g : ℕ → ℕ → ℕ → ℝ), (∀ i < m, ∀ r c : Fin 3, g i r c = Q i r c) → ∀ i < m,
      mat ⟨.rotate, box (flTag d v) m 4 4 fun i j l => if j < 3 ∧ l < 3 then g i j l else idE j l, .fl .f32, v⟩ i = mkHom (Q i) 0 := by
    intro m g hg i hi
    rw [mat_box hi]
    have hh : ∀ r c : ℕ, ∀ hr : r < 3, ∀ hc : c < 3, g i r c = Q i ⟨r, hr⟩ ⟨c, hc⟩ := fun r c hr hc => hg i hi ⟨r, hr⟩ ⟨c, hc⟩
    ext r c
    fin_cases r <;> fin_cases c <;> simp [mkHom, idE, hh]
  rw [T3T.mkRotate]
  have hbox : ∀ (m : ℕ) (g : ℕ → ℕ → ℕ → ℝ), embedRot (box (flTag d v) m 3 3 g) d v =
      .ok ⟨.rotate, box (flTag d v) m 4 4 fun i j l => if j < 3 ∧ l < 3 then g i j l else idE j l, .fl .f32, v⟩ := by
    intro m g
    rw [embedRot]
    simp only [box_shape, List.length_cons, List.length_nil, Nat.zero_add, Nat.reduceAdd, Nat.reduceEqDiff, if_false]
    show (if (3 : ℕ) ≠ 3 ∨ (3 : ℕ) ≠ 3 then _ else _) = _
    rw [if_neg (by simp)]
    show (eyes4T (flTag d v) m >>= _) = _
    rw [eyes4T_box, ok_bind, setBlock_box (by omega) (by omega), ok_bind]
    rfl
  have hview : ∀ q : Tn ℝ, reshapeInfer q [3, 3] ≠ .error .runtimeError → (∀ e, reshapeInfer q [3, 3] ≠ .error e) →
      ∃ z, viewForCheck (moveT v (castT rd (.fl d) R)) q = .ok z := by
    intro q _ hq
    unfold viewForCheck
    split
    · split_ifs
      · rcases e : reshapeInfer q [3, 3] with e' | z
        · exact absurd e (hq e')
        · exact ⟨z, rfl⟩
      · exact ⟨_, rfl⟩
    · exact ⟨_, rfl⟩
  rcases mo with _ | m
  · obtain ⟨g, hg, hv⟩ := h1 rfl
    have hr : reshapeInfer (flatB (flTag d v) 3 3 g) [3, 3] = _ := reshapeInfer_flat (p := 3) (q := 3) (by omega) (by omega)
    obtain ⟨z, hz⟩ := hview (flatB (flTag d v) 3 3 g) (by rw [hr]; simp) (by rw [hr]; simp)
    rw [hg, ok_bind, hz, ok_bind]
    have he : embedRot (flatB (flTag d v) 3 3 g) d v = embedRot (box (flTag d v) 1 3 3 fun _ => g) d v := by
      rw [embedRot, embedRot, if_pos (by rfl), unsqueezeAt_flat, if_neg (by simp)]
    rw [he, hbox]
    exact ⟨_, rfl, ⟨rfl, rfl⟩, rfl, rfl, hval 1 (fun _ => g) fun i hi r c => by
      obtain rfl : i = 0 := by omega
      exact hv r c⟩
  · obtain ⟨g, hg, hv⟩ := h2 m rfl
    have hr : reshapeInfer (box (flTag d v) m 3 3 g) [3, 3] = _ := reshapeInfer_box (p := 3) (q := 3) (by omega) (by omega)
    obtain ⟨z, hz⟩ := hview (box (flTag d v) m 3 3 g) (by rw [hr]; simp) (by rw [hr]; simp)
    rw [hg, ok_bind, hz, ok_bind, hbox]
    exact ⟨_, rfl, ⟨rfl, rfl⟩, rfl, rfl, hval m g hv⟩

/-- `Rotate`: every row is the rotation that the argument gives. -/
theorem C124_rotate {R : Tn ℝ} {mo : Option ℕ} {Q : ℕ → M3} (h : GivesRot R (flTag d v) mo Q) :
    ∃ S, T3T.mkRotate rd R d v = .ok S ∧ IsT S (mo.getD 1) d v ∧ S.kind = .rotate ∧ S.device = v ∧
      ∀ i < mo.getD 1, mat S i = mkHom (Q i) 0 := by
  have ht : R.tag = flTag d v := by
    cases h with
    | quat h => exact h.2
    | quats h => exact h.2
    | euler h => exact h.2
    | eulers h _ => exact h.2
    | matrix h => exact h.2
    | matrices h => exact h.2
  refine rotate_core ?_
  rw [castT_self (by rw [ht]; rfl), moveT_self (by rw [ht]; rfl)]
  exact h

/-- Another dtype or device: the argument is converted first. -/
theorem C124_rotate_converts {R : Tn ℝ} (ht : R.tag = flTag d' w) :
    ∃ R', T3T.mkRotate rd R d v = T3T.mkRotate rd R' d v ∧ R'.shape = R.shape ∧ R'.tag = flTag d v ∧
      ∀ i, ValidIx i R.shape → R'.get i = if d = d' then R.get i else rd d (R.get i) := by
  refine ⟨moveT v (castT rd (.fl d) R), ?_, ?_, ?_, fun i hi => ?_⟩
  · rw [T3T.mkRotate, T3T.mkRotate, castT_self (a := moveT v (castT rd (.fl d) R)) ?_,
      moveT_self (v := v) (a := moveT v (castT rd (.fl d) R)) rfl]
    · show (castT rd (.fl d) R).tag.dt = _
      rw [castT]; split_ifs with h
      · exact h
      · rfl
  · show (castT rd (.fl d) R).shape = _
    rw [castT]; split_ifs <;> rfl
  · show Tag.mk (castT rd (.fl d) R).tag.dt v = _
    rw [castT]; split_ifs with h
    · rw [h]; rfl
    · rfl
  · have hs : (castT rd (.fl d) R).shape = R.shape := by rw [castT]; split_ifs <;> rfl
    refine (ofFn_get (by rw [hs]; exact hi)).trans ?_
    rw [castT, ht]
    by_cases h : d = d'
    · rw [if_pos (by rw [h]; rfl), if_pos h]
    · rw [if_neg (by simpa [flTag] using Ne.symm h), if_neg h]
      exact ofFn_get hi

/-- `RotateAxisAngle`: every row is the rotation by its angle about the axis, which may be a lower-case letter.  The matrix is computed
in the dtype of the angle and then converted to `float32`. -/
theorem C124_rotate_axis_angle {dtype : DType} {device : Device} {angle : ArgT} {f : ℕ → ℝ}
    (h : GivesCoord rd dtype device angle n dx w f) (a : XYZ) (lower degrees : Bool) :
    ∃ S, T3T.mkRotateAxisAngle rd angle [if lower then a.lower else a.upper] degrees dtype device = .ok S ∧ IsT S n .f32 device ∧
      S.kind = .rotate ∧ S.device = device ∧
      ∀ i < n, mat S i = mkHom (asDt rd .f32 dx (elem a (if degrees then f i / 180 * Real.pi else f i))) 0 := by
  have hax : (match [if lower then a.lower else a.upper].map Char.toUpper with
      | [c] => letterAx c | _ => none) = some (axOf a) := by
    cases a <;> cases lower <;> decide
  have hm : ∀ d' : Bool, (if d' then map (fun x => x / 180 * Real.pi) (lineB (flTag dx w) n f) else lineB (flTag dx w) n f) =
      lineB (flTag dx w) n fun i => if d' then f i / 180 * Real.pi else f i := by
    intro d'
    cases d'
    · rfl
    · refine eq_lineB rfl rfl fun i hi => ?_
      refine (ofFn_get (valid1.2 hi)).trans ?_
      rw [lineB_get hi]
      rfl
  have hang : handleAngleT rd dtype device angle = .ok (lineB (flTag dx w) n f) := by
    rw [← handleCoordT_ok h]
    cases h with
    | num => rfl
    | scalar hh => simp only [handleAngleT, hh.1]; rfl
    | line hh => simp only [handleAngleT, hh.1]; rfl
  simp only [List.map_cons, List.map_nil] at hax
  simp only [T3T.mkRotateAxisAngle, List.map_cons, List.map_nil, hax]
  rw [hang, ok_bind, hm]
  have hrot := axisAngleRotation_S dx w [n] (axOf a) fun i => if degrees then f (i.headD 0) / 180 * Real.pi else f (i.headD 0)
  rw [show lineB (flTag dx w) n (fun i => if degrees then f i / 180 * Real.pi else f i) =
    ofFn (flTag dx w) [n] fun i => if degrees then f (i.headD 0) / 180 * Real.pi else f (i.headD 0) from rfl, hrot, ok_bind]
  obtain ⟨R', h1, h2, h3, h4⟩ := C124_rotate_converts (rd := rd) (d := .f32) (v := device) (d' := dx) (w := w)
    (R := ofM (flTag dx w) [n] 3 3 fun i r c => PK.axisAngleRotation (axOf a)
      (if degrees then f (i.headD 0) / 180 * Real.pi else f (i.headD 0)) r c) rfl
  obtain ⟨S, hS, hs⟩ := C124_rotate (rd := rd) (R := R') (.matrices (m := n) ⟨h2, h3⟩)
  refine ⟨S, h1.trans hS, hs.1, hs.2.1, hs.2.2.1, fun i hi => ?_⟩
  rw [hs.2.2.2 i hi]
  congr 1
  ext r c
  have hix : ValidIx ([i] ++ [r.val, c.val]) ([n] ++ [3, 3]) := validIx_two.2 ⟨valid1.2 hi, r.isLt, c.isLt⟩
  refine (h4 _ hix).trans ?_
  rw [ofM_get (valid1.2 hi) r.isLt c.isLt, axisAngleRotation_eq, asDt_apply, conv2_eq]
  rfl

/-- Another axis than one of the letters: `ValueError` -/
theorem C124_rotate_axis_angle_axis {dtype : DType} {device : Device} (angle : ArgT) (axis : List Char) (degrees : Bool)
    (h : ∀ a : XYZ, axis.map Char.toUpper ≠ [a.upper]) :
    T3T.mkRotateAxisAngle rd angle axis degrees dtype device = .error .valueError := by
  unfold T3T.mkRotateAxisAngle
  split
  · rename_i c hc
    have : letterAx c = none := by
      unfold letterAx
      rw [if_neg (fun e => h .x (by rw [hc, e]; rfl)), if_neg (fun e => h .y (by rw [hc, e]; rfl)), if_neg (fun e => h .z (by rw [hc, e]; rfl))]
    rw [this]
  · rfl

/-! ## The methods -/

/-- A method that composes with a transform made on the device of `t` -/
theorem method_core {U : T3T} {mk : Except Err T3T} (hT : IsT T n d v) (hmk : mk = .ok U) (hU : IsT U m d' v) (h : Compat n m) :
    ∃ R, (mk >>= fun u => T.compose rd [u]) = .ok R ∧ IsT R (bsize n m) d v ∧ Honest R ∧ R.kind = .plain ∧
      ∀ i < bsize n m, mat R i = mat T (bcRow n i) * asDt rd d d' (mat U (bcRow m i)) := by
  rw [hmk, ok_bind]
  exact C124_compose hT hU h

/-- `t.translate(…, dtype=dtype)` multiplies with the translation from the right. -/
theorem C124_method_translate {dtype : DType} {x y z : ArgT} {p : ℕ → V3} (hT : IsT T n d v) (hv : T.device = v)
    (hx : GivesVecs rd dtype v false x y z m dx w p) (h : Compat n m) :
    ∃ R, T.translate rd x y z dtype = .ok R ∧ IsT R (bsize n m) d v ∧ Honest R ∧ R.kind = .plain ∧
      ∀ i < bsize n m, mat R i = mat T (bcRow n i) * asDt rd d dtype (mkHom 1 (asVec rd dtype dx (p (bcRow m i)))) := by
  subst hv
  obtain ⟨U, hU, h1, -, -, h2⟩ := C124_translate hx
  obtain ⟨R, hR, a, b, c, e⟩ := method_core (rd := rd) hT hU h1 h
  exact ⟨R, hR, a, b, c, fun i hi => by rw [e i hi, h2 _ (bcRow_lt h hi).2]⟩

/-- `t.scale(…, dtype=dtype)` -/
theorem C124_method_scale {dtype : DType} {x y z : ArgT} {p : ℕ → V3} (hT : IsT T n d v) (hv : T.device = v)
    (hx : GivesVecs rd dtype v true x y z m dx w p) (h : Compat n m) :
    ∃ R, T.scale rd x y z dtype = .ok R ∧ IsT R (bsize n m) d v ∧ Honest R ∧ R.kind = .plain ∧
      ∀ i < bsize n m, mat R i = mat T (bcRow n i) *
        asDt rd d dtype (mkHom (Matrix.diagonal (asVec rd dtype dx (p (bcRow m i)))) 0) := by
  subst hv
  obtain ⟨U, hU, h1, -, -, h2⟩ := C124_scale hx
  obtain ⟨R, hR, a, b, c, e⟩ := method_core (rd := rd) hT hU h1 h
  exact ⟨R, hR, a, b, c, fun i hi => by rw [e i hi, h2 _ (bcRow_lt h hi).2]⟩

/-- `t.rotate(R, dtype=dtype)` -/
theorem C124_method_rotate {dtype : DType} {R : Tn ℝ} {mo : Option ℕ} {Q : ℕ → M3} (hT : IsT T n d v) (hv : T.device = v)
    (hR : GivesRot R (flTag dtype v) mo Q) (h : Compat n (mo.getD 1)) :
    ∃ S, T.rotate rd R dtype = .ok S ∧ IsT S (bsize n (mo.getD 1)) d v ∧ Honest S ∧ S.kind = .plain ∧
      ∀ i < bsize n (mo.getD 1), mat S i = mat T (bcRow n i) * asDt rd d dtype (mkHom (Q (bcRow (mo.getD 1) i)) 0) := by
  subst hv
  obtain ⟨U, hU, h1, -, -, h2⟩ := C124_rotate (rd := rd) hR
  obtain ⟨R, hR, a, b, c, e⟩ := method_core (rd := rd) hT hU h1 h
  exact ⟨R, hR, a, b, c, fun i hi => by rw [e i hi, h2 _ (bcRow_lt h hi).2]⟩

/-- `t.rotate_axis_angle(angle, axis, degrees, dtype=dtype)` -/
theorem C124_method_rotate_axis_angle {dtype : DType} {angle : ArgT} {f : ℕ → ℝ} (hT : IsT T n d v) (hv : T.device = v)
    (ha : GivesCoord rd dtype v angle m dx w f) (a : XYZ) (lower degrees : Bool) (h : Compat n m) :
    ∃ S, T.rotateAxisAngle rd angle [if lower then a.lower else a.upper] degrees dtype = .ok S ∧ IsT S (bsize n m) d v ∧ Honest S ∧
      S.kind = .plain ∧ ∀ i < bsize n m, mat S i = mat T (bcRow n i) * asDt rd d .f32 (mkHom
        (asDt rd .f32 dx (elem a (if degrees then f (bcRow m i) / 180 * Real.pi else f (bcRow m i)))) 0) := by
  subst hv
  obtain ⟨U, hU, h1, -, -, h2⟩ := C124_rotate_axis_angle ha a lower degrees
  obtain ⟨R, hR, p, q, c, e⟩ := method_core (rd := rd) hT hU h1 h
  exact ⟨R, hR, p, q, c, fun i hi => by rw [e i hi, h2 _ (bcRow_lt h hi).2]⟩

/-- `t.to(device, copy, dtype)` of a transform whose attributes are right: the rows converted to `dtype` on `device` -/
theorem C124_to (hT : IsT T n d v) (hh : Honest T) (device : Device) (copy : Bool) (dtype : Option DType) :
    IsT (T.to rd device copy dtype) n (dtype.getD d) device ∧ Honest (T.to rd device copy dtype) ∧
      ∀ i < n, mat (T.to rd device copy dtype) i = asDt rd (dtype.getD d) d (mat T i) := by
  have hd : T.dtype = .fl d := by rw [hh.1, hT.2]; rfl
  have hv : T.device = v := by rw [hh.2, hT.2]; rfl
  have e := eta3 (a := T.matrix) hT.1
  rw [hT.2] at e
  unfold T3T.to
  split_ifs with h
  · obtain ⟨-, h1, h2⟩ := h
    have hg : dtype.getD d = d := by
      rcases h1 with rfl | h1
      · rfl
      · rcases dtype with _ | x
        · rfl
        · rw [hd] at h1
          simpa using h1
    rw [hg, ← h2, hv]
    exact ⟨hT, hh, fun i _ => by rw [asDt, if_pos rfl]⟩
  · rcases dtype with _ | x
    · simp only [Option.getD_none, Option.map_none]
      rw [e, moveT_box]
      refine ⟨⟨rfl, rfl⟩, ⟨by rw [hd]; rfl, rfl⟩, fun i hi => ?_⟩
      rw [mat_box hi, asDt, if_pos rfl]
      rfl
    · simp only [Option.getD_some, Option.map_some]
      rw [e, castT_box', moveT_box]
      refine ⟨⟨rfl, rfl⟩, ⟨rfl, rfl⟩, fun i hi => ?_⟩
      rw [mat_box hi]
      ext r c
      rw [asDt_apply]
      rfl

/-- `t.clone()`: the same rows, dtype and device -/
theorem C124_clone (hT : IsT T n d v) : IsT T.clone n d v ∧ (Honest T → Honest T.clone) ∧ ∀ i, mat T.clone i = mat T i :=
  ⟨hT, fun h => h, fun _ => rfl⟩

end

/-! ## Examples -/

/-- `Translate(tensor([0., 1., 2.]), 5, 0, dtype=float64)`: three rows; the same with a tensor of two entries for `y` is refused. -/
example : let x : Tn ℝ := ofFn (flTag .f32 cpu) [3] fun i => (i.headD 0 : ℝ)
    let y : Tn ℝ := ofFn (flTag .f32 cpu) [2] fun i => (i.headD 0 : ℝ)
    (∃ R, T3T.mkTranslate exRd (.ten x) (.num 5) (.num 0) .f64 cpu = .ok R ∧ IsT R 3 .f64 cpu ∧ mat R 2 = mkHom 1 ![2, 5, 0]) ∧
    T3T.mkTranslate exRd (.ten x) (.ten y) (.num 0) .f64 cpu = .error .valueError ∧
    T3T.mkTranslate exRd (.ten x) .none .none .f64 cpu = .error .typeError ∧
    (∃ R, T3T.mkScale exRd (.ten x) .none .none .f32 cpu = .ok R ∧ IsT R 3 .f32 cpu ∧ mat R 2 = mkHom (Matrix.diagonal fun _ => 2) 0) := by
  intro x y
  have hx : ∀ d, GivesCoord exRd d cpu (.ten x) 3 .f32 cpu fun i => x.get [i] := fun d => .line ⟨rfl, rfl⟩
  have hy : GivesCoord exRd .f64 cpu (.ten y) 2 .f32 cpu fun i => y.get [i] := .line ⟨rfl, rfl⟩
  have e : x.get [2] = 2 := (ofFn_get (valid1.2 (by omega))).trans (by simp)
  have e2 : exRd .f64 5 = 5 := isRounding_exRd.fix _ _ ⟨5, 0, by norm_num [digits], by norm_num⟩
  have e0 : exRd .f64 0 = 0 := isRounding_exRd.fix _ _ floats_zero
  refine ⟨?_, (C124_coords_sizes (hx .f64) hy (.num 0) ⟨2, by simp, by omega, by simp⟩).1, C124_translate_single (hx .f64), ?_⟩
  · obtain ⟨R, h1, h2, -, -, h3⟩ := C124_translate (.coords (hx .f64) (.num 5) (.num 0) (by simp))
    refine ⟨R, h1, h2, ?_⟩
    rw [h3 2 (by simp)]
    congr 1
    funext c
    fin_cases c <;> simp [asVec, wider, bcRow, e, e0, e2]
  · obtain ⟨R, h1, h2, -, -, h3⟩ := C124_scale (.single rfl (hx .f32))
    refine ⟨R, h1, h2, ?_⟩
    rw [h3 2 (by omega), asVec, if_pos rfl]
    simp only [e]

/-- Two transforms and one right angle in degrees: two rows, in the double precision of the first operand. -/
example : ∃ R, exMany.rotateAxisAngle exRd (.num 90) ['z'] true .f32 = .ok R ∧ IsT R 2 .f64 cpu ∧ Honest R := by
  obtain ⟨R, h1, h2, h3, -⟩ := C124_method_rotate_axis_angle (rd := exRd) (dtype := .f32) exMany_isT rfl (.num 90) .z true true
    (.inr (.inr rfl))
  exact ⟨R, h1, h2, h3⟩

example : T3T.mkRotateAxisAngle exRd (.num 90) ['w'] true .f32 cpu = .error .valueError :=
  C124_rotate_axis_angle_axis _ _ _ fun a => by cases a <;> decide

/-- to single precision and another device -/
example : IsT (exMany.to exRd 1 false (some .f32)) 2 .f32 1 ∧ mat (exMany.to exRd 1 false (some .f32)) 1 = mkHom 1 ![1, 0, 0] := by
  obtain ⟨h1, -, h2⟩ := C124_to (rd := exRd) exMany_isT exMany_honest 1 false (some .f32)
  refine ⟨h1, ?_⟩
  rw [h2 1 (by omega), exMany_mat (by omega)]
  have e0 : exRd .f32 0 = 0 := isRounding_exRd.fix _ _ floats_zero
  have e1 : exRd .f32 1 = 1 := isRounding_exRd.fix _ _ floats_one
  ext r c
  simp only [asDt_apply, conv2_eq]
  fin_cases r <;> fin_cases c <;> simp [mkHom, e0, e1, Matrix.one_apply]

end PK
