import Verif.Lemmas.TapeSmooth
import Verif.Lemmas.Local
import Verif.Lemmas.Exc
import Verif.Lemmas.Good

/-!
# The record of forward kinematics computes forward kinematics
-/

namespace PK.AD
open Finset Sum Spec
open scoped Classical

noncomputable section

theorem jointEntry_smooth {N J B : ℕ} (c : Chain) {ι : Type} (rot : (Fin B × Fin J) × (Fin 3 × Fin 3) → ι)
    (pos : (Fin B × Fin J) × Fin 3 → ι) (p : Poses N B) : (jointEntry c rot pos p).Smooth := by
  unfold jointEntry
  dsimp only
  split_ifs <;> trivial

theorem fkLevels_smooth {N B : ℕ} (par : Fin N → Fin N) (ls : List (List ℕ)) : ∀ {ι : Type} (loc cur : Poses N B → ι),
    (fkLevels par ls loc cur).Smooth := by
  induction ls with
  | nil => intro ι loc cur; trivial
  | cons l ls ih =>
    intro ι loc cur
    refine ⟨fun p => ?_, fun p => ?_, ih _ _⟩ <;> beta_reduce <;> split_ifs <;> trivial

theorem fkProg_smooth (c : Chain) (N J B : ℕ) : (fkProg c N J B).Smooth := by
  refine ⟨fun _ => trivial, fun _ => trivial, fun _ => trivial, fun _ => trivial, fun _ => trivial, fun _ => trivial, fun p => ?_,
    fun _ => trivial, fun p => jointEntry_smooth _ _ _ p, fun _ => trivial, fun _ => trivial, fun p => ?_, fkLevels_smooth _ _ _ _⟩
  · beta_reduce
    split_ifs <;> trivial
  · beta_reduce
    split_ifs <;> trivial

/-! ## Levels -/

/-- one level, with a pose for every frame -/
def levelTot {N B : ℕ} (par : Fin N → Fin N) (L : Fin N → Fin B → M4) (T : Fin N → Fin B → M4) (l : List ℕ) : Fin N → Fin B → M4 :=
  fun f => if (f : ℕ) ∈ l then T (par f) * L f else T f

/-- entries as matrices -/
def mats {N B : ℕ} {ι : Type} (e : ι → ℝ) (q : Poses N B → ι) : Fin N → Fin B → M4 := fun f b i j => e (q (f, b, i, j))

theorem fkLevels_runR {N B : ℕ} (par : Fin N → Fin N) (ls : List (List ℕ)) : ∀ {ι : Type} (loc cur : Poses N B → ι) (e : ι → ℝ) (p : Poses N B),
    (fkLevels par ls loc cur).runR e p = (ls.foldl (levelTot par (mats e loc)) (mats e cur)) p.1 p.2.1 p.2.2.1 p.2.2.2 := by
  induction ls with
  | nil => intro ι loc cur e p; rfl
  | cons l ls ih =>
    intro ι loc cur e p
    rw [fkLevels, Prog.runR_stage (fun q : Poses N B × Fin 4 => if (q.1.1 : ℕ) ∈ l
        then e (cur (par q.1.1, q.1.2.1, q.1.2.2.1, q.2)) * e (loc (q.1.1, q.1.2.1, q.2, q.1.2.2.2)) else 0)
      (fun q => by split_ifs <;> simp [Op.evalR]),
      Prog.runR_stage (fun q : Poses N B => levelTot par (mats e loc) (mats e cur) l q.1 q.2.1 q.2.2.1 q.2.2.2) ?_, ih]
    · rfl
    · intro q
      unfold levelTot
      by_cases h : (q.1 : ℕ) ∈ l
      · simp [h, Op.evalR, mats, Matrix.mul_apply, Fin.sum_univ_four]
        ring
      · simp [h, Op.evalR, mats]

theorem fkTail_runR {N B : ℕ} (par : Fin N → Fin N) (l0 : List ℕ) (ls : List (List ℕ)) {ι : Type} (S : Fin N × Fin 4 × Fin 4 → ι)
    (jt : Poses N B → ι) (e : ι → ℝ) (p : Poses N B) :
    (fkTail par (l0 :: ls) S jt).runR e p
      = (ls.foldl (levelTot par fun f b => (Matrix.of fun i j => e (S (f, i, j))) * mats e jt f b)
        fun f => if (f : ℕ) ∈ l0 then fun b => (Matrix.of fun i j => e (S (f, i, j))) * mats e jt f b else 0) p.1 p.2.1 p.2.2.1 p.2.2.2 := by
  have h2 : ∀ q : Poses N B, ((Matrix.of fun i j => e (S (q.1, i, j))) * mats e jt q.1 q.2.1) q.2.2.1 q.2.2.2
      = ∑ k, e (S (q.1, q.2.2.1, k)) * e (jt (q.1, q.2.1, k, q.2.2.2)) := fun q => rfl
  rw [fkTail, Prog.runR_stage (fun q : Poses N B × Fin 4 => e (S (q.1.1, q.1.2.2.1, q.2)) * e (jt (q.1.1, q.1.2.1, q.2, q.1.2.2.2)))
      (fun q => rfl),
    Prog.runR_stage (fun q : Poses N B => ((Matrix.of fun i j => e (S (q.1, i, j))) * mats e jt q.1 q.2.1) q.2.2.1 q.2.2.2) (fun q => by
      rw [h2]
      simp [Op.evalR, Fin.sum_univ_four]
      ring),
    Prog.runR_stage (fun q : Poses N B => if (q.1 : ℕ) ∈ l0
      then ((Matrix.of fun i j => e (S (q.1, i, j))) * mats e jt q.1 q.2.1) q.2.2.1 q.2.2.2 else 0) (fun q => by
        simp only [List.headD_cons]
        by_cases h : (q.1 : ℕ) ∈ l0
        · simp only [h, if_true, Op.evalR_lin]
          simp
        · simp only [h, if_false, Op.evalR_lin]
          simp), fkLevels_runR]
  have hB : ∀ {σ : Type} (E : σ → ℝ), mats (Sum.elim E fun q : Poses N B => if (q.1 : ℕ) ∈ l0
      then ((Matrix.of fun i j => e (S (q.1, i, j))) * mats e jt q.1 q.2.1) q.2.2.1 q.2.2.2 else 0) inr
      = fun f : Fin N => if (f : ℕ) ∈ l0 then fun b => (Matrix.of fun i j => e (S (f, i, j))) * mats e jt f b else 0 := by
    intro σ E
    funext f
    by_cases h : (f : ℕ) ∈ l0
    · simp only [h, if_true]
      funext b i j
      simp only [mats, Sum.elim_inr, h, if_true]
    · simp only [h, if_false]
      funext b i j
      simp only [mats, Sum.elim_inr, h, if_false]
      rfl
  rw [hB]
  rfl

/-- where the accumulation of `Chain.fkTensor` has written a pose, the total one has the same -/
theorem level_agree {N B : ℕ} (parents : List ℤ) (L : Fin N → Fin B → M4) (ls : List (List ℕ)) : ∀ (T : ℕ → Option (Fin B → M4))
    (T' : Fin N → Fin B → M4), (∀ (f : Fin N) m, T f = some m → T' f = m) →
    ∀ (f : Fin N) m, ls.foldl (levelStep N parents (List.ofFn L)) T f = some m →
      ls.foldl (levelTot (parentFin N parents) L) T' f = m := by
  induction ls with
  | nil => intro T T' h; exact h
  | cons l ls ih =>
    intro T T' h
    simp only [List.foldl_cons]
    apply ih
    intro f m hm
    unfold levelStep at hm
    unfold levelTot
    by_cases hf : (f : ℕ) ∈ l
    · rw [if_pos hf] at hm ⊢
      simp only [Option.bind_eq_bind, Option.bind_eq_some_iff, Option.some.injEq] at hm
      obtain ⟨p, hp, i, hi, a, ha, q, hq, rfl⟩ := hm
      have hiN : i < N := by
        unfold pyIndex at hi
        split_ifs at hi <;> simp only [Option.some.injEq] at hi <;> omega
      have hpar : parentFin N parents f = ⟨i, hiN⟩ := by
        have : parents.getD f (-1) = p := by simp [List.getD, hp]
        simp only [parentFin, this, hi, hiN, dif_pos]
      have hq' : L f = q := by simpa using hq
      rw [hpar, hq', h ⟨i, hiN⟩ a ha]
    · rw [if_neg hf] at hm ⊢
      exact h f m hm

theorem mapM_ok_get {α β : Type} {f : α → Except Err β} : ∀ {l : List α} {r : List β}, l.mapM f = .ok r → ∀ (i : ℕ) (a : α), l[i]? = some a →
    ∃ b, r[i]? = some b ∧ f a = .ok b
  | [], r, _, i, a, ha => by simp at ha
  | x :: l, r, h, i, a, ha => by
    rw [List.mapM_cons] at h
    obtain ⟨y, hy, h⟩ := bind_eq_ok.1 h
    obtain ⟨ys, hys, h⟩ := bind_eq_ok.1 h
    have : r = y :: ys := by cases h; rfl
    subst this
    cases i with
    | zero =>
      have : x = a := by simpa using ha
      subst this
      exact ⟨y, rfl, hy⟩
    | succ i => exact mapM_ok_get hys i a (by simpa using ha)

theorem fkAccum_agree {N B : ℕ} (parents : List ℤ) (L : Fin N → Fin B → M4) (l0 : List ℕ) (ls : List (List ℕ)) {T : List (Fin B → M4)}
    (h : fkAccum N parents (l0 :: ls) (List.ofFn L) = .ok T) (f : Fin N) :
    T.getD f 0 = ls.foldl (levelTot (parentFin N parents) L) (fun f => if (f : ℕ) ∈ l0 then L f else 0) f := by
  simp only [fkAccum] at h
  obtain ⟨b, h1, h2⟩ := mapM_ok_get h f f (by simp)
  rw [List.getD, h1, Option.getD_some]
  symm
  apply level_agree parents L ls (fun i => if i ∈ l0 then (List.ofFn L)[i]? else none)
  · intro f m hm
    by_cases hf : (f : ℕ) ∈ l0
    · simp only [hf, if_true] at hm ⊢
      simpa using hm
    · simp [hf] at hm
  · split at h2
    · rename_i m hm
      rw [hm]
      simpa using h2
    · cases h2

/-! ## Local transforms -/

/-- l.55-78: the transform of one joint -/
def jointMat (c : Chain) {N J B : ℕ} (x : FkIn N J B → ℝ) (f : Fin N) (b : Fin B) : M4 :=
  if hj : c.jointIndicesClamped.getD f 0 < J then
    if c.jointTypeIndices.getD f 0 = 2 then
      axisAndDToPrisMatrix (fun i => x (inr (inr (⟨_, hj⟩, i)))) (x (inl (b, ⟨_, hj⟩)))
    else if c.jointTypeIndices.getD f 0 = 1 then
      axisAndAngleToMatrix44 (fun i => x (inr (inr (⟨_, hj⟩, i)))) (x (inl (b, ⟨_, hj⟩)))
    else 1
  else 1

/-- what `Chain.init` guarantees about the tables -/
structure TablesOk (c : Chain) (N J : ℕ) : Prop where
  frames : c.numFrames = N
  types : c.jointTypeIndices.length = N
  idx : c.jointIndicesClamped.length = N
  rev : c.hasRevolute = c.jointTypeIndices.any (· == 1)
  pris : c.hasPrismatic = c.jointTypeIndices.any (· == 2)
  pos : c.hasRevolute = true ∨ c.hasPrismatic = true → 0 < J
  lt : 0 < J → ∀ f : Fin N, c.jointIndicesClamped.getD f 0 < J

theorem zipWith_ofFn {α β γ : Type} {n : ℕ} (g : α → β → γ) (u : Fin n → α) (v : Fin n → β) :
    List.zipWith g (List.ofFn u) (List.ofFn v) = List.ofFn fun i => g (u i) (v i) := by
  apply List.ext_getElem <;> simp

theorem zip_ofFn {α β : Type} {n : ℕ} (u : Fin n → α) (v : Fin n → β) :
    List.zip (List.ofFn u) (List.ofFn v) = List.ofFn fun i => (u i, v i) := by
  apply List.ext_getElem <;> simp

theorem eq_ofFn {α : Type} {n : ℕ} {l : List α} (h : l.length = n) (d : α) : l = List.ofFn fun i : Fin n => l.getD i d := by
  subst h
  apply List.ext_getElem <;> simp

theorem perFrame_fin {N J B : ℕ} (g : V3 → ℝ → M4) (A : Fin J → V3) (q : Fin J → Fin B → ℝ) (jidx : List ℕ) (hl : jidx.length = N)
    (hj : ∀ f : Fin N, jidx.getD f 0 < J) :
    perFrame g (List.ofFn A) jidx (List.ofFn q) = .ok (List.ofFn fun (f : Fin N) b => g (A ⟨_, hj f⟩) (q ⟨_, hj f⟩ b)) := by
  unfold perFrame
  rw [show broadcastCols (List.ofFn A).length (List.ofFn q) = .ok (List.ofFn q) by simp [broadcastCols], ok_bind]
  simp only [zipWith_ofFn]
  conv_lhs => rw [eq_ofFn hl 0]
  rw [List.ofFn_eq_map (f := fun i : Fin N => jidx.getD i 0), List.ofFn_eq_map (f := fun (f : Fin N) b => g (A ⟨_, hj f⟩) (q ⟨_, hj f⟩ b))]
  have := mapM_ok (List.map (fun i : Fin N => jidx.getD i 0) (List.finRange N)) (fun i => match (List.ofFn fun j b => g (A j) (q j b))[i]? with
    | some m => Except.ok m
    | none => Except.error Err.indexError) (fun i => if h : i < J then fun b => g (A ⟨i, h⟩) (q ⟨i, h⟩ b) else 0) (by
      intro i hi
      obtain ⟨f, -, rfl⟩ := List.mem_map.1 hi
      have := hj f
      simp only [List.getElem?_ofFn, this, dif_pos])
  refine Eq.trans this ?_
  rw [List.map_map]
  congr 1
  apply List.map_congr_left
  intro f _
  have := hj f
  simp only [Function.comp, this, dif_pos]

theorem any_false {l : List ℕ} {n t : ℕ} (h : l.any (· == t) = false) (f : Fin n) (hl : l.length = n) : l.getD f 0 ≠ t := by
  intro hc
  have hf : (f : ℕ) < l.length := by omega
  have : l.any (· == t) = true := by
    rw [List.any_eq_true]
    refine ⟨l[f], List.getElem_mem _, ?_⟩
    simp only [List.getD, List.getElem?_eq_getElem hf, Option.getD_some] at hc
    simpa using hc
  rw [h] at this
  cases this

theorem localTransforms_params {c : Chain} {N J B : ℕ} (h : TablesOk c N J) (x : FkIn N J B → ℝ) :
    (withParams c x).localTransforms (List.ofFn fun j b => x (inl (b, j)))
      = .ok (List.ofFn fun f b => (Matrix.of fun i j => x (inr (inl (f, i, j)))) * jointMat c x f b) := by
  have hty : c.jointTypeIndices = List.ofFn fun f : Fin N => c.jointTypeIndices.getD f 0 := eq_ofFn h.types 0
  have heye : List.replicate N (1 : Fin B → M4) = List.ofFn fun _ : Fin N => 1 := by simp
  have hfin : ∀ Jt : Fin N → Fin B → M4, (∀ f b, Jt f b = jointMat c x f b) →
      (Except.ok (List.zipWith (fun o j => fun b => o * j b) (withParams c x).staticOffsets (List.ofFn Jt)) :
        Except Err (List (Fin B → M4))) = .ok (List.ofFn fun f b => (Matrix.of fun i j => x (inr (inl (f, i, j)))) * jointMat c x f b) := by
    intro Jt hJ
    have : Jt = fun f b => jointMat c x f b := by funext f b; exact hJ f b
    rw [this]
    show Except.ok (List.zipWith (fun o j => fun b => o * j b) (List.ofFn fun f => (Matrix.of fun i j => x (inr (inl (f, i, j))) : M4))
      (List.ofFn fun f b => jointMat c x f b)) = _
    rw [zipWith_ofFn]
  have hlen : (List.ofFn fun (j : Fin J) (b : Fin B) => x (inl (b, j))).length = J := by simp
  unfold Chain.localTransforms
  have e1 : (withParams c x).hasRevolute = c.hasRevolute := rfl
  have e2 : (withParams c x).hasPrismatic = c.hasPrismatic := rfl
  have e3 : (withParams c x).numFrames = N := h.frames
  have e4 : (withParams c x).jointTypeIndices = c.jointTypeIndices := rfl
  have e5 : (withParams c x).jointIndicesClamped = c.jointIndicesClamped := rfl
  have e6 : (withParams c x).axes = List.ofFn fun j i => x (inr (inr (j, i))) := rfl
  rw [e1, e2, e3, e4, e5, e6, hlen, heye]
  cases hR : c.hasRevolute <;> cases hP : c.hasPrismatic
  · simp only [Bool.false_eq_true, and_false, if_false, Bool.false_and]
    refine hfin (fun _ => 1) ?_
    intro f b
    have h1 := any_false (h.rev.symm.trans hR) f h.types
    have h2 := any_false (h.pris.symm.trans hP) f h.types
    simp only [jointMat, h1, h2, if_false]
    split_ifs <;> rfl
  · have hJ : 0 < J := h.pos (Or.inr hP)
    simp only [Bool.false_eq_true, and_false, if_false, Bool.false_and, hJ, and_self, if_true, Bool.true_and, Bool.not_false]
    rw [perFrame_fin _ _ _ _ h.idx (h.lt hJ), hty]
    simp only [Functor.map, Except.map, pure_ok, ok_bind, bound]
    rw [zip_ofFn, zipWith_ofFn]
    refine hfin _ ?_
    intro f b
    have h1 := any_false (h.rev.symm.trans hR) f h.types
    simp only [jointMat, h.lt hJ f, dif_pos, h1, if_false]
    split_ifs <;> rfl
  · have hJ : 0 < J := h.pos (Or.inl hR)
    simp only [Bool.false_eq_true, and_false, if_false, Bool.false_and, hJ, and_self, if_true, Bool.true_and, Bool.not_false]
    rw [perFrame_fin _ _ _ _ h.idx (h.lt hJ), hty]
    simp only [Functor.map, Except.map, pure_ok, ok_bind, bound]
    rw [zip_ofFn, zipWith_ofFn]
    refine hfin _ ?_
    intro f b
    have h1 := any_false (h.pris.symm.trans hP) f h.types
    simp only [jointMat, h.lt hJ f, dif_pos, h1, if_false]
    split_ifs <;> rfl
  · have hJ : 0 < J := h.pos (Or.inl hR)
    simp only [Bool.false_eq_true, and_false, if_false, Bool.false_and, hJ, and_self, if_true, Bool.true_and, Bool.not_true, Bool.and_false]
    rw [perFrame_fin _ _ _ _ h.idx (h.lt hJ), perFrame_fin _ _ _ _ h.idx (h.lt hJ), hty]
    simp only [Functor.map, Except.map, pure_ok, ok_bind, bound]
    rw [zip_ofFn, zipWith_ofFn, zip_ofFn, zipWith_ofFn]
    refine hfin _ ?_
    intro f b
    simp only [jointMat, h.lt hJ f, dif_pos]
    split_ifs <;> rfl

theorem tablesOk_init (root : Frame) : TablesOk (Chain.init root) (Chain.init root).numFrames (Chain.init root).nJoints := by
  have hmv : ∀ e ∈ visit root, Moving e.1.joint → 0 < (movingJoints root).length := fun e he hm =>
    lt_of_le_of_lt (Nat.zero_le _) (column_lt he hm)
  refine ⟨rfl, by rw [init_types, init_numFrames]; simp, by rw [init_clamped, init_numFrames]; simp, rfl, rfl, ?_, ?_⟩
  · rw [init_nJoints]
    rintro (h | h)
    · obtain ⟨e, he, ht⟩ := (init_hasRevolute root).1 h
      exact hmv e he (by simp [Moving, ht])
    · obtain ⟨e, he, ht⟩ := (init_hasPrismatic root).1 h
      exact hmv e he (by simp [Moving, ht])
  · intro hJ f
    rw [init_nJoints] at hJ ⊢
    have hf : (f : ℕ) < (visit root).length := lt_of_lt_of_eq f.2 (init_numFrames root)
    rw [init_clamped]
    simp only [List.getD, List.getElem?_map, List.getElem?_eq_getElem hf, Option.map_some, Option.getD_some]
    split_ifs with hc
    · exact hJ
    · exact column_lt (List.getElem_mem hf) hc

/-! ## The record -/

theorem aa33_entry (a : V3) (t : ℝ) (i j : Fin 3) : axisAndAngleToMatrix33 a t i j
    = if i = j then Real.cos t + a i * a j * (1 - Real.cos t)
      else a i * a j * (1 - Real.cos t) + ((aa33Sin (i, j)).map fun s => s.1 * (a s.2 * Real.sin t)).sum := by
  fin_cases i <;> fin_cases j <;> simp [axisAndAngleToMatrix33, aa33Sin] <;> ring

theorem pris_entry (a : V3) (d : ℝ) (i j : Fin 4) : axisAndDToPrisMatrix a d i j
    = if h : (i : ℕ) < 3 ∧ (j : ℕ) = 3 then a ⟨i, h.1⟩ * d else if i = j then 1 else 0 := by
  fin_cases i <;> fin_cases j <;> simp [axisAndDToPrisMatrix, hom]

theorem rev_entry (a : V3) (t : ℝ) (i j : Fin 4) : axisAndAngleToMatrix44 a t i j
    = if h : (i : ℕ) < 3 ∧ (j : ℕ) < 3 then axisAndAngleToMatrix33 a t ⟨i, h.1⟩ ⟨j, h.2⟩ else if i = j then 1 else 0 := by
  fin_cases i <;> fin_cases j <;> simp [axisAndAngleToMatrix44, hom]

theorem fkProg_runR (c : Chain) (N J B : ℕ) (x : FkIn N J B → ℝ) (l0 : List ℕ) (ls : List (List ℕ)) (hl : c.bfsLevels = l0 :: ls)
    (p : Poses N B) : (fkProg c N J B).runR x p =
      (ls.foldl (levelTot (parentFin N c.directParentIdx) fun f b => (Matrix.of fun i j => x (inr (inl (f, i, j)))) * jointMat c x f b)
        fun f => if (f : ℕ) ∈ l0 then fun b => (Matrix.of fun i j => x (inr (inl (f, i, j)))) * jointMat c x f b else 0)
        p.1 p.2.1 p.2.2.1 p.2.2.2 := by
  unfold fkProg
  rw [Prog.runR_stage (fun q : Fin B × Fin J => Real.cos (x (inl q))) (fun q => rfl),
    Prog.runR_stage (fun q : Fin B × Fin J => 1 - Real.cos (x (inl q))) (fun q => by simp [Op.evalR_lin]; ring),
    Prog.runR_stage (fun q : Fin B × Fin J => Real.sin (x (inl q))) (fun q => rfl),
    Prog.runR_stage (fun q : (Fin B × Fin J) × (Fin 3 × Fin 3) => x (inr (inr (q.1.2, q.2.1))) * x (inr (inr (q.1.2, q.2.2)))) (fun q => rfl),
    Prog.runR_stage (fun q : (Fin B × Fin J) × (Fin 3 × Fin 3) => x (inr (inr (q.1.2, q.2.1))) * x (inr (inr (q.1.2, q.2.2)))
      * (1 - Real.cos (x (inl q.1)))) (fun q => rfl),
    Prog.runR_stage (fun q : (Fin B × Fin J) × Fin 3 => x (inr (inr (q.1.2, q.2))) * Real.sin (x (inl q.1))) (fun q => rfl),
    Prog.runR_stage (fun q : (Fin B × Fin J) × (Fin 3 × Fin 3) =>
      axisAndAngleToMatrix33 (fun i => x (inr (inr (q.1.2, i)))) (x (inl q.1)) q.2.1 q.2.2) (fun q => by
        rw [aa33_entry]
        by_cases h : q.2.1 = q.2.2
        · rw [if_pos h, if_pos h, Op.evalR_lin]
          simp
        · rw [if_neg h, if_neg h, Op.evalR_lin]
          simp [Function.comp_def]),
    Prog.runR_stage (fun q : (Fin B × Fin J) × Fin 3 => x (inr (inr (q.1.2, q.2))) * x (inl q.1)) (fun q => rfl),
    Prog.runR_stage (fun q : Poses N B => jointMat c x q.1 q.2.1 q.2.2.1 q.2.2.2) ?_, hl, fkTail_runR]
  · rfl
  · intro q
    obtain ⟨f, b, i, j⟩ := q
    by_cases h1 : c.jointIndicesClamped.getD f 0 < J
    · by_cases h2 : c.jointTypeIndices.getD f 0 = 2
      · simp only [jointEntry, jointMat, dif_pos h1, if_pos h2, pris_entry]
        by_cases h3 : (i : ℕ) < 3 ∧ (j : ℕ) = 3
        · rw [dif_pos h3, dif_pos h3, Op.evalR_lin]
          simp
        · rw [dif_neg h3, dif_neg h3, Op.evalR_lin]
          simp
      · by_cases h4 : c.jointTypeIndices.getD f 0 = 1
        · simp only [jointEntry, jointMat, dif_pos h1, if_neg h2, if_pos h4, rev_entry]
          by_cases h3 : (i : ℕ) < 3 ∧ (j : ℕ) < 3
          · rw [dif_pos h3, dif_pos h3, Op.evalR_lin]
            simp
          · rw [dif_neg h3, dif_neg h3, Op.evalR_lin]
            simp
        · simp only [jointEntry, jointMat, dif_pos h1, if_neg h2, if_neg h4, Op.evalR_lin]
          simp [Matrix.one_apply]
    · simp only [jointEntry, jointMat, dif_neg h1, Op.evalR_lin]
      simp [Matrix.one_apply]

theorem fkOf_eq (root : Frame) (B : ℕ) (x : FkIn (Chain.init root).numFrames (Chain.init root).nJoints B → ℝ) :
    (∃ T, (withParams (Chain.init root) x).fkTensor (List.ofFn fun j b => x (inl (b, j))) = .ok T) ∧
    fkOf (Chain.init root) x = (fkProg (Chain.init root) _ _ B).runR x := by
  have hloc := localTransforms_params (tablesOk_init root) x
  have hN := init_numFrames root
  obtain ⟨T, hT⟩ : ∃ T, (withParams (Chain.init root) x).fkTensor (List.ofFn fun j b => x (inl (b, j))) = .ok T := by
    unfold Chain.fkTensor
    rw [hloc, ok_bind]
    show ∃ T, fkAccum (Chain.init root).numFrames (Chain.init root).directParentIdx (Chain.init root).bfsLevels _ = .ok T
    rw [init_directParents, init_bfsLevels]
    have hlen : (List.ofFn fun (f : Fin (Chain.init root).numFrames) (b : Fin B) =>
        (Matrix.of fun i j => x (inr (inl (f, i, j)))) * jointMat (Chain.init root) x f b).length = (visit root).length := by simp [hN]
    generalize (List.ofFn fun (f : Fin (Chain.init root).numFrames) (b : Fin B) =>
        (Matrix.of fun i j => x (inr (inl (f, i, j)))) * jointMat (Chain.init root) x f b) = L at hlen
    exact ⟨_, (congrArg (fun n => fkAccum n _ _ L) hN).trans (fkAccum_visit root L hlen)⟩
  refine ⟨⟨T, hT⟩, ?_⟩
  funext p
  simp only [fkOf, hT]
  obtain ⟨l0, ls, hl⟩ : ∃ l0 ls, (Chain.init root).bfsLevels = l0 :: ls := by
    rw [init_bfsLevels, bfsLevelsOf_eq]; exact ⟨_, _, rfl⟩
  rw [fkProg_runR _ _ _ _ _ l0 ls hl]
  unfold Chain.fkTensor at hT
  rw [hloc, ok_bind] at hT
  have hT' : fkAccum (Chain.init root).numFrames (Chain.init root).directParentIdx (l0 :: ls) _ = .ok T := hl ▸ hT
  rw [fkAccum_agree _ _ l0 ls hT' p.1]

end
end PK.AD
