import Verif.Lemmas.Gauss
import Verif.Props.IKObj
import Mathlib.Probability.Distributions.Uniform

/-!
# C101: the sampled initial configurations have the documented distributions
-/

namespace PK
open MeasureTheory ProbabilityTheory

instance : IsProbabilityMeasure (volume.restrict (Set.Ico (0 : ℝ) 1)) := ⟨by simp⟩
instance (k : ℕ) : IsProbabilityMeasure (randU k) := by unfold randU; infer_instance
instance (n k : ℕ) : IsProbabilityMeasure (randURows n k) := by unfold randURows; infer_instance

/-- a table of draws as the rows of a tensor -/
def tableRows {n k : ℕ} (d : Fin n → Fin k → ℝ) : List (List ℝ) := List.ofFn fun r => List.ofFn (d r)

/-- the entry in row `r` and column `j` -/
def entry (rows : List (List ℝ)) (r j : ℕ) : ℝ := (rows.getD r []).getD j 0

theorem map_uniform {lo hi : ℝ} (h : lo < hi) :
    (volume.restrict (Set.Ico (0 : ℝ) 1)).map (fun u => u * (hi - lo) + lo) = cond volume (Set.Icc lo hi) := by
  have hc : hi - lo ≠ 0 := (sub_pos.2 h).ne'
  have hp := sub_pos.2 h
  have hf : Measurable fun u : ℝ => u * (hi - lo) + lo := by fun_prop
  have hpre : (fun u : ℝ => u * (hi - lo) + lo) ⁻¹' Set.Ico lo hi = Set.Ico 0 1 := by
    ext u
    simp only [Set.mem_preimage, Set.mem_Ico]
    constructor
    · rintro ⟨h1, h2⟩
      exact ⟨by by_contra hu; nlinarith [not_le.1 hu], by by_contra hu; nlinarith [not_lt.1 hu]⟩
    · rintro ⟨h1, h2⟩
      exact ⟨by nlinarith, by nlinarith⟩
  have hv : volume.map (fun u : ℝ => u * (hi - lo) + lo) = ENNReal.ofReal |(hi - lo)⁻¹| • volume := by
    have : (fun u : ℝ => u * (hi - lo) + lo) = (fun x => x + lo) ∘ (fun x => x * (hi - lo)) := rfl
    rw [this, ← Measure.map_map (by fun_prop) (by fun_prop), Real.map_volume_mul_right hc, Measure.map_smul,
      (measurePreserving_add_right volume lo).map_eq]
  rw [← hpre, ← Measure.restrict_map hf measurableSet_Ico, hv, Measure.restrict_smul, ProbabilityTheory.cond, Real.volume_Icc,
    Measure.restrict_congr_set Ico_ae_eq_Icc, abs_of_pos (inv_pos.2 hp), ENNReal.ofReal_inv_of_pos hp]

/-- C101: with the uniform method, one `(low, high)` row per joint and `low < high` everywhere, the constructor succeeds, and
its `num_retries × dof` sampled values are independent, the value of joint `j` uniform on `[low, high]` of that joint. -/
theorem C101_uniform (n k : ℕ) (lim : Fin k → ℝ × ℝ) (h : ∀ j, (lim j).1 < (lim j).2) :
    ∃ f : (Fin n → Fin k → ℝ) → List (List ℝ),
      (∀ d, ikConstruct none (some n) .uniform (some (List.ofFn lim)) k (fun _ => tableRows d) = .ok (.mat k (f d), n)) ∧
      (randURows n k).map (fun d (r : Fin n) (j : Fin k) => entry (f d) r j) =
        Measure.pi fun _ => Measure.pi fun j => cond volume (Set.Icc (lim j).1 (lim j).2) := by
  refine ⟨fun d => (tableRows d).map fun row => List.zipWith (fun u l => u * (l.2 - l.1) + l.1) row (List.ofFn lim), ?_, ?_⟩
  · intro d
    simp [ikConstruct, sampleConfigs, ok_bind, pure_ok, tableRows]
  · have e : (fun (d : Fin n → Fin k → ℝ) (r : Fin n) (j : Fin k) => entry ((tableRows d).map fun row =>
        List.zipWith (fun u l => u * (l.2 - l.1) + l.1) row (List.ofFn lim)) r j) =
        fun d r => (fun (x : Fin k → ℝ) j => x j * ((lim j).2 - (lim j).1) + (lim j).1) (d r) := by
      funext d r j
      simp [entry, tableRows, List.getD_eq_getElem?_getD, List.getElem?_map, List.getElem?_ofFn, List.getElem?_zipWith]
    have hc : ∀ j, IsProbabilityMeasure (cond volume (Set.Icc (lim j).1 (lim j).2)) := fun j => by
      rw [← map_uniform (h j)]; exact Measure.isProbabilityMeasure_map (by fun_prop)
    have h1 : (randU k).map (fun (x : Fin k → ℝ) j => x j * ((lim j).2 - (lim j).1) + (lim j).1) =
        Measure.pi fun j => cond volume (Set.Icc (lim j).1 (lim j).2) := by
      haveI : ∀ j, SigmaFinite ((volume.restrict (Set.Ico (0 : ℝ) 1)).map
        ((fun j (u : ℝ) => u * ((lim j).2 - (lim j).1) + (lim j).1) j)) := fun j => by
          show SigmaFinite ((volume.restrict (Set.Ico (0 : ℝ) 1)).map fun u => u * ((lim j).2 - (lim j).1) + (lim j).1)
          rw [map_uniform (h j)]; infer_instance
      unfold randU
      rw [Measure.pi_map_pi (f := fun j (u : ℝ) => u * ((lim j).2 - (lim j).1) + (lim j).1) fun j => by fun_prop]
      congr 1
      funext j
      exact map_uniform (h j)
    rw [e]
    unfold randURows
    haveI : ∀ _ : Fin n, SigmaFinite ((randU k).map (fun (x : Fin k → ℝ) j => x j * ((lim j).2 - (lim j).1) + (lim j).1)) :=
      fun _ => by rw [h1]; infer_instance
    rw [Measure.pi_map_pi (f := fun _ (x : Fin k → ℝ) j => x j * ((lim j).2 - (lim j).1) + (lim j).1)
      fun _ => (show Measurable _ by fun_prop).aemeasurable]
    congr 1
    funext _
    exact h1

/-- limits of two joints with different ranges -/
example : ∀ j : Fin 2, ((![(-1, 1), (0, 2.5)] : Fin 2 → ℝ × ℝ) j).1 < ((![(-1, 1), (0, 2.5)] : Fin 2 → ℝ × ℝ) j).2 := by
  intro j; fin_cases j <;> norm_num

/-- C101: with the gaussian method the sampled values are independent standard normals, whatever the limits. -/
theorem C101_gaussian (n k : ℕ) (limits : Option (List (ℝ × ℝ))) :
    ∃ f : (Fin n → Fin k → ℝ) → List (List ℝ),
      (∀ d, ikConstruct none (some n) .gaussian limits k (fun _ => tableRows d) = .ok (.mat k (f d), n)) ∧
      (randnRows n k).map (fun d (r : Fin n) (j : Fin k) => entry (f d) r j) = Measure.pi fun _ => Measure.pi fun _ => gaussianReal 0 1 := by
  refine ⟨tableRows, ?_, ?_⟩
  · intro d
    simp [ikConstruct, sampleConfigs, ok_bind, pure_ok, tableRows]
  · have e : (fun (d : Fin n → Fin k → ℝ) (r : Fin n) (j : Fin k) => entry (tableRows d) r j) = id := by
      funext d r j
      simp [entry, tableRows, List.getD_eq_getElem?_getD, List.getElem?_ofFn]
    rw [e, Measure.map_id]
    rfl

/-- C101: with `gaussian_around_config(config, std)` the value of joint `j` is normal with mean `config[j]` and standard
deviation `|std|`, and all values are independent. -/
theorem C101_gaussian_around (n k : ℕ) (config : Fin k → ℝ) (std : ℝ) (limits : Option (List (ℝ × ℝ)))
    (g : ℕ → List (List ℝ)) :
    ∃ f : (Fin n → Fin k → ℝ) → List (List ℝ),
      (∀ d, ikConstruct none (some n) (gaussianAroundConfig (List.ofFn config) std fun _ => tableRows d) limits k g =
        .ok (.mat k (f d), n)) ∧
      (randnRows n k).map (fun d (r : Fin n) (j : Fin k) => entry (f d) r j) =
        Measure.pi fun _ => Measure.pi fun j => gaussianReal (config j) (.mk (std ^ 2) (sq_nonneg std)) := by
  refine ⟨fun d => (tableRows d).map fun row => List.zipWith (fun z c => z * std + c) row (List.ofFn config), ?_, ?_⟩
  · intro d
    simp [ikConstruct, gaussianAroundConfig, sampleConfigs, ok_bind, pure_ok, tableRows]
  · have e : (fun (d : Fin n → Fin k → ℝ) (r : Fin n) (j : Fin k) => entry ((tableRows d).map fun row =>
        List.zipWith (fun z c => z * std + c) row (List.ofFn config)) r j) =
        fun d r => (fun (x : Fin k → ℝ) j => x j * std + config j) (d r) := by
      funext d r j
      simp [entry, tableRows, List.getD_eq_getElem?_getD, List.getElem?_map, List.getElem?_ofFn, List.getElem?_zipWith]
    have h0 : ∀ j, (gaussianReal 0 1).map (fun x => x * std + config j) =
        gaussianReal (config j) (.mk (std ^ 2) (sq_nonneg std)) := fun j => by
      have : (fun x : ℝ => x * std + config j) = (fun x => x + config j) ∘ (fun x => x * std) := rfl
      rw [this, ← Measure.map_map (by fun_prop) (by fun_prop), gaussianReal_map_mul_const, gaussianReal_map_add_const, mul_zero,
        zero_add, mul_one]
    have h1 : (randn k).map (fun (x : Fin k → ℝ) j => x j * std + config j) =
        Measure.pi fun j => gaussianReal (config j) (.mk (std ^ 2) (sq_nonneg std)) := by
      haveI : ∀ j, SigmaFinite ((gaussianReal 0 1).map ((fun j (x : ℝ) => x * std + config j) j)) := fun j => by
        show SigmaFinite ((gaussianReal 0 1).map fun x => x * std + config j)
        rw [h0]; infer_instance
      unfold randn
      rw [Measure.pi_map_pi (f := fun j (x : ℝ) => x * std + config j) fun j => by fun_prop]
      congr 1
      funext j
      exact h0 j
    rw [e]
    unfold randnRows
    haveI : ∀ _ : Fin n, SigmaFinite ((randn k).map (fun (x : Fin k → ℝ) j => x j * std + config j)) :=
      fun _ => by rw [h1]; infer_instance
    rw [Measure.pi_map_pi (f := fun _ (x : Fin k → ℝ) j => x j * std + config j)
      fun _ => (show Measurable _ by fun_prop).aemeasurable]
    congr 1
    funext _
    exact h1

end PK
