import Verif.Model.IKObj
import Verif.Props.IKSol

/-!
# C88, C89: reuse of a solver object; sampled initial configurations
-/

namespace PK
open Classical

variable {N R d : ℕ}

theorem after_params (o : IKObj R d) (hist : List (Σ N, Eval N d)) :
    (o.after hist).params = o.params ∧ (o.after hist).initial = o.initial := by
  induction hist generalizing o with
  | nil => exact ⟨rfl, rfl⟩
  | cons h rest ih =>
    obtain ⟨n, ev⟩ := h
    rw [IKObj.after]
    cases hs : o.solve ev with
    | error e => exact ih o.clear
    | ok x =>
      obtain ⟨sol, o'⟩ := x
      unfold IKObj.solve at hs
      simp only [IKObj.clear] at hs
      cases hr : o.initial.start d n R with
      | error e => rw [hr] at hs; simp only [error_bind] at hs; cases hs
      | ok rows =>
        rw [hr] at hs
        simp only [IKObj.found, ok_bind, pure_ok] at hs
        cases hs
        exact ih _

/-- C88: whatever problems (any numbers of targets, solvable or not) a solver has been used for before, a call gives what a
new solver gives, which is the run of C49–C62 from the starting rows. -/
theorem C88_reuse (o : IKObj R d) (hist : List (Σ N, Eval N d)) (ev : Eval N d) :
    (((o.after hist).solve ev).map Prod.fst = (({ o with progress := none } : IKObj R d).solve ev).map Prod.fst) ∧
    ((o.after hist).solve ev).map Prod.fst =
      (o.initial.start d N R).map (fun rows => o.params.solve ev (startTable N R d rows)) := by
  have key : ∀ o' : IKObj R d, (o'.solve ev).map Prod.fst =
      (o'.initial.start d N R).map (fun rows => o'.params.solve ev (startTable N R d rows)) := by
    intro o'
    unfold IKObj.solve
    simp only [IKObj.clear]
    cases hr : o'.initial.start d N R with
    | error e => simp only [error_bind, Except.map]
    | ok rows =>
      simp only [IKObj.found, ok_bind, pure_ok, Except.map]
      rfl
  obtain ⟨h1, h2⟩ := after_params o hist
  rw [key, key, h1, h2]
  exact ⟨rfl, rfl⟩

/-- the state does survive calls: after solving one problem with stopping rule "any" the counters are there -/
example : ((⟨⟨fun _ => .ninf, fun _ => .pinf, fun _ => true, 1e-3, 1e-2, 1, 1, none, false, some .any, 2, false, 3, false⟩,
    .mat 1 [[0]], none⟩ : IKObj 1 1).after [⟨1, fun _ _ => (fun _ => .fin 1, fun _ => .fin 1)⟩]).progress.isSome = true := by
  simp only [IKObj.after, IKObj.solve, RetryArg.start, IKObj.clear, IKObj.found, ok_bind, pure_ok, List.length_cons,
    List.length_nil, if_true, IKParams.loop]
  rw [if_pos ⟨0, rfl⟩]
  rfl

/-- C89: with the uniform method and one `(low, high)` row per joint, `num_retries` configurations are drawn and every
entry lies within the limits of its joint. -/
theorem C89_uniform_within_limits (ls : List (ℝ × ℝ)) (hle : ∀ l ∈ ls, l.1 ≤ l.2) (n : ℕ) (draws : ℕ → List (List ℝ))
    (hn : (draws n).length = n) (hd : ∀ row ∈ draws n, row.length = ls.length ∧ ∀ u ∈ row, 0 ≤ u ∧ u < 1) :
    ∃ rows, ikConstruct none (some n) .uniform (some ls) ls.length draws = .ok (.mat ls.length rows, n) ∧ rows.length = n ∧
      ∀ row ∈ rows, row.length = ls.length ∧ ∀ (j : ℕ) (x : ℝ) (l : ℝ × ℝ), row[j]? = some x → ls[j]? = some l → l.1 ≤ x ∧ x ≤ l.2 := by
  refine ⟨_, by simp only [ikConstruct, sampleConfigs, if_true, ok_bind, pure_ok, List.length_map, hn]; rfl, by simp [hn], ?_⟩
  intro row hrow
  obtain ⟨u, hu, rfl⟩ := List.mem_map.1 hrow
  obtain ⟨h1, h2⟩ := hd u hu
  refine ⟨by simp [h1], fun j x l hx hl => ?_⟩
  rw [List.getElem?_zipWith, hl] at hx
  cases hj : u[j]? with
  | none => rw [hj] at hx; simp at hx
  | some a =>
    rw [hj] at hx
    simp only [Option.some.injEq] at hx
    obtain ⟨a0, a1⟩ := h2 a (List.mem_of_getElem? hj)
    have := hle l (List.mem_of_getElem? hl)
    constructor <;> nlinarith

example : ∃ rows, ikConstruct none (some 2) .uniform (some [(-1, 1), (0, 3)]) 2 (fun _ => [[0, 0.5], [0.25, 0]]) =
    .ok (.mat 2 rows, 2) := by
  obtain ⟨rows, h, -⟩ := C89_uniform_within_limits [(-1, 1), (0, 3)] (by simp) 2 (fun _ => [[0, 0.5], [0.25, 0]]) rfl
    (by norm_num)
  exact ⟨rows, h⟩

/-- C89: `gaussian_around_config(config, std)` displaces the configuration by `std` times the draws, entry by entry. -/
theorem C89_gaussian_around (config : List ℝ) (std : ℝ) (n : ℕ) (limits : Option (List (ℝ × ℝ))) (draws g : ℕ → List (List ℝ))
    (hn : (draws n).length = n) :
    ∃ rows, ikConstruct none (some n) (gaussianAroundConfig config std draws) limits config.length g = .ok (.mat config.length rows, n) ∧
      rows.length = n ∧ ∀ (k j : ℕ) (row : List ℝ) (z c : ℝ), (draws n)[k]? = some row → row[j]? = some z → config[j]? = some c →
        ∃ out, rows[k]? = some out ∧ out[j]? = some (c + std * z) := by
  refine ⟨_, by
    simp only [ikConstruct, gaussianAroundConfig, sampleConfigs, ok_bind, pure_ok, List.length_map, hn]; rfl, by simp [hn], ?_⟩
  intro k j row z c h1 h2 h3
  refine ⟨_, by rw [List.getElem?_map, h1]; rfl, ?_⟩
  simp [List.getElem?_zipWith, h2, h3]; ring

/-- C89: when the constructor raises. Without configurations and without a number of retries, for the uniform method without
limits, and for an unknown method: ValueError; given configurations are never sampled. -/
theorem C89_constructor_errors (dof n : ℕ) (method : Sampling) (limits : Option (List (ℝ × ℝ))) (num : Option ℕ)
    (draws : ℕ → List (List ℝ)) (a : RetryArg) :
    ikConstruct none none method limits dof draws = .error .valueError ∧
    ikConstruct none (some n) .uniform none dof draws = .error .valueError ∧
    ikConstruct none (some n) .other limits dof draws = .error .valueError ∧
    ikConstruct (some a) num method limits dof draws = (a.check dof).map fun r => (a, r) := by
  refine ⟨rfl, rfl, rfl, ?_⟩
  simp only [ikConstruct]
  cases a.check dof <;> rfl

/-- C89 with the assignment of C62: retry `r` of every problem starts at the `r`-th sampled configuration. -/
theorem C89_start_of_samples (ls : List (ℝ × ℝ)) (hls : ls ≠ []) (n M : ℕ) (draws : ℕ → List (List ℝ)) (hn : (draws n).length = n)
    (a : RetryArg) (R : ℕ) (h : ikConstruct none (some n) .uniform (some ls) ls.length draws = .ok (a, R)) :
    R = n ∧ ∃ rows start, a = .mat ls.length rows ∧ a.start ls.length M R = .ok start ∧
      start.length = M * R ∧ (∀ i < M, ∀ r < R, start[i * R + r]? = rows[r]?) ∧
      ∀ (i : Fin M) (r : Fin R) (j : Fin ls.length) (row : List ℝ) (x : ℝ), rows[r.val]? = some row → row[j.val]? = some x →
        startTable M R ls.length start i r j = .fin x := by
  simp only [ikConstruct, sampleConfigs, if_true, ok_bind, pure_ok, List.length_map, hn, Except.ok.injEq, Prod.mk.injEq] at h
  obtain ⟨rfl, rfl⟩ := h
  obtain ⟨-, -, start, h1, h2, h3⟩ := C62_start_rows_partial ls.length ls.length M (List.length_pos_iff.2 hls)
    ((draws n).map fun row => List.zipWith (fun u l => u * (l.2 - l.1) + l.1) row ls)
  simp only [List.length_map, hn] at h1 h2 h3
  refine ⟨rfl, _, start, rfl, h1, h2, h3, fun i r j row x hr hx => ?_⟩
  have := h3 i i.2 r r.2
  simp only [startTable, List.getD, this, hr, hx, Option.getD_some]

/-- C89: a single row of limits serves every joint. -/
theorem C89_uniform_common_limits (l : ℝ × ℝ) (hle : l.1 ≤ l.2) (n d : ℕ) (draws : ℕ → List (List ℝ))
    (hn : (draws n).length = n) (hd : ∀ row ∈ draws n, row.length = d ∧ ∀ u ∈ row, 0 ≤ u ∧ u < 1) :
    ∃ rows, ikConstruct none (some n) .uniform (some [l]) d draws = .ok (.mat d rows, n) ∧ rows.length = n ∧
      ∀ row ∈ rows, row.length = d ∧ ∀ x ∈ row, l.1 ≤ x ∧ x ≤ l.2 := by
  have key : ∀ u : ℝ, 0 ≤ u → u < 1 → l.1 ≤ u * (l.2 - l.1) + l.1 ∧ u * (l.2 - l.1) + l.1 ≤ l.2 := fun u h0 h1 =>
    ⟨by nlinarith, by nlinarith⟩
  by_cases h1 : d = 1
  · subst h1
    refine ⟨(draws n).map fun row => List.zipWith (fun u l => u * (l.2 - l.1) + l.1) row [l], ?_, by simp [hn], ?_⟩
    · simp [ikConstruct, sampleConfigs, hn]
    · intro row hrow
      obtain ⟨u, hu, rfl⟩ := List.mem_map.1 hrow
      obtain ⟨h1, h2⟩ := hd u hu
      obtain ⟨a, rfl⟩ := List.length_eq_one_iff.1 h1
      refine ⟨by simp, fun x hx => ?_⟩
      simp only [List.zipWith_cons_cons, List.zipWith_nil_left, List.mem_singleton] at hx
      subst hx
      exact key a (h2 a (by simp)).1 (h2 a (by simp)).2
  · refine ⟨(draws n).map fun row => row.map fun u => u * (l.2 - l.1) + l.1, ?_, by simp [hn], ?_⟩
    · have : ¬ [l].length = d := by simpa using fun h => h1 h.symm
      simp only [ikConstruct, sampleConfigs, if_neg this, ok_bind, pure_ok, List.length_map, hn]
    · intro row hrow
      obtain ⟨u, hu, rfl⟩ := List.mem_map.1 hrow
      obtain ⟨h1, h2⟩ := hd u hu
      refine ⟨by simp [h1], fun x hx => ?_⟩
      obtain ⟨a, ha, rfl⟩ := List.mem_map.1 hx
      exact key a (h2 a ha).1 (h2 a ha).2

example : ∃ rows, ikConstruct none (some 2) .uniform (some [(-1, 1)]) 3 (fun _ => [[0, 0.5, 0.1], [0.25, 0, 0.9]]) =
    .ok (.mat 3 rows, 2) := by
  obtain ⟨rows, h, -⟩ := C89_uniform_common_limits (-1, 1) (by norm_num) 2 3
    (fun _ => [[0, 0.5, 0.1], [0.25, 0, 0.9]]) rfl (by norm_num)
  exact ⟨rows, h⟩

end PK
