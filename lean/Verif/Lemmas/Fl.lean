import Verif.Model.Fl
import Mathlib.Tactic.Linarith

/-! # Extended scalars -/

namespace PK
namespace Fl

@[simp] theorem nan_not_le (x : Fl) : ¬ le nan x := by cases x <;> simp [le]
@[simp] theorem not_le_nan (x : Fl) : ¬ le x nan := by cases x <;> simp [le]
@[simp] theorem le_fin (x y : ℝ) : le (fin x) (fin y) ↔ x ≤ y := Iff.rfl
@[simp] theorem ninf_le_fin (x : ℝ) : le ninf (fin x) := trivial
@[simp] theorem ninf_le_ninf : le ninf ninf := trivial
@[simp] theorem ninf_le_pinf : le ninf pinf := trivial
@[simp] theorem fin_le_pinf (x : ℝ) : le (fin x) pinf := trivial
@[simp] theorem pinf_le_pinf : le pinf pinf := trivial
@[simp] theorem not_fin_le_ninf (x : ℝ) : ¬ le (fin x) ninf := fun h => h
@[simp] theorem not_pinf_le_ninf : ¬ le pinf ninf := fun h => h
@[simp] theorem not_pinf_le_fin (x : ℝ) : ¬ le pinf (fin x) := fun h => h
@[simp] theorem lt_fin (x y : ℝ) : lt (fin x) (fin y) ↔ x < y := Iff.rfl
@[simp] theorem nan_not_lt (x : Fl) : ¬ lt nan x := by cases x <;> simp [lt]
@[simp] theorem not_lt_nan (x : Fl) : ¬ lt x nan := by cases x <;> simp [lt]

@[simp] theorem max_fin (x y : ℝ) : max (fin x) (fin y) = fin (Max.max x y) := by
  simp only [max, lt_fin]
  split_ifs with h
  · rw [max_eq_right h.le]
  · rw [max_eq_left (not_lt.1 h)]
@[simp] theorem min_fin (x y : ℝ) : min (fin x) (fin y) = fin (Min.min x y) := by
  simp only [min, lt_fin]
  split_ifs with h
  · rw [min_eq_right h.le]
  · rw [min_eq_left (not_lt.1 h)]
@[simp] theorem max_nan_left (x : Fl) : max nan x = nan := by cases x <;> rfl
@[simp] theorem max_nan_right (x : Fl) : max x nan = nan := by cases x <;> rfl
@[simp] theorem min_nan_left (x : Fl) : min nan x = nan := by cases x <;> rfl
@[simp] theorem min_nan_right (x : Fl) : min x nan = nan := by cases x <;> rfl
@[simp] theorem max_ninf_left {x : Fl} : max ninf x = x := by cases x <;> simp [max, lt]
@[simp] theorem max_ninf_right {x : Fl} : max x ninf = x := by cases x <;> simp [max, lt]
@[simp] theorem min_pinf_left {x : Fl} : min pinf x = x := by cases x <;> simp [min, lt]
@[simp] theorem min_pinf_right {x : Fl} : min x pinf = x := by cases x <;> simp [min, lt]
@[simp] theorem max_pinf_fin (x : ℝ) : max pinf (fin x) = pinf := by simp [max, lt]
@[simp] theorem max_fin_pinf (x : ℝ) : max (fin x) pinf = pinf := by simp [max, lt]
@[simp] theorem max_pinf_pinf : max pinf pinf = pinf := by simp [max, lt]
@[simp] theorem min_ninf_fin (x : ℝ) : min ninf (fin x) = ninf := by simp [min, lt]
@[simp] theorem min_fin_ninf (x : ℝ) : min (fin x) ninf = ninf := by simp [min, lt]
@[simp] theorem min_ninf_ninf : min ninf ninf = ninf := by simp [min, lt]

theorem clamp_mem {x lo hi : Fl} (hx : x ≠ nan) (h : le lo hi) : le lo (clamp x lo hi) ∧ le (clamp x lo hi) hi := by
  cases lo <;> cases hi <;> cases x <;> simp_all [clamp]

theorem clamp_of_mem {x lo hi : Fl} (h1 : le lo x) (h2 : le x hi) : clamp x lo hi = x := by
  cases lo <;> cases hi <;> cases x <;> simp_all [clamp]

theorem clamp_unlimited (x : Fl) : clamp x ninf pinf = x := by
  cases x <;> simp [clamp]

theorem clamp_idem (x lo hi : Fl) : clamp (clamp x lo hi) lo hi = clamp x lo hi := by
  cases lo <;> cases hi <;> cases x <;> simp [clamp]
  simp only [min_def, max_def]
  split_ifs <;> linarith

theorem clamp_nan (lo hi : Fl) : clamp nan lo hi = nan := by
  cases lo <;> cases hi <;> simp [clamp]

end Fl
end PK
