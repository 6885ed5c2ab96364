import Verif.Model.TapeFk
import Verif.Lemmas.TapeOps
import Verif.Spec.Gradient

/-!
# Records of sums, products, sines and cosines

They are differentiable everywhere, and so are the records of their backward passes.
-/

namespace PK.AD
open Asymptotics Filter Topology Finset Sum
open scoped Classical

noncomputable section

/-- sums, products, sines and cosines -/
def Op.Smooth {ι : Type} : Op ι → Prop
  | .lin _ _ | .mul _ _ | .sq _ | .sin _ | .cos _ => True
  | _ => False

def Prog.Smooth : {ι μ : Type} → Prog ι μ → Prop
  | _, _, .ret _ => True
  | _, _, @Prog.stage _ _ _ _ f p => (∀ k, (f k).Smooth) ∧ p.Smooth

theorem good_smooth {ι : Type} [Fintype ι] {nr : NormRule} {e : ι → ℝ} {w : ℝ} {op : Op ι} (h : op.Smooth) : op.Good nr e w := by
  cases op with
  | lin c l => exact good_lin c l
  | mul a b => exact good_mul a b
  | sq a => exact good_sq a
  | sin a => exact good_sin a
  | cos a => exact good_cos a
  | _ => exact h.elim

theorem Prog.good_of_smooth {nr : NormRule} : ∀ {ι μ : Type} [Fintype ι] [Fintype μ] (p : Prog ι μ), p.Smooth → ∀ (e : ι → ℝ) (g : μ → ℝ),
    p.Good nr e g := by
  intro ι μ i1 i2 p
  revert i1 i2
  induction p with
  | ret out => intro _ _ _ _ _; trivial
  | stage κ f p ih =>
    intro i1 i2 h e g
    exact ⟨ih h.2 _ g, fun k w _ => good_smooth (h.1 k)⟩

theorem Op.evalR_lin {ι : Type} (c : ℝ) (l : List (ℝ × ι)) (e : ι → ℝ) : (Op.lin c l).evalR e = c + (l.map fun p => p.1 * e p.2).sum := rfl
theorem Op.evalR_mul {ι : Type} (a b : ι) (e : ι → ℝ) : (Op.mul a b).evalR e = e a * e b := rfl

/-! ## Renaming and sequencing -/

variable {ι κ μ ν : Type}

theorem Op.evalR_rename (r : ι → κ) (op : Op ι) (e : κ → ℝ) : (op.rename r).evalR e = op.evalR fun i => e (r i) := by
  cases op <;> simp only [Op.rename, Op.evalR, List.map_map, Function.comp_def]

theorem Op.smooth_rename (r : ι → κ) {op : Op ι} (h : op.Smooth) : (op.rename r).Smooth := by
  cases op <;> first | trivial | exact h.elim

theorem Prog.runR_rename : ∀ {ι μ : Type} (p : Prog ι μ) {κ : Type} (r : ι → κ) (e : κ → ℝ),
    (p.rename r).runR e = p.runR fun i => e (r i) := by
  intro ι μ p
  induction p with
  | ret out => intro κ r e; rfl
  | stage σ f p ih =>
    intro κ r e
    simp only [Prog.rename, Prog.runR, ih, Op.evalR_rename]
    congr 1
    funext i
    cases i <;> rfl

theorem Prog.smooth_rename : ∀ {ι μ : Type} (p : Prog ι μ), p.Smooth → ∀ {κ : Type} (r : ι → κ), (p.rename r).Smooth := by
  intro ι μ p
  induction p with
  | ret out => intro _ κ r; trivial
  | stage σ f p ih => intro h κ r; exact ⟨fun k => Op.smooth_rename r (h.1 k), ih h.2 _⟩

theorem Prog.runR_andThen : ∀ {ι μ : Type} (p : Prog ι μ) {ν : Type} (q : Prog (ι ⊕ μ) ν) (e : ι → ℝ),
    (p.andThen q).runR e = q.runR (Sum.elim e (p.runR e)) := by
  intro ι μ p
  induction p with
  | ret out =>
    intro ν q e
    simp only [Prog.andThen, Prog.runR_rename, Prog.runR]
    congr 1
    funext i
    cases i <;> rfl
  | stage σ f p ih =>
    intro ν q e
    simp only [Prog.andThen, Prog.runR, ih, Prog.runR_rename]
    congr 1
    funext i
    cases i <;> rfl

theorem Prog.smooth_andThen : ∀ {ι μ : Type} (p : Prog ι μ), p.Smooth → ∀ {ν : Type} (q : Prog (ι ⊕ μ) ν), q.Smooth → (p.andThen q).Smooth := by
  intro ι μ p
  induction p with
  | ret out => intro _ ν q hq; exact q.smooth_rename hq _
  | stage σ f p ih => intro h ν q hq; exact ⟨h.1, ih h.2 _ (q.smooth_rename hq _)⟩

/-! ## Backward passes -/

theorem Op.factors_smooth {op : Op ι} {t : ι × ℝ × Op ι} (h : t ∈ op.factors) : t.2.2.Smooth := by
  cases op <;> simp only [Op.factors, List.mem_cons, List.not_mem_nil, or_false, List.mem_map] at h
  · obtain ⟨p, -, rfl⟩ := h; trivial
  · rcases h with rfl | rfl <;> trivial
  all_goals subst h; trivial

theorem Prog.smooth_grad : ∀ {ι μ : Type} [Fintype ι] [Fintype μ] (p : Prog ι μ), p.Smooth → p.grad.Smooth := by
  intro ι μ i1 i2 p
  revert i1 i2
  induction p with
  | ret out => intro _ _ _; exact ⟨fun _ => trivial, trivial⟩
  | stage κ f p ih =>
    intro i1 i2 h
    refine ⟨fun k => Op.smooth_rename _ (h.1 k), Prog.smooth_andThen _ (Prog.smooth_rename _ (ih h.2) _) _ ⟨fun s => ?_, fun _ => trivial, fun _ => trivial, trivial⟩⟩
    exact Op.smooth_rename _ (Op.factors_smooth (List.getElem_mem _))

/-- PyTorch's rule in terms of the factors -/
theorem Op.pull_factors {nr : NormRule} {op : Op ι} (h : op.Smooth) (e : ι → ℝ) (w : ℝ) :
    op.pull nr (up e) (.fin (op.evalR e)) (.fin w) = upL (op.factors.map fun t => (t.1, t.2.1 * (w * t.2.2.evalR e))) := by
  cases op <;> first | exact h.elim | skip
  · simp only [Op.pull, Op.factors, upL, List.map_map, AD.mul, Function.comp_def, Op.evalR, List.map_nil, List.sum_nil]
    apply List.map_congr_left
    intro p _
    rw [show p.1 * (w * (1 + 0)) = w * p.1 by ring]
  · simp [Op.pull, Op.factors, upL, AD.mul, Op.evalR, up]
  · simp [Op.pull, Op.factors, upL, AD.mul, Op.evalR, up]
    ring
  · simp [Op.pull, Op.factors, upL, AD.mul, Op.evalR, up, lift]
  · simp [Op.pull, Op.factors, upL, AD.mul, Op.evalR, up, lift, Fl.neg]

theorem sum_filter_toList {σ : Type} [Fintype σ] (P : σ → Prop) (F : σ → ℝ) :
    (((univ : Finset σ).toList.filter fun s => P s).map F).sum = ∑ s, if P s then F s else 0 := by
  have : ∀ l : List σ, ((l.filter fun s => P s).map F).sum = (l.map fun s => if P s then F s else 0).sum := by
    intro l
    induction l with
    | nil => rfl
    | cons a l ih =>
      by_cases h : P a <;> simp [List.filter_cons, h, ih]
  rw [this, Finset.sum_map_toList]

theorem list_sum_getElem {α : Type} (l : List α) (F : α → ℝ) : (l.map F).sum = ∑ i : Fin l.length, F l[i] := by
  rw [← List.sum_ofFn]
  congr 1
  apply List.ext_getElem <;> simp

/-- the record of the backward pass computes the gradients that the backward pass returns -/
theorem Prog.back_eq_grad {nr : NormRule} : ∀ {ι μ : Type} [Fintype ι] [Fintype μ] (p : Prog ι μ), p.Smooth → ∀ (e : ι → ℝ) (g : μ → ℝ),
    p.back nr (up e) (up g) = up (p.grad.runR (Sum.elim e g)) := by
  intro ι μ i1 i2 p
  revert i1 i2
  induction p with
  | ret out =>
    intro i1 i2 _ e g
    funext j
    simp only [Prog.back, Prog.grad, Prog.runR, Op.evalR, up, Sum.elim_inr, List.map_map, Function.comp_def, one_mul, zero_add]
    rw [sum_filter_toList (fun k => out k = j) g, ← fin_sum]
    apply sum_congr rfl
    intro k _
    by_cases h : out k = j <;> simp [h, zero_def]
  | stage κ f p ih =>
    intro i1 i2 h e g
    have hv : ∀ k, (f k).eval (up e) = .fin ((f k).evalR e) := fun k => (good_smooth (nr := nr) (w := 0) (h.1 k)).val
    have hel : (Sum.elim (up e) fun k => Fl.fin ((f k).evalR e)) = up (Sum.elim e fun k => (f k).evalR e) := (up_elim _ _).symm
    funext j
    rw [Prog.back_stage (fun k => .fin ((f k).evalR e)) hv, hel, ih h.2]
    set G := p.grad.runR (Sum.elim (Sum.elim e fun k => (f k).evalR e) g) with hG
    have hrun : (Prog.stage κ f p).grad.runR (Sum.elim e g) j
        = G (inl j) + ∑ k, ((f k).factors.map fun t => if t.1 = j then t.2.1 * (G (inr k) * t.2.2.evalR e) else 0).sum := by
      simp only [Prog.grad, Prog.runR, Prog.runR_andThen, Prog.runR_rename, Op.evalR_lin, Op.evalR_mul, Op.evalR_rename, Sum.elim_inl, Sum.elim_inr,
        List.map_cons, List.sum_cons, List.map_map, Function.comp_def, one_mul, zero_add]
      have hE : (fun i => Sum.elim (Sum.elim e g) (fun k => (f k).evalR e)
          (Sum.elim (Sum.elim (fun i => inl (inl i)) inr) (fun m => inl (inr m)) i)) = Sum.elim (Sum.elim e fun k => (f k).evalR e) g := by
        funext i
        rcases i with (i | i) | i <;> rfl
      rw [hE, ← hG]
      congr 1
      rw [sum_filter_toList (fun s : Σ k, Fin (f k).factors.length => ((f s.1).factors[s.2]).1 = j)
        fun s => ((f s.1).factors[s.2]).2.1 * (G (inr s.1) * ((f s.1).factors[s.2]).2.2.evalR e), Fintype.sum_sigma]
      apply sum_congr rfl
      intro k _
      rw [list_sum_getElem]
    simp only [up]
    rw [hrun]
    rw [← fin_add, ← fin_sum]
    congr 1
    apply sum_congr rfl
    intro k _
    rw [Op.pull_factors (h.1 k), total_upL, List.map_map]
    rfl

/-- **Records of sums, products, sines and cosines.**  The gradient is always finite and always the derivative; it is what the record of
the backward pass computes. -/
theorem Prog.smooth_sound (nr : NormRule) {ι μ : Type} [Fintype ι] [Fintype μ] (p : Prog ι μ) (h : p.Smooth) (e : ι → ℝ) (g : μ → ℝ) :
    p.run (up e) = up (p.runR e) ∧ p.back nr (up e) (up g) = up (p.grad.runR (Sum.elim e g)) ∧
      Spec.IsVJP p.runR e g (p.grad.runR (Sum.elim e g)) := by
  obtain ⟨h1, G, h2, h3⟩ := p.sound nr e g (p.good_of_smooth h e g)
  have h4 := p.back_eq_grad (nr := nr) h e g
  have : G = p.grad.runR (Sum.elim e g) := by
    funext j
    have := congrFun (h2.symm.trans h4) j
    simpa [up] using this
  subst this
  exact ⟨h1, h2, h3⟩

end
end PK.AD
