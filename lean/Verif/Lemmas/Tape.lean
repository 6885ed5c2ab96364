import Verif.Model.Tape
import Mathlib.Analysis.Calculus.FDeriv.Pi
import Mathlib.Analysis.Calculus.FDeriv.Mul
import Mathlib.Analysis.Calculus.FDeriv.Add
import Mathlib.Analysis.Calculus.FDeriv.Comp
import Mathlib.Analysis.Calculus.Deriv.Comp
import Mathlib.Analysis.Calculus.Deriv.Pi

/-!
# Reverse differentiation is correct where every recorded operation is differentiable

`Op.Good`: the operation is finite, changes at most linearly, and the gradient passed on is that of the operation times the incoming
gradient.  Operations that are not differentiable are allowed where their result receives gradient zero.
-/

namespace PK.AD
open Asymptotics Filter Topology Finset
open scoped Classical

/-- numbers as extended scalars -/
abbrev up {ι : Type} (e : ι → ℝ) : ι → Fl := fun i => .fin (e i)

theorem fin_add (a b : ℝ) : (Fl.fin a + Fl.fin b : Fl) = .fin (a + b) := rfl

theorem fin_sum {κ : Type} (s : Finset κ) (f : κ → ℝ) : ∑ k ∈ s, Fl.fin (f k) = .fin (∑ k ∈ s, f k) := by
  induction s using Finset.induction_on with
  | empty => rfl
  | insert a s ha ih => rw [sum_insert ha, sum_insert ha, ih, fin_add]

theorem fin_list_sum (l : List ℝ) : (l.map Fl.fin).sum = .fin l.sum := by
  induction l with
  | nil => rfl
  | cons a l ih => simp only [List.map_cons, List.sum_cons, ih, fin_add]

theorem nan_add (a : Fl) : (Fl.nan + a : Fl) = .nan := by
  show Fl.add .nan a = .nan
  cases a <;> rfl

theorem add_nan (a : Fl) : (a + Fl.nan : Fl) = .nan := by rw [add_comm, nan_add]

theorem sum_nan {κ : Type} {s : Finset κ} {f : κ → Fl} {k : κ} (hk : k ∈ s) (h : f k = .nan) : ∑ k ∈ s, f k = .nan := by
  rw [← add_sum_erase _ _ hk, h, nan_add]

theorem mul_nan (a : Fl) : mul a .nan = .nan := by cases a <;> rfl

variable {ι κ μ : Type}

noncomputable section

/-- the value of an operation on numbers -/
def Op.evalR (e : ι → ℝ) : Op ι → ℝ
  | .lin c l => c + (l.map fun p => p.1 * e p.2).sum
  | .mul a b => e a * e b
  | .div a b => e a / e b
  | .recip a => 1 / e a
  | .sqrt a => Real.sqrt (e a)
  | .sq a => e a * e a
  | .sin a => Real.sin (e a)
  | .cos a => Real.cos (e a)
  | .acos a => Real.arccos (e a)
  | .abs a => |e a|
  | .atan2 y x => PK.atan2 (e y) (e x)
  | .clampMin c a => max (e a) c
  | .clamp lo hi a => min (max (e a) lo) hi
  | .maxC a c => max (e a) c
  | .norm3 a b c => PK.norm3 ![e a, e b, e c]
  | .pick f => e (f (up e))

/-- the results on numbers -/
def Prog.runR : {ι μ : Type} → Prog ι μ → (ι → ℝ) → μ → ℝ
  | _, _, .ret out, e => fun k => e (out k)
  | _, _, @Prog.stage _ _ _ _ f p, e => p.runR (Sum.elim e fun k => (f k).evalR e)

/-- pairing of gradient contributions with a displacement -/
def pair (l : List (ι × ℝ)) (d : ι → ℝ) : ℝ := (l.map fun p => p.2 * d p.1).sum

/-- contributions as extended scalars -/
def upL (l : List (ι × ℝ)) : List (ι × Fl) := l.map fun p => (p.1, .fin p.2)

theorem total_upL (l : List (ι × ℝ)) (j : ι) : total (upL l) j = .fin (l.map fun p => if p.1 = j then p.2 else 0).sum := by
  unfold total upL
  rw [← fin_list_sum, List.map_map, List.map_map]
  congr 1
  apply List.map_congr_left
  rintro ⟨i, x⟩ -
  simp only [Function.comp]
  by_cases h : i = j <;> simp [h, zero_def]

theorem pair_eq [Fintype ι] (l : List (ι × ℝ)) (d : ι → ℝ) :
    pair l d = ∑ j, (l.map fun p => if p.1 = j then p.2 else 0).sum * d j := by
  unfold pair
  induction l with
  | nil => simp
  | cons p l ih =>
    simp only [List.map_cons, List.sum_cons, ih, add_mul, sum_add_distrib]
    congr 1
    simp [ite_mul]

/-- an operation whose gradient rule is correct at `e` for the incoming gradient `w` -/
structure Op.Good [Fintype ι] (nr : NormRule) (e : ι → ℝ) (w : ℝ) (op : Op ι) : Prop where
  val : op.eval (up e) = .fin (op.evalR e)
  big : (fun e' => op.evalR e' - op.evalR e) =O[𝓝 e] fun e' => e' - e
  pull : ∃ l : List (ι × ℝ), op.pull nr (up e) (.fin (op.evalR e)) (.fin w) = upL l ∧
    (fun e' => w * (op.evalR e' - op.evalR e) - pair l (e' - e)) =o[𝓝 e] fun e' => e' - e

/-- a record all of whose operations are good -/
def Prog.Good (nr : NormRule) : {ι μ : Type} → [Fintype ι] → [Fintype μ] → Prog ι μ → (ι → ℝ) → (μ → ℝ) → Prop
  | _, _, _, _, .ret _, _, _ => True
  | _, _, _, _, @Prog.stage _ _ _ _ f p, e, g =>
    let e1 := Sum.elim e fun k => (f k).evalR e
    p.Good nr e1 g ∧ ∀ k w, p.back nr (up e1) (up g) (.inr k) = .fin w → (f k).Good nr e w

theorem up_elim (e : ι → ℝ) (v : κ → ℝ) : up (Sum.elim e v) = Sum.elim (up e) (up v) := by
  funext i; cases i <;> rfl

/-- one stage, with its values named -/
theorem Prog.good_stage {nr : NormRule} [Fintype ι] [Fintype κ] [Fintype μ] {f : κ → Op ι} {p : Prog (ι ⊕ κ) μ} {e : ι → ℝ} {g : μ → ℝ}
    (v : κ → ℝ) (hv : ∀ k, (f k).evalR e = v k) (hp : p.Good nr (Sum.elim e v) g)
    (hk : ∀ k w, p.back nr (up (Sum.elim e v)) (up g) (.inr k) = .fin w → (f k).Good nr e w) : (Prog.stage κ f p).Good nr e g := by
  have : (fun k => (f k).evalR e) = v := funext hv
  simp only [Prog.Good]
  rw [this]
  exact ⟨hp, hk⟩

theorem Prog.runR_stage [Fintype κ] {f : κ → Op ι} {p : Prog (ι ⊕ κ) μ} {e : ι → ℝ} (v : κ → ℝ) (hv : ∀ k, (f k).evalR e = v k) :
    (Prog.stage κ f p).runR e = p.runR (Sum.elim e v) := by
  have : (fun k => (f k).evalR e) = v := funext hv
  simp only [Prog.runR]
  rw [this]

theorem Prog.back_stage {nr : NormRule} [Fintype κ] [Fintype μ] {f : κ → Op ι} {p : Prog (ι ⊕ κ) μ} {env : ι → Fl} {g : μ → Fl} (v : κ → Fl)
    (hv : ∀ k, (f k).eval env = v k) (j : ι) : (Prog.stage κ f p).back nr env g j
      = p.back nr (Sum.elim env v) g (.inl j) + ∑ k, total ((f k).pull nr env (v k) (p.back nr (Sum.elim env v) g (.inr k))) j := by
  have : (fun k => (f k).eval env) = v := funext hv
  simp only [Prog.back, hv]

/-- **Soundness.**  If every operation is good, the gradient is finite and is the derivative. -/
theorem Prog.sound (nr : NormRule) : ∀ {ι μ : Type} [Fintype ι] [Fintype μ] (p : Prog ι μ) (e : ι → ℝ) (g : μ → ℝ), p.Good nr e g →
    p.run (up e) = up (p.runR e) ∧
    ∃ G : ι → ℝ, p.back nr (up e) (up g) = up G ∧
      HasFDerivAt (fun e => ∑ k, g k * p.runR e k) (∑ j, G j • (ContinuousLinearMap.proj j : (ι → ℝ) →L[ℝ] ℝ)) e := by
  intro ι μ i1 i2 p
  revert i1 i2
  induction p with
  | ret out =>
    intro i1 i2 e g _
    refine ⟨rfl, fun j => ∑ k, if out k = j then g k else 0, ?_, ?_⟩
    · funext j
      simp only [Prog.back, up]
      rw [← fin_sum]
      apply sum_congr rfl
      intro k _
      by_cases h : out k = j <;> simp [h, zero_def]
    · have : (fun e => ∑ k, g k * (Prog.ret out).runR e k)
          = fun e => (∑ j, (∑ k, if out k = j then g k else 0) • (ContinuousLinearMap.proj j : (_ → ℝ) →L[ℝ] ℝ)) e := by
        funext e'
        simp only [Prog.runR, ContinuousLinearMap.sum_apply, ContinuousLinearMap.smul_apply, ContinuousLinearMap.proj_apply, smul_eq_mul,
          sum_mul]
        rw [sum_comm]
        simp [ite_mul]
      rw [this]
      exact ContinuousLinearMap.hasFDerivAt _
  | stage κ f p ih =>
    intro i1 i2 e g hg
    obtain ⟨h1, h2⟩ := hg
    set v : κ → ℝ := fun k => (f k).evalR e with hv
    obtain ⟨hrun, G', hG', hD⟩ := ih (Sum.elim e v) g h1
    have hgood : ∀ k, (f k).Good nr e (G' (.inr k)) := fun k => h2 k _ (congrFun hG' (.inr k))
    have hval : (fun k => (f k).eval (up e)) = up v := by funext k; exact (hgood k).val
    choose l hl ho using fun k => (hgood k).pull
    refine ⟨?_, fun j => G' (.inl j) + ∑ k, ((l k).map fun p => if p.1 = j then p.2 else 0).sum, ?_, ?_⟩
    · simp only [Prog.run, Prog.runR]
      rw [hval, ← up_elim, hrun]
    · funext j
      simp only [Prog.back]
      have hv' : ∀ k, (f k).eval (up e) = .fin (v k) := fun k => congrFun hval k
      simp only [hv']
      have : (Sum.elim (up e) fun k => Fl.fin (v k)) = up (Sum.elim e v) := (up_elim e v).symm
      rw [this, hG']
      simp only [up]
      have hs : ∀ k, total ((f k).pull nr (up e) (.fin (v k)) (.fin (G' (.inr k)))) j
          = .fin ((l k).map fun p => if p.1 = j then p.2 else 0).sum := fun k => by rw [hl k, total_upL]
      rw [sum_congr rfl fun k _ => hs k, fin_sum, fin_add]
    · -- the derivative
      set h : (_ → ℝ) → (_ ⊕ κ → ℝ) := fun e' => Sum.elim e' fun k => (f k).evalR e' with hh
      have hO : (fun e' => h e' - h e) =O[𝓝 e] fun e' => e' - e := by
        rw [isBigO_pi]
        rintro (i | k)
        · simp only [hh, Pi.sub_apply, Sum.elim_inl]
          exact isBigO_pi.1 (isBigO_refl (fun e' => e' - e) (𝓝 e)) i
        · simp only [hh, Pi.sub_apply, Sum.elim_inr]
          exact (hgood k).big
      have ht : Tendsto h (𝓝 e) (𝓝 (h e)) := by
        have h0 : Tendsto (fun e' : _ → ℝ => e' - e) (𝓝 e) (𝓝 0) := by
          have := (continuous_sub_right e).tendsto e
          simpa using this
        have := (hO.trans_tendsto h0).add_const (h e)
        simpa using this
      have hF := (hD.isLittleO.comp_tendsto ht).trans_isBigO hO
      apply HasFDerivAt.of_isLittleO
      have hsum : (fun e' => ∑ k, (G' (.inr k) * ((f k).evalR e' - (f k).evalR e) - pair (l k) (e' - e))) =o[𝓝 e] fun e' => e' - e := by
        have := IsLittleO.sum (s := univ) fun k _ => ho k
        refine this.congr_left fun e' => ?_
        rw [Finset.sum_apply]
      refine (hF.add hsum).congr_left fun e' => ?_
      simp only [Function.comp, Prog.runR, ContinuousLinearMap.add_apply, hv, ContinuousLinearMap.sum_apply, ContinuousLinearMap.smul_apply,
        ContinuousLinearMap.proj_apply, smul_eq_mul, Fintype.sum_sum_type, hh, Pi.sub_apply, Sum.elim_inl, Sum.elim_inr, sum_sub_distrib,
        add_mul, sum_add_distrib, sum_mul]
      have : ∑ k, pair (l k) (e' - e) = ∑ j, ∑ k, ((l k).map fun p => if p.1 = j then p.2 else 0).sum * (e' j - e j) := by
        rw [sum_comm]
        apply sum_congr rfl
        intro k _
        rw [pair_eq]; rfl
      rw [this]
      ring

/-- a value on which the results do not depend receives gradient zero -/
theorem Prog.back_zero {nr : NormRule} [Fintype ι] [Fintype μ] {p : Prog ι μ} {e : ι → ℝ} {g : μ → ℝ} (h : p.Good nr e g) (j : ι)
    (hj : ∀ e', (∀ i, i ≠ j → e' i = e i) → p.runR e' = p.runR e) : p.back nr (up e) (up g) j = .fin 0 := by
  obtain ⟨-, G, hG, hD⟩ := p.sound nr e g h
  rw [hG]
  have h1 : HasDerivAt (fun t : ℝ => Function.update e j t) (Pi.single j 1) (e j) := hasDerivAt_update e j (e j)
  have h2 : HasFDerivAt (fun e => ∑ k, g k * p.runR e k) (∑ j, G j • (ContinuousLinearMap.proj j : (ι → ℝ) →L[ℝ] ℝ))
      (Function.update e j (e j)) := by rwa [Function.update_eq_self]
  have h3 := h2.comp_hasDerivAt (e j) h1
  have h4 : HasDerivAt ((fun e => ∑ k, g k * p.runR e k) ∘ fun t : ℝ => Function.update e j t) 0 (e j) := by
    have : ((fun e => ∑ k, g k * p.runR e k) ∘ fun t : ℝ => Function.update e j t) = fun _ => ∑ k, g k * p.runR e k := by
      funext t
      simp only [Function.comp]
      rw [hj (Function.update e j t) fun i hi => Function.update_of_ne hi _ _]
    rw [this]
    exact hasDerivAt_const _ _
  have := h3.unique h4
  simp [ContinuousLinearMap.sum_apply, Pi.single_apply] at this
  simp [up, this]

/-- gradients of records that agree in a tail -/
theorem Prog.back_congr {nr : NormRule} [Fintype κ] [Fintype μ] {f f' : κ → Op ι} {p p' : Prog (ι ⊕ κ) μ} {env : ι → Fl} {g : μ → Fl} (v : κ → Fl)
    (hv : ∀ k, (f k).eval env = v k) (hv' : ∀ k, (f' k).eval env = v k) (hf : ∀ k x, (f k).pull nr env (v k) x = (f' k).pull nr env (v k) x)
    (hp : p.back nr (Sum.elim env v) g = p'.back nr (Sum.elim env v) g) :
    (Prog.stage κ f p).back nr env g = (Prog.stage κ f' p').back nr env g := by
  funext j
  rw [Prog.back_stage v hv, Prog.back_stage v hv', hp]
  simp only [hf]

theorem total_nan {l : List (ι × Fl)} {j : ι} {p : ι × Fl} (hp : p ∈ l) (h1 : p.1 = j) (h2 : p.2 = .nan) : total l j = .nan := by
  unfold total
  induction l with
  | nil => cases hp
  | cons a l ih =>
    simp only [List.map_cons, List.sum_cons]
    rcases List.mem_cons.1 hp with rfl | h
    · rw [if_pos h1, h2, nan_add]
    · rw [ih h, add_nan]

theorem Prog.back_nan_left {nr : NormRule} [Fintype κ] [Fintype μ] {f : κ → Op ι} {p : Prog (ι ⊕ κ) μ} {env : ι → Fl} {g : μ → Fl} (v : κ → Fl)
    {j : ι} (hv : ∀ k, (f k).eval env = v k) (h : p.back nr (Sum.elim env v) g (.inl j) = .nan) :
    (Prog.stage κ f p).back nr env g j = .nan := by
  rw [Prog.back_stage v hv, h, nan_add]

theorem Prog.back_nan_pull {nr : NormRule} [Fintype κ] [Fintype μ] {f : κ → Op ι} {p : Prog (ι ⊕ κ) μ} {env : ι → Fl} {g : μ → Fl} (v : κ → Fl)
    {j : ι} (hv : ∀ k, (f k).eval env = v k) (k : κ)
    (h : (j, Fl.nan) ∈ (f k).pull nr env (v k) (p.back nr (Sum.elim env v) g (.inr k))) :
    (Prog.stage κ f p).back nr env g j = .nan := by
  rw [Prog.back_stage v hv]
  have : ∑ k, total ((f k).pull nr env (v k) (p.back nr (Sum.elim env v) g (.inr k))) j = .nan :=
    sum_nan (mem_univ k) (total_nan h rfl rfl)
  rw [this, add_nan]

end
end PK.AD
