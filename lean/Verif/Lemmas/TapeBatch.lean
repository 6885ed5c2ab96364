import Verif.Model.TapeT3
import Verif.Lemmas.TapeSmooth

/-!
# Records of batches
-/

namespace PK.AD
open Sum
open scoped Classical

noncomputable section

/-- sums, products, sines, cosines, and the other operations where they are differentiable -/
def Op.RegAt {ι : Type} (e : ι → ℝ) : Op ι → Prop
  | .lin _ _ | .mul _ _ | .sq _ | .sin _ | .cos _ => True
  | .div _ b => e b ≠ 0
  | .recip a => e a ≠ 0
  | .acos a => -1 < e a ∧ e a < 1
  | .atan2 y x => 0 < e x ∨ e y ≠ 0
  | .clampMin c a => e a ≠ c
  | .norm3 a b c => ![e a, e b, e c] ≠ 0
  | _ => False

def Prog.RegAt : {ι μ : Type} → Prog ι μ → (ι → ℝ) → Prop
  | _, _, .ret _, _ => True
  | _, _, @Prog.stage _ _ _ _ f p, e => (∀ k, (f k).RegAt e) ∧ p.RegAt (Sum.elim e fun k => (f k).evalR e)

theorem good_regAt {ι : Type} [Fintype ι] {nr : NormRule} {e : ι → ℝ} {w : ℝ} {op : Op ι} (h : op.RegAt e) : op.Good nr e w := by
  cases op with
  | lin c l => exact good_lin c l
  | mul a b => exact good_mul a b
  | sq a => exact good_sq a
  | sin a => exact good_sin a
  | cos a => exact good_cos a
  | div a b => exact good_div h
  | recip a => exact good_recip h
  | acos a => exact good_acos h.1 h.2
  | atan2 y x => exact good_atan2_slit h
  | clampMin c a => exact good_clampMin h
  | norm3 a b c => exact good_norm3 h
  | _ => exact h.elim

theorem Prog.good_of_regAt {nr : NormRule} : ∀ {ι μ : Type} [Fintype ι] [Fintype μ] (p : Prog ι μ) (e : ι → ℝ), p.RegAt e → ∀ (g : μ → ℝ),
    p.Good nr e g := by
  intro ι μ i1 i2 p
  revert i1 i2
  induction p with
  | ret out => intro _ _ _ _ _; trivial
  | stage κ f p ih =>
    intro i1 i2 e h g
    exact ⟨ih _ h.2 g, fun k w _ => good_regAt (h.1 k)⟩

theorem Op.regAt_of_smooth {ι : Type} {op : Op ι} (h : op.Smooth) (e : ι → ℝ) : op.RegAt e := by
  cases op <;> first | trivial | exact h.elim

theorem Prog.regAt_of_smooth : ∀ {ι μ : Type} (p : Prog ι μ), p.Smooth → ∀ e, p.RegAt e := by
  intro ι μ p
  induction p with
  | ret out => intro _ _; trivial
  | stage κ f p ih => intro h e; exact ⟨fun k => Op.regAt_of_smooth (h.1 k) e, ih h.2 _⟩

variable {ι κ μ ν α β γ : Type}

theorem Op.regAt_rename (r : ι → κ) (op : Op ι) (e : κ → ℝ) : (op.rename r).RegAt e ↔ op.RegAt fun i => e (r i) := by
  cases op <;> exact Iff.rfl

theorem Prog.regAt_rename : ∀ {ι μ : Type} (p : Prog ι μ) {κ : Type} (r : ι → κ) (e : κ → ℝ),
    (p.rename r).RegAt e ↔ p.RegAt fun i => e (r i) := by
  intro ι μ p
  induction p with
  | ret out => intro κ r e; exact Iff.rfl
  | stage σ f p ih =>
    intro κ r e
    simp only [Prog.rename, Prog.RegAt, ih, Op.regAt_rename, Op.evalR_rename]
    have : (fun i => Sum.elim e (fun k => (f k).evalR fun i => e (r i)) (Sum.map r id i))
        = Sum.elim (fun i => e (r i)) fun k => (f k).evalR fun i => e (r i) := by
      funext i; cases i <;> rfl
    rw [this]

theorem Prog.regAt_andThen : ∀ {ι μ : Type} (p : Prog ι μ) {ν : Type} (q : Prog (ι ⊕ μ) ν) (e : ι → ℝ),
    (p.andThen q).RegAt e ↔ p.RegAt e ∧ q.RegAt (Sum.elim e (p.runR e)) := by
  intro ι μ p
  induction p with
  | ret out =>
    intro ν q e
    simp only [Prog.andThen, Prog.regAt_rename, Prog.RegAt, true_and, Prog.runR]
    have : (fun i => e (Sum.elim id out i)) = Sum.elim e fun k => e (out k) := by funext i; cases i <;> rfl
    rw [this]
  | stage σ f p ih =>
    intro ν q e
    simp only [Prog.andThen, Prog.RegAt, Prog.runR, ih, Prog.regAt_rename, and_assoc]
    have : (fun i => Sum.elim (Sum.elim e fun k => (f k).evalR e) (p.runR (Sum.elim e fun k => (f k).evalR e)) (Sum.map inl id i))
        = Sum.elim e (p.runR (Sum.elim e fun k => (f k).evalR e)) := by
      funext i; cases i <;> rfl
    rw [this]

theorem Prog.runR_par (p : Prog ι μ) (q : Prog ι ν) (e : ι → ℝ) : (p.par q).runR e = Sum.elim (p.runR e) (q.runR e) := by
  simp only [Prog.par, Prog.runR_andThen, Prog.runR_rename, Prog.runR, Sum.elim_inl]
  funext i
  cases i <;> rfl

theorem Prog.regAt_par (p : Prog ι μ) (q : Prog ι ν) (e : ι → ℝ) : (p.par q).RegAt e ↔ p.RegAt e ∧ q.RegAt e := by
  simp only [Prog.par, Prog.regAt_andThen, Prog.regAt_rename, Prog.RegAt, Sum.elim_inl, and_true]

theorem Prog.runR_batch (n : ℕ) : ∀ {ι μ : Type} (p : Prog ι μ) (e : Fin n × ι → ℝ) (b : Fin n) (m : μ),
    (p.batch n).runR e (b, m) = p.runR (fun i => e (b, i)) m := by
  intro ι μ p
  induction p with
  | ret out => intro e b m; rfl
  | stage σ f p ih =>
    intro e b m
    simp only [Prog.batch, Prog.runR, Prog.runR_rename, ih, Op.evalR_rename]
    congr 1
    funext i
    cases i <;> rfl

theorem Prog.regAt_batch (n : ℕ) : ∀ {ι μ : Type} (p : Prog ι μ) (e : Fin n × ι → ℝ),
    (p.batch n).RegAt e ↔ ∀ b, p.RegAt fun i => e (b, i) := by
  intro ι μ p
  induction p with
  | ret out => intro e; simp [Prog.batch, Prog.RegAt]
  | stage σ f p ih =>
    intro e
    simp only [Prog.batch, Prog.RegAt, Prog.regAt_rename, ih, Op.regAt_rename, Op.evalR_rename, forall_and, Prod.forall]
    have : ∀ b, (fun i => Sum.elim e (fun k : Fin n × σ => (f k.2).evalR fun i => e (k.1, i)) (Sum.elim (fun i => inl (b, i)) (fun s => inr (b, s)) i))
        = Sum.elim (fun i => e (b, i)) fun k => (f k).evalR fun i => e (b, i) := by
      intro b; funext i; cases i <;> rfl
    simp only [this]

/-! ## Values of a batch -/

/-- the elements -/
def Rec.val (r : Rec ι α) (x : ι → ℝ) (k : Fin r.n) : α → ℝ := fun a => r.p.runR x (k, a)
def Rec.vals (r : Rec ι α) (x : ι → ℝ) : List (α → ℝ) := List.ofFn (r.val x)
def Rec.RegAt (r : Rec ι α) (x : ι → ℝ) : Prop := r.p.RegAt x

theorem Rec.length_vals (r : Rec ι α) (x : ι → ℝ) : (r.vals x).length = r.n := by simp [Rec.vals]

theorem Rec.vals_eq_map (r : Rec ι α) (x : ι → ℝ) : r.vals x = (List.finRange r.n).map (r.val x) := by
  rw [Rec.vals, List.ofFn_eq_map]

theorem Src.evalR_op (s : Src ι) (x : ι → ℝ) : s.op.evalR x = s.at x := by cases s <;> simp [Src.op, Src.at, Op.evalR]
theorem Src.regAt_op (s : Src ι) (x : ι → ℝ) : s.op.RegAt x := by cases s <;> trivial

theorem Rec.vals_src [Fintype α] (l : List (α → Src ι)) (x : ι → ℝ) : (Rec.src l).vals x = l.map fun v a => (v a).at x := by
  apply List.ext_getElem
  · simp [Rec.vals, Rec.src]
  · intro i h1 h2
    simp only [Rec.vals, List.getElem_ofFn, List.getElem_map]
    funext a
    exact Src.evalR_op _ _

theorem Rec.regAt_src [Fintype α] (l : List (α → Src ι)) (x : ι → ℝ) : (Rec.src l).RegAt x :=
  ⟨fun _ => Src.regAt_op _ _, trivial⟩

theorem Rec.vals_map (op : Prog α β) (r : Rec ι α) (x : ι → ℝ) : (r.map op).vals x = (r.vals x).map op.runR := by
  rw [Rec.vals_eq_map, Rec.vals_eq_map, List.map_map]
  apply List.map_congr_left
  intro k _
  funext b
  show (r.p.andThen ((op.batch r.n).rename inr)).runR x (k, b) = op.runR (r.val x k) b
  rw [Prog.runR_andThen, Prog.runR_rename]
  exact Prog.runR_batch _ _ _ _ _

theorem Rec.regAt_map {op : Prog α β} {r : Rec ι α} {x : ι → ℝ} (h : r.RegAt x) (ho : ∀ v ∈ r.vals x, op.RegAt v) : (r.map op).RegAt x := by
  simp only [Rec.RegAt, Rec.map, Prog.regAt_andThen, Prog.regAt_rename, Prog.regAt_batch, Sum.elim_inr]
  exact ⟨h, fun b => ho _ (List.mem_ofFn.2 ⟨b, rfl⟩)⟩

theorem Rec.vals_zip (op : Prog (α ⊕ β) γ) (r : Rec ι α) (s : Rec ι β) (idx : List (Fin r.n × Fin s.n)) (x : ι → ℝ) :
    (r.zip op s idx).vals x = idx.map fun k => op.runR (Sum.elim (r.val x k.1) (s.val x k.2)) := by
  apply List.ext_getElem
  · simp [Rec.vals, Rec.zip]
  · intro i h1 h2
    have hi : i < idx.length := by simpa using h2
    simp only [Rec.vals, List.getElem_ofFn, List.getElem_map]
    funext c
    show ((r.p.par s.p).andThen ((op.batch idx.length).rename _)).runR x (⟨i, hi⟩, c) = _
    rw [Prog.runR_andThen, Prog.runR_rename, Prog.runR_batch, Prog.runR_par]
    congr 1
    funext k
    cases k <;> rfl

theorem Rec.regAt_zip {op : Prog (α ⊕ β) γ} {r : Rec ι α} {s : Rec ι β} {idx : List (Fin r.n × Fin s.n)} {x : ι → ℝ} (hr : r.RegAt x)
    (hs : s.RegAt x) (ho : ∀ a ∈ r.vals x, ∀ b ∈ s.vals x, op.RegAt (Sum.elim a b)) : (r.zip op s idx).RegAt x := by
  simp only [Rec.RegAt, Rec.zip, Prog.regAt_andThen, Prog.regAt_rename, Prog.regAt_batch, Sum.elim_inr, Prog.regAt_par, Prog.runR_par]
  refine ⟨⟨hr, hs⟩, fun b => ?_⟩
  have := ho _ (List.mem_ofFn.2 ⟨(idx.get b).1, rfl⟩) _ (List.mem_ofFn.2 ⟨(idx.get b).2, rfl⟩)
  convert this using 1
  funext k
  cases k <;> rfl

theorem Rec.vals_gather (r : Rec ι α) (idx : List (Fin r.n)) (x : ι → ℝ) : (r.gather idx).vals x = idx.map (r.val x) := by
  apply List.ext_getElem
  · simp [Rec.vals, Rec.gather]
  · intro i h1 h2
    have hi : i < idx.length := by simpa using h2
    simp only [Rec.vals, List.getElem_ofFn, List.getElem_map]
    funext c
    show (r.p.andThen (.ret fun k : Fin idx.length × α => inr (idx.get k.1, k.2))).runR x (⟨i, hi⟩, c) = _
    rw [Prog.runR_andThen]
    rfl

theorem Rec.regAt_gather {r : Rec ι α} {idx : List (Fin r.n)} {x : ι → ℝ} (h : r.RegAt x) : (r.gather idx).RegAt x := by
  simp only [Rec.RegAt, Rec.gather, Prog.regAt_andThen]
  exact ⟨h, trivial⟩

theorem Rec.vals_append (r s : Rec ι α) (x : ι → ℝ) : (r.append s).vals x = r.vals x ++ s.vals x := by
  simp only [Rec.vals]
  rw [← List.ofFn_fin_append]
  show List.ofFn (n := r.n + s.n) _ = _
  congr 1
  funext k
  funext a
  simp only [Rec.val, Rec.append, Prog.runR_andThen, Prog.runR, Sum.elim_inr, Prog.runR_par]
  refine Fin.addCases (fun i => ?_) (fun j => ?_) k
  · simp [Fin.append_left, Rec.val]
  · simp [Fin.append_right, Rec.val]

theorem Rec.regAt_append {r s : Rec ι α} {x : ι → ℝ} (hr : r.RegAt x) (hs : s.RegAt x) : (r.append s).RegAt x := by
  simp only [Rec.RegAt, Rec.append, Prog.regAt_andThen, Prog.regAt_par]
  exact ⟨⟨hr, hs⟩, trivial⟩

/-! ## Broadcasting -/

theorem bzip_map {α' β' : Type} (f : α → β → γ) (u : α' → α) (v : β' → β) (a : List α') (b : List β') :
    PK.bzip f (a.map u) (b.map v) = PK.bzip (fun i j => f (u i) (v j)) a b := by
  unfold PK.bzip
  simp only [List.length_map]
  split_ifs with h1 h2
  · congr 1
    rcases a with _ | ⟨x, _ | ⟨x', a⟩⟩ <;> rcases b with _ | ⟨y, _ | ⟨y', b⟩⟩ <;> simp [List.zipWith_map]
    · rw [← List.map_replicate, ← List.map_cons, ← List.map_cons, List.zipWith_map]
    · rw [← List.map_replicate, ← List.map_cons, ← List.map_cons, List.zipWith_map]
  · rfl
  · rw [List.zipWith_map]

theorem bzip_prod (f : α → β → γ) (a : List α) (b : List β) :
    PK.bzip f a b = (PK.bzip Prod.mk a b).map (List.map fun k => f k.1 k.2) := by
  unfold PK.bzip
  split_ifs with h1 h2
  · simp [Except.map, List.map_zipWith]
  · rfl
  · simp [Except.map, List.map_zipWith]

/-- the outcome of a shape computation on records, and the outcome on values -/
def Match (x : ι → ℝ) (r : Except Err (Rec ι α)) (b : Except Err (List (α → ℝ))) : Prop :=
  match r, b with
  | .ok r, .ok l => r.vals x = l
  | .error e, .error e' => e = e'
  | _, _ => False

theorem Rec.bzip_match (op : Prog (α ⊕ β) γ) (r : Rec ι α) (s : Rec ι β) (x : ι → ℝ) :
    Match x (r.bzip op s) (PK.bzip (fun a b => op.runR (Sum.elim a b)) (r.vals x) (s.vals x)) := by
  rw [Rec.vals_eq_map, Rec.vals_eq_map, bzip_map, bzip_prod]
  unfold Rec.bzip
  cases PK.bzip Prod.mk (List.finRange r.n) (List.finRange s.n) with
  | error e => rfl
  | ok idx => exact Rec.vals_zip _ _ _ _ _

theorem Rec.bzip_regAt {op : Prog (α ⊕ β) γ} {r : Rec ι α} {s : Rec ι β} {x : ι → ℝ} {q : Rec ι γ} (h : r.bzip op s = .ok q) (hr : r.RegAt x)
    (hs : s.RegAt x) (ho : ∀ a ∈ r.vals x, ∀ b ∈ s.vals x, op.RegAt (Sum.elim a b)) : q.RegAt x := by
  unfold Rec.bzip at h
  split at h
  · cases h; exact Rec.regAt_zip hr hs ho
  · cases h

theorem Rec.catLast_match (op : Prog (α ⊕ β) γ) (r : Rec ι α) (s : Rec ι β) (x : ι → ℝ) :
    Match x (r.catLast op s) (PK.catLast (fun a b => op.runR (Sum.elim a b)) (r.vals x) (s.vals x)) := by
  unfold Rec.catLast PK.catLast
  simp only [List.length_finRange, Rec.length_vals]
  split_ifs with h
  · simp only [Match, Rec.vals_zip]
    rw [Rec.vals_eq_map, Rec.vals_eq_map, List.map_zipWith, List.zipWith_map]
  · rfl

theorem Rec.catLast_regAt {op : Prog (α ⊕ β) γ} {r : Rec ι α} {s : Rec ι β} {x : ι → ℝ} {q : Rec ι γ} (h : r.catLast op s = .ok q)
    (hr : r.RegAt x) (hs : s.RegAt x) (ho : ∀ a ∈ r.vals x, ∀ b ∈ s.vals x, op.RegAt (Sum.elim a b)) : q.RegAt x := by
  unfold Rec.catLast at h
  split at h
  · cases h; exact Rec.regAt_zip hr hs ho
  · cases h

theorem Rec.vals_repeatTo (b : Bool) (n : ℕ) (r : Rec ι α) (x : ι → ℝ) :
    (r.repeatTo b n).vals x = match b, r.vals x with
      | true, [m] => if 1 < n then List.replicate n m else [m]
      | _, ms => ms := by
  unfold Rec.repeatTo
  by_cases hc : b = true ∧ r.n = 1 ∧ 1 < n
  · rw [if_pos hc]
    obtain ⟨rfl, h1, h2⟩ := hc
    obtain ⟨m, hm⟩ := List.length_eq_one_iff.1 ((r.length_vals x).trans h1)
    rw [Rec.vals_gather, List.map_flatten, List.map_replicate, ← Rec.vals_eq_map, hm]
    simp only [h2, if_true]
    clear h2
    induction n with
    | zero => rfl
    | succ n ih => simp [List.replicate_succ, ih]
  · rw [if_neg hc]
    cases b with
    | false => rfl
    | true =>
      have hl := r.length_vals x
      rcases hv : r.vals x with _ | ⟨m, _ | ⟨m', l⟩⟩
      · rfl
      · rw [hv] at hl
        have : ¬ 1 < n := fun h => hc ⟨rfl, hl.symm, h⟩
        simp [this]
      · rfl

theorem Rec.regAt_repeatTo {b : Bool} {n : ℕ} {r : Rec ι α} {x : ι → ℝ} (h : r.RegAt x) : (r.repeatTo b n).RegAt x := by
  unfold Rec.repeatTo
  split_ifs
  · exact Rec.regAt_gather h
  · exact h

end
end PK.AD
