import Verif.Lemmas.Deriv

/-!
# Derivative of frame poses with respect to one joint value
-/

namespace PK
open Spec Matrix

theorem isPath_nodup {root : Frame} (h : WF root) {p : List Frame} (hp : IsPath root p) : p.Nodup := by
  obtain ⟨j, e, pi, h1, h2, h3, -⟩ := isPath_ancestors root hp
  obtain ⟨pi', path, g1, -, -, -, -, -, g7⟩ := ancestors_isPath root j e h1
  rw [h2] at g1
  obtain rfl := Option.some.inj g1
  have hnd : pi.Nodup := g7.imp fun hlt => Nat.ne_of_lt hlt
  have h4 : (p.map some).Nodup := by
    rw [← h3]
    refine List.Nodup.map_on ?_ hnd
    intro a ha c hc hac
    have hsome : ∀ i ∈ pi, ∃ e', (visit root)[i]? = some e' := by
      intro i hi
      have : frameAt root i ∈ p.map some := h3 ▸ List.mem_map.2 ⟨i, hi, rfl⟩
      obtain ⟨f, -, hf⟩ := List.mem_map.1 this
      obtain ⟨e', he', -⟩ := Option.map_eq_some_iff.1 hf.symm
      exact ⟨e', he'⟩
    obtain ⟨e1, he1⟩ := hsome a ha
    obtain ⟨e2, he2⟩ := hsome c hc
    refine h.pos_unique he1 he2 ?_
    simp only [frameAt, he1, he2, Option.map_some, Option.some.injEq] at hac
    rw [hac]
  exact List.Nodup.of_map _ h4

theorem isPath_cases {root : Frame} {q : List Frame} (hp : IsPath root q) :
    q = [root] ∨ ∃ p g c, q = p ++ [g] ++ [c] ∧ IsPath root (p ++ [g]) ∧ c ∈ g.children := by
  cases hp with
  | single => exact .inl rfl
  | snoc p g c h hc => exact .inr ⟨p, g, c, rfl, h, hc⟩

theorem isPath_prefix {root f : Frame} {p1 p2 : List Frame} (hp : IsPath root (p1 ++ [f] ++ p2)) :
    IsPath root (p1 ++ [f]) := by
  induction p2 using List.reverseRecOn with
  | nil => simpa using hp
  | append_singleton p2 c ih =>
    apply ih
    rw [← List.append_assoc] at hp
    rcases isPath_cases hp with hq | ⟨p, g, c', hq, hpg, -⟩
    · have := congrArg List.length hq
      simp at this
      omega
    · have := (List.append_inj' hq rfl).1
      rw [this]; exact hpg

theorem pathT_append (val : Joint → ℝ) (p q : List Frame) : pathT val (p ++ q) = pathT val p * pathT val q := by
  simp [pathT]

theorem setEntry_length {B : ℕ} (th : List (Fin B → ℝ)) (k : ℕ) (b : Fin B) (x : ℝ) :
    (setEntry th k b x).length = th.length := by simp [setEntry]

theorem setEntry_self {B : ℕ} (th : List (Fin B → ℝ)) (k : ℕ) (b : Fin B) :
    setEntry th k b ((th.getD k fun _ => 0) b) = th := by
  unfold setEntry
  apply List.ext_getElem?
  intro i
  rw [List.getElem?_modify]
  by_cases h : k = i
  · subst h
    cases hk : th[k]? <;> simp [List.getD, hk]
  · simp [h]

theorem colVal_setEntry {root : Frame} {B : ℕ} (th : List (Fin B → ℝ)) (k : ℕ) (hk : k < th.length) (b b' : Fin B)
    (x : ℝ) (j : Joint) : colVal root (setEntry th k b x) b' j =
      if column root j = k ∧ b' = b then x else colVal root th b' j := by
  unfold colVal setEntry List.getD
  rw [List.getElem?_modify]
  by_cases h : k = column root j
  · subst h
    rw [List.getElem?_eq_getElem hk]
    by_cases hb : b' = b
    · simp [hb]
    · simp [hb]
  · have h' : ¬ column root j = k := fun e => h e.symm
    simp [h, h']

/-- a pose whose path avoids the frame of the joint does not depend on it -/
theorem pose_const {root f : Frame} (h : WF root) {B : ℕ} (th : List (Fin B → ℝ))
    (hth : th.length = (movingJoints root).length) (hf : f ∈ preorder root) (mf : Moving f.joint) (b b' : Fin B)
    {p : List Frame} (hp : ∀ g ∈ p, g ∈ preorder root) (hfp : f ∉ p ∨ b' ≠ b) (x : ℝ) :
    pathT (colVal root (setEntry th (column root f.joint) b x) b') p = pathT (colVal root th b') p := by
  have hlt : column root f.joint < th.length := by
    obtain ⟨j, e, he, rfl⟩ := exists_pos hf
    rw [hth]; exact column_lt (List.mem_of_getElem? he) mf
  apply pathT_congr
  intro g hg
  by_cases mg : Moving g.joint
  · rw [colVal_setEntry th _ hlt, if_neg]
    rintro ⟨hc, hb⟩
    have := h.column_inj (hp g hg) hf mg mf hc
    subst this
    rcases hfp with h1 | h1
    · exact h1 hg
    · exact h1 hb
  · exact motion_fixed mg _ _

/-- a pose below the frame of the joint moves with the joint's twist -/
theorem pose_deriv {root f : Frame} (h : WF root) (hr : RigidTree root) {B : ℕ} (th : List (Fin B → ℝ))
    (hth : th.length = (movingJoints root).length) (mf : Moving f.joint) (b : Fin B)
    {p : List Frame} (hp : IsPath root p) (hfp : f ∈ p) :
    ∃ (C : M4) (pf : List Frame), IsRigid C ∧ IsPath root pf ∧ pf.getLast? = some f ∧
      (∀ x, IsRigid (pathT (colVal root (setEntry th (column root f.joint) b x) b) pf)) ∧
      (∀ x, pathT (colVal root (setEntry th (column root f.joint) b x) b) p =
        pathT (colVal root (setEntry th (column root f.joint) b x) b) pf * C) ∧
      ∀ x i l, HasDerivAt (fun y => pathT (colVal root (setEntry th (column root f.joint) b y) b) p i l)
        ((pathT (colVal root (setEntry th (column root f.joint) b x) b) pf * gen f.joint * C) i l) x := by
  obtain ⟨p1, p2, rfl⟩ := List.append_of_mem hfp
  have hpe : p1 ++ f :: p2 = p1 ++ [f] ++ p2 := by simp
  rw [hpe] at hp ⊢
  have hnd := isPath_nodup h hp
  have hmem := isPath_mem hp
  have hf : f ∈ preorder root := hmem f (by simp)
  have hf1 : f ∉ p1 := by
    rw [List.append_assoc, List.nodup_append] at hnd
    intro hc
    exact hnd.2.2 f hc f (by simp) rfl
  have hf2 : f ∉ p2 := by
    rw [List.nodup_append] at hnd
    intro hc
    exact hnd.2.2 f (by simp) f hc rfl
  have hlt : column root f.joint < th.length := by
    obtain ⟨j, e, he, rfl⟩ := exists_pos hf
    rw [hth]; exact column_lt (List.mem_of_getElem? he) mf
  have m1 : ∀ g ∈ p1, g ∈ preorder root := fun g hg => hmem g (by simp [hg])
  have m2 : ∀ g ∈ p2, g ∈ preorder root := fun g hg => hmem g (by simp [hg])
  have e1 : ∀ x, pathT (colVal root (setEntry th (column root f.joint) b x) b) (p1 ++ [f]) =
      pathT (colVal root th b) p1 * (f.link.offset.getD 1 * f.joint.offset.getD 1) * motion f.joint x := by
    intro x
    rw [pathT_append, pose_const h th hth hf mf b b m1 (.inl hf1)]
    simp [pathT, localT, colVal_setEntry th _ hlt, mul_assoc]
  have e2 : ∀ x, pathT (colVal root (setEntry th (column root f.joint) b x) b) (p1 ++ [f] ++ p2) =
      pathT (colVal root (setEntry th (column root f.joint) b x) b) (p1 ++ [f]) * pathT (colVal root th b) p2 := by
    intro x
    rw [pathT_append _ (p1 ++ [f]), pose_const h th hth hf mf b b m2 (.inl hf2)]
  refine ⟨pathT (colVal root th b) p2, p1 ++ [f], pathT_rigid hr _ m2, isPath_prefix hp, by simp, ?_, e2, ?_⟩
  · intro x
    exact pathT_rigid hr _ fun g hg => hmem g (by simp at hg ⊢; tauto)
  · intro x i l
    simp only [e2, e1]
    have := hasDerivAt_sandwich (hasDerivAt_motion (hr.axis f hf) x)
      (pathT (colVal root th b) p1 * (f.link.offset.getD 1 * f.joint.offset.getD 1)) (pathT (colVal root th b) p2) i l
    simpa only [Matrix.mul_assoc] using this

end PK
