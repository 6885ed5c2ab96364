import Verif.Props.Serial
import Verif.Spec.Heap

/-!
# C98: a `SerialChain` is built from copies

The chain it is built from is unchanged, and the two share no frame, link or joint afterwards.
-/

namespace PK
open Spec

/-! ## Regions -/

/-- every reference is to an existing object -/
def FHeap.Ok (h : FHeap) : Prop :=
  ∀ f ∈ h.frames, f.link < h.links.length ∧ f.joint < h.joints.length ∧ ∀ c ∈ f.children, c < h.frames.length

/-- `P` is a union of components: references do not cross it -/
def Sep (P : FRef → Prop) (h : FHeap) : Prop :=
  ∀ i f, h.frames[i]? = some f →
    (P (.link f.link) ↔ P (.frame i)) ∧ (P (.joint f.joint) ↔ P (.frame i)) ∧ ∀ c ∈ f.children, (P (.frame c) ↔ P (.frame i))

/-- objects to be made are outside of `P` -/
def FreshFor (P : FRef → Prop) (h : FHeap) : Prop :=
  (∀ i, h.frames.length ≤ i → ¬ P (.frame i)) ∧ (∀ i, h.links.length ≤ i → ¬ P (.link i)) ∧
    ∀ i, h.joints.length ≤ i → ¬ P (.joint i)

/-- the objects of `P` are the same -/
def Same (P : FRef → Prop) (h h' : FHeap) : Prop :=
  (∀ i, P (.frame i) → h'.frames[i]? = h.frames[i]?) ∧ (∀ i, P (.link i) → h'.links[i]? = h.links[i]?) ∧
    ∀ i, P (.joint i) → h'.joints[i]? = h.joints[i]?

theorem Same.refl (P : FRef → Prop) (h : FHeap) : Same P h h := ⟨fun _ _ => rfl, fun _ _ => rfl, fun _ _ => rfl⟩
theorem Same.trans {P : FRef → Prop} {a b c : FHeap} (h : Same P a b) (h' : Same P b c) : Same P a c :=
  ⟨fun i hi => (h'.1 i hi).trans (h.1 i hi), fun i hi => (h'.2.1 i hi).trans (h.2.1 i hi),
    fun i hi => (h'.2.2 i hi).trans (h.2.2 i hi)⟩

theorem mapM_option_congr {α β : Type} {f g : α → Option β} : ∀ {l : List α}, (∀ a ∈ l, f a = g a) → l.mapM f = l.mapM g
  | [], _ => rfl
  | a :: l, h => by
    rw [List.mapM_cons, List.mapM_cons, h a (by simp), mapM_option_congr fun b hb => h b (by simp [hb])]

theorem tree_same {P : FRef → Prop} {h h' : FHeap} (hs : Sep P h) (hm : Same P h h') : ∀ (n r : ℕ), P (.frame r) →
    h'.tree n r = h.tree n r
  | 0, _, _ => rfl
  | n + 1, r, hr => by
    simp only [FHeap.tree]
    rw [hm.1 r hr]
    cases hf : h.frames[r]? with
    | none => rfl
    | some f =>
      obtain ⟨h1, h2, h3⟩ := hs r f hf
      simp only [Option.bind_eq_bind, Option.bind_some]
      rw [hm.2.1 _ (h1.2 hr), hm.2.2 _ (h2.2 hr),
        mapM_option_congr fun c hc => tree_same hs hm n c ((h3 c hc).2 hr)]

/-! ## Statements stay inside the region of the variables that they name -/

theorem findList_out {P : FRef → Prop} {h : FHeap} {name : Name} {rec : ℕ → Option ℕ} : ∀ {cs : List ℕ} {x : ℕ},
    (∀ c ∈ cs, ¬ P (.frame c)) → (∀ c ∈ cs, ∀ y, rec c = some y → ¬ P (.frame y)) → findList h name rec cs = some x →
    ¬ P (.frame x)
  | [], _, _, _, he => by simp [findList] at he
  | c :: cs, x, h1, h2, he => by
    simp only [findList] at he
    split at he
    · cases he; exact h1 _ (by simp)
    · split at he
      · rename_i y hy
        cases he
        exact h2 c (by simp) _ hy
      · exact findList_out (fun c hc => h1 c (by simp [hc])) (fun c hc => h2 c (by simp [hc])) he

theorem findRec_out {P : FRef → Prop} {h : FHeap} (hs : Sep P h) (name : Name) : ∀ {n r x : ℕ}, ¬ P (.frame r) →
    h.findRec name n r = some x → ¬ P (.frame x)
  | 0, _, _, _, he => by simp [FHeap.findRec] at he
  | n + 1, r, x, hr, he => by
    simp only [FHeap.findRec] at he
    cases hf : h.frames[r]? with
    | none => rw [hf] at he; simp at he
    | some f =>
      rw [hf] at he
      have hc : ∀ c ∈ f.children, ¬ P (.frame c) := fun c hc hp => hr (((hs r f hf).2.2 c hc).1 hp)
      exact findList_out hc (fun c hc' y hy => findRec_out hs name (hc c hc') hy) he

theorem findFrame_out {P : FRef → Prop} {h : FHeap} (hs : Sep P h) {name : Name} {n r x : ℕ} (hr : ¬ P (.frame r))
    (he : h.findFrame n r name = some x) : ¬ P (.frame x) := by
  simp only [FHeap.findFrame] at he
  split at he
  · cases he; exact hr
  · exact findRec_out hs name hr he

theorem sep_push {P : FRef → Prop} {h : FHeap} (hs : Sep P h) (hf : FreshFor P h) {f : FrameRec}
    (h1 : ¬ P (.link f.link)) (h2 : ¬ P (.joint f.joint)) (h3 : ∀ c ∈ f.children, ¬ P (.frame c)) (ls : List Link)
    (js : List Joint) : Sep P ⟨h.frames ++ [f], ls, js⟩ := by
  intro i g hg
  simp only at hg
  rw [List.getElem?_append] at hg
  split at hg
  · exact hs i g hg
  · rename_i hi
    have : g = f := by
      rw [List.getElem?_singleton] at hg
      split at hg
      · exact (Option.some.inj hg).symm
      · simp at hg
    subst this
    have hp := hf.1 i (by omega)
    exact ⟨iff_of_false h1 hp, iff_of_false h2 hp, fun c hc => iff_of_false (h3 c hc) hp⟩

theorem sep_set {P : FRef → Prop} {h : FHeap} (hs : Sep P h) {r : ℕ} (hr : ¬ P (.frame r)) {g : FrameRec → FrameRec}
    (hg : ∀ f, h.frames[r]? = some f → ¬ P (.link (g f).link) ∧ ¬ P (.joint (g f).joint) ∧
      ∀ c ∈ (g f).children, ¬ P (.frame c)) : Sep P (h.setFrame r g) := by
  intro i f hf
  simp only [FHeap.setFrame, List.getElem?_modify] at hf
  split at hf
  · rename_i hi
    subst hi
    cases hx : h.frames[r]? with
    | none => rw [hx] at hf; simp at hf
    | some f0 =>
      rw [hx] at hf
      simp only [Option.map_eq_map, Option.map_some, Option.some.injEq] at hf
      subst hf
      obtain ⟨h1, h2, h3⟩ := hg f0 hx
      exact ⟨iff_of_false h1 hr, iff_of_false h2 hr, fun c hc => iff_of_false (h3 c hc) hr⟩
  · simp only [id_map'] at hf
    exact hs i f hf

theorem same_set {P : FRef → Prop} {h : FHeap} {r : ℕ} (hr : ¬ P (.frame r)) (g : FrameRec → FrameRec) :
    Same P h (h.setFrame r g) := by
  refine ⟨fun i hi => ?_, fun _ _ => rfl, fun _ _ => rfl⟩
  have : r ≠ i := by rintro rfl; exact hr hi
  simp [FHeap.setFrame, List.getElem?_modify, this]

/-- the variables in `A` refer to objects outside of `P` -/
structure Outside (A : ℕ → Prop) (P : FRef → Prop) (w : FWorld) : Prop where
  sep : Sep P w.heap
  fresh : FreshFor P w.heap
  vars : ∀ v x, w.vars[v]? = some x → A v → ¬ P x

theorem FWorld.frame_some {w : FWorld} {v i : ℕ} (h : w.frame v = some i) : w.vars[v]? = some (.frame i) := by
  unfold FWorld.frame at h
  split at h
  · rename_i hx; rw [hx]; cases h; rfl
  · simp at h
theorem FWorld.link_some {w : FWorld} {v i : ℕ} (h : w.link v = some i) : w.vars[v]? = some (.link i) := by
  unfold FWorld.link at h
  split at h
  · rename_i hx; rw [hx]; cases h; rfl
  · simp at h
theorem FWorld.joint_some {w : FWorld} {v i : ℕ} (h : w.joint v = some i) : w.vars[v]? = some (.joint i) := by
  unfold FWorld.joint at h
  split at h
  · rename_i hx; rw [hx]; cases h; rfl
  · simp at h

theorem vars_push {A : ℕ → Prop} {P : FRef → Prop} {vs : List FRef} {x : FRef}
    (h : ∀ v x, vs[v]? = some x → A v → ¬ P x) (hx : ¬ P x) : ∀ v y, (vs ++ [x])[v]? = some y → A v → ¬ P y := by
  intro v y hy ha
  rw [List.getElem?_append] at hy
  split at hy
  · exact h v y hy ha
  · rw [List.getElem?_singleton] at hy
    split at hy
    · cases hy; exact hx
    · simp at hy

theorem setFrame_lengths (h : FHeap) (r : ℕ) (g : FrameRec → FrameRec) :
    (h.setFrame r g).frames.length = h.frames.length ∧ (h.setFrame r g).links.length = h.links.length ∧
      (h.setFrame r g).joints.length = h.joints.length := by
  simp [FHeap.setFrame]

theorem fresh_of_le {P : FRef → Prop} {h h' : FHeap} (hf : FreshFor P h) (h1 : h.frames.length ≤ h'.frames.length)
    (h2 : h.links.length ≤ h'.links.length) (h3 : h.joints.length ≤ h'.joints.length) : FreshFor P h' :=
  ⟨fun i hi => hf.1 i (by omega), fun i hi => hf.2.1 i (by omega), fun i hi => hf.2.2 i (by omega)⟩

theorem same_push {P : FRef → Prop} {h : FHeap} (hf : FreshFor P h) (fs : List FrameRec) (ls : List Link)
    (js : List Joint) : Same P h ⟨h.frames ++ fs, h.links ++ ls, h.joints ++ js⟩ := by
  refine ⟨fun i hi => ?_, fun i hi => ?_, fun i hi => ?_⟩
  · rw [List.getElem?_append_left]
    by_contra hc
    exact hf.1 i (by omega) hi
  · rw [List.getElem?_append_left]
    by_contra hc
    exact hf.2.1 i (by omega) hi
  · rw [List.getElem?_append_left]
    by_contra hc
    exact hf.2.2 i (by omega) hi

theorem outside_set {A : ℕ → Prop} {P : FRef → Prop} {w : FWorld} (ho : Outside A P w) {r : ℕ} (hr : ¬ P (.frame r))
    {g : FrameRec → FrameRec}
    (hg : ∀ f, w.heap.frames[r]? = some f → ¬ P (.link (g f).link) ∧ ¬ P (.joint (g f).joint) ∧
      ∀ c ∈ (g f).children, ¬ P (.frame c)) :
    Outside A P { w with heap := w.heap.setFrame r g } ∧ Same P w.heap (w.heap.setFrame r g) := by
  obtain ⟨l1, l2, l3⟩ := setFrame_lengths w.heap r g
  exact ⟨⟨sep_set ho.sep hr hg, fresh_of_le ho.fresh l1.ge l2.ge l3.ge, ho.vars⟩, same_set hr g⟩

theorem outside_frame {P : FRef → Prop} {h : FHeap} (hs : Sep P h) {r : ℕ} (hr : ¬ P (.frame r)) {f : FrameRec}
    (hf : h.frames[r]? = some f) :
    ¬ P (.link f.link) ∧ ¬ P (.joint f.joint) ∧ ∀ c ∈ f.children, ¬ P (.frame c) := by
  obtain ⟨h1, h2, h3⟩ := hs r f hf
  exact ⟨fun hp => hr (h1.1 hp), fun hp => hr (h2.1 hp), fun c hc hp => hr ((h3 c hc).1 hp)⟩

theorem step_outside {A : ℕ → Prop} {P : FRef → Prop} {w w' : FWorld} (ho : Outside A P w) {op : FOp}
    (hu : ∀ v ∈ usedVars op, A v) (hs : op.step w = some w') : Outside A P w' ∧ Same P w.heap w'.heap := by
  have hF : ∀ {v i}, A v → w.frame v = some i → ¬ P (.frame i) := fun hv hx => ho.vars _ _ (FWorld.frame_some hx) hv
  have hL : ∀ {v i}, A v → w.link v = some i → ¬ P (.link i) := fun hv hx => ho.vars _ _ (FWorld.link_some hx) hv
  have hJ : ∀ {v i}, A v → w.joint v = some i → ¬ P (.joint i) := fun hv hx => ho.vars _ _ (FWorld.joint_some hx) hv
  cases op with
  | newLink l =>
    simp only [FOp.step, Option.some.injEq] at hs
    subst hs
    refine ⟨⟨ho.sep, fresh_of_le ho.fresh le_rfl (by simp) le_rfl, vars_push ho.vars (ho.fresh.2.1 _ le_rfl)⟩, ?_⟩
    simpa using same_push ho.fresh [] [l] []
  | newJoint j =>
    simp only [FOp.step, Option.some.injEq] at hs
    subst hs
    refine ⟨⟨ho.sep, fresh_of_le ho.fresh le_rfl le_rfl (by simp), vars_push ho.vars (ho.fresh.2.2 _ le_rfl)⟩, ?_⟩
    simpa using same_push ho.fresh [] [] [j]
  | newFrame n l j =>
    simp only [FOp.step, Option.bind_eq_bind, Option.bind_eq_some_iff, Option.some.injEq] at hs
    obtain ⟨a, ha, b, hb, rfl⟩ := hs
    refine ⟨⟨sep_push ho.sep ho.fresh (hL (hu _ (by simp [usedVars])) ha) (hJ (hu _ (by simp [usedVars])) hb) (by simp) _ _,
      fresh_of_le ho.fresh (by simp) le_rfl le_rfl, vars_push ho.vars (ho.fresh.1 _ le_rfl)⟩, ?_⟩
    simpa using same_push ho.fresh [⟨n, a, b, []⟩] [] []
  | getLink v =>
    simp only [FOp.step, Option.bind_eq_bind, Option.bind_eq_some_iff, Option.some.injEq] at hs
    obtain ⟨r, hr, f, hf, rfl⟩ := hs
    exact ⟨⟨ho.sep, ho.fresh, vars_push ho.vars
      (outside_frame ho.sep (hF (hu _ (by simp [usedVars])) hr) hf).1⟩, Same.refl _ _⟩
  | getJoint v =>
    simp only [FOp.step, Option.bind_eq_bind, Option.bind_eq_some_iff, Option.some.injEq] at hs
    obtain ⟨r, hr, f, hf, rfl⟩ := hs
    exact ⟨⟨ho.sep, ho.fresh, vars_push ho.vars
      (outside_frame ho.sep (hF (hu _ (by simp [usedVars])) hr) hf).2.1⟩, Same.refl _ _⟩
  | getChild v i =>
    simp only [FOp.step, Option.bind_eq_bind, Option.bind_eq_some_iff, Option.some.injEq] at hs
    obtain ⟨r, hr, f, hf, c, hc, rfl⟩ := hs
    exact ⟨⟨ho.sep, ho.fresh, vars_push ho.vars
      ((outside_frame ho.sep (hF (hu _ (by simp [usedVars])) hr) hf).2.2 c (List.mem_of_getElem? hc))⟩, Same.refl _ _⟩
  | find v fuel name =>
    simp only [FOp.step, Option.bind_eq_bind, Option.bind_eq_some_iff, Option.some.injEq] at hs
    obtain ⟨r, hr, c, hc, rfl⟩ := hs
    exact ⟨⟨ho.sep, ho.fresh, vars_push ho.vars
      (findFrame_out ho.sep (hF (hu _ (by simp [usedVars])) hr) hc)⟩, Same.refl _ _⟩
  | setLink v l =>
    simp only [FOp.step, Option.bind_eq_bind, Option.bind_eq_some_iff, Option.some.injEq] at hs
    obtain ⟨r, hr, rfl⟩ := hs
    refine ⟨⟨ho.sep, fresh_of_le ho.fresh le_rfl (by simp) le_rfl, ho.vars⟩, fun _ _ => rfl, fun i hi => ?_, fun _ _ => rfl⟩
    exact List.getElem?_set_ne (by rintro rfl; exact hL (hu _ (by simp [usedVars])) hr hi)
  | setJoint v j =>
    simp only [FOp.step, Option.bind_eq_bind, Option.bind_eq_some_iff, Option.some.injEq] at hs
    obtain ⟨r, hr, rfl⟩ := hs
    refine ⟨⟨ho.sep, fresh_of_le ho.fresh le_rfl le_rfl (by simp), ho.vars⟩, fun _ _ => rfl, fun _ _ => rfl, fun i hi => ?_⟩
    exact List.getElem?_set_ne (by rintro rfl; exact hJ (hu _ (by simp [usedVars])) hr hi)
  | setName v n =>
    simp only [FOp.step, Option.bind_eq_bind, Option.bind_eq_some_iff, Option.some.injEq] at hs
    obtain ⟨r, hr, rfl⟩ := hs
    have := hF (hu _ (by simp [usedVars])) hr
    exact outside_set ho this fun f hf =>
      ⟨(outside_frame ho.sep this hf).1, (outside_frame ho.sep this hf).2⟩
  | assignLink v u =>
    simp only [FOp.step, Option.bind_eq_bind, Option.bind_eq_some_iff, Option.some.injEq] at hs
    obtain ⟨r, hr, l, hl, rfl⟩ := hs
    have := hF (hu _ (by simp [usedVars])) hr
    exact outside_set ho this fun f hf =>
      ⟨hL (hu _ (by simp [usedVars])) hl, (outside_frame ho.sep this hf).2⟩
  | assignJoint v u =>
    simp only [FOp.step, Option.bind_eq_bind, Option.bind_eq_some_iff, Option.some.injEq] at hs
    obtain ⟨r, hr, l, hl, rfl⟩ := hs
    have := hF (hu _ (by simp [usedVars])) hr
    exact outside_set ho this fun f hf =>
      ⟨(outside_frame ho.sep this hf).1, hJ (hu _ (by simp [usedVars])) hl, (outside_frame ho.sep this hf).2.2⟩
  | addChild v u =>
    simp only [FOp.step, Option.bind_eq_bind, Option.bind_eq_some_iff, Option.some.injEq] at hs
    obtain ⟨r, hr, c, hc, rfl⟩ := hs
    have := hF (hu v (by simp [usedVars])) hr
    refine outside_set ho this fun f hf =>
      ⟨(outside_frame ho.sep this hf).1, (outside_frame ho.sep this hf).2.1, fun x hx => ?_⟩
    simp only [List.mem_append, List.mem_singleton] at hx
    rcases hx with hx | rfl
    · exact (outside_frame ho.sep this hf).2.2 x hx
    · exact hF (hu u (by simp [usedVars])) hc
  | clearChildren v =>
    simp only [FOp.step, Option.bind_eq_bind, Option.bind_eq_some_iff, Option.some.injEq] at hs
    obtain ⟨r, hr, rfl⟩ := hs
    have := hF (hu _ (by simp [usedVars])) hr
    exact outside_set ho this fun f hf =>
      ⟨(outside_frame ho.sep this hf).1, (outside_frame ho.sep this hf).2.1, by simp⟩

theorem run_outside {A : ℕ → Prop} {P : FRef → Prop} : ∀ {ops : List FOp} {w : FWorld}, Outside A P w →
    (∀ op ∈ ops, ∀ v ∈ usedVars op, A v) → Outside A P (runFOps w ops) ∧ Same P w.heap (runFOps w ops).heap
  | [], _, ho, _ => ⟨ho, Same.refl _ _⟩
  | op :: ops, w, ho, hu => by
    have h1 : Outside A P (op.run w) ∧ Same P w.heap (op.run w).heap := by
      unfold FOp.run
      cases hs : op.step w with
      | none => exact ⟨ho, Same.refl _ _⟩
      | some w' => exact step_outside ho (hu op (by simp)) hs
    obtain ⟨h2, h3⟩ := run_outside (ops := ops) h1.1 fun o ho' => hu o (by simp [ho'])
    exact ⟨h2, h1.2.trans h3⟩

/-! ## Programs make no dangling references -/

/-- the objects of a heap -/
def Old (h : FHeap) : FRef → Prop
  | .frame i => i < h.frames.length
  | .link i => i < h.links.length
  | .joint i => i < h.joints.length

/-- references and variables are to existing objects -/
structure FWorld.Ok (w : FWorld) : Prop where
  heap : w.heap.Ok
  vars : ∀ x ∈ w.vars, Old w.heap x

theorem Old.mono {h h' : FHeap} (h1 : h.frames.length ≤ h'.frames.length) (h2 : h.links.length ≤ h'.links.length)
    (h3 : h.joints.length ≤ h'.joints.length) {x : FRef} (hx : Old h x) : Old h' x := by
  cases x <;> simp only [Old] at hx ⊢ <;> omega

theorem ok_vars {w : FWorld} (ho : w.Ok) {v : ℕ} {x : FRef} (hv : w.vars[v]? = some x) : Old w.heap x :=
  ho.vars x (List.mem_of_getElem? hv)

theorem ok_push {h : FHeap} (ho : h.Ok) (fs : List FrameRec) (ls : List Link) (js : List Joint)
    (hf : ∀ f ∈ fs, f.link < h.links.length + ls.length ∧ f.joint < h.joints.length + js.length ∧
      ∀ c ∈ f.children, c < h.frames.length + fs.length) : FHeap.Ok ⟨h.frames ++ fs, h.links ++ ls, h.joints ++ js⟩ := by
  intro f hf'
  simp only [List.mem_append, List.length_append] at hf' ⊢
  rcases hf' with hf' | hf'
  · obtain ⟨h1, h2, h3⟩ := ho f hf'
    exact ⟨by omega, by omega, fun c hc => by have := h3 c hc; omega⟩
  · exact hf f hf'

theorem ok_set {h : FHeap} (ho : h.Ok) {r : ℕ} {g : FrameRec → FrameRec}
    (hg : ∀ f, h.frames[r]? = some f → (g f).link < h.links.length ∧ (g f).joint < h.joints.length ∧
      ∀ c ∈ (g f).children, c < h.frames.length) : (h.setFrame r g).Ok := by
  intro f hf
  obtain ⟨l1, l2, l3⟩ := setFrame_lengths h r g
  rw [l1, l2, l3]
  obtain ⟨i, hi⟩ := List.mem_iff_getElem?.1 hf
  by_cases hri : r = i
  · subst hri
    simp only [FHeap.setFrame, List.getElem?_modify, if_true] at hi
    cases hx : h.frames[r]? with
    | none => rw [hx] at hi; simp at hi
    | some f0 =>
      rw [hx] at hi
      simp only [Option.map_eq_map, Option.map_some, Option.some.injEq] at hi
      subst hi
      exact hg f0 hx
  · simp only [FHeap.setFrame, List.getElem?_modify, hri, if_false, Option.map_eq_map, Option.map_id'] at hi
    exact ho f (List.mem_of_getElem? hi)

theorem okw_set {w : FWorld} (ho : w.Ok) {r : ℕ} {g : FrameRec → FrameRec}
    (hg : ∀ f, w.heap.frames[r]? = some f → (g f).link < w.heap.links.length ∧ (g f).joint < w.heap.joints.length ∧
      ∀ c ∈ (g f).children, c < w.heap.frames.length) : FWorld.Ok { w with heap := w.heap.setFrame r g } := by
  obtain ⟨l1, l2, l3⟩ := setFrame_lengths w.heap r g
  exact ⟨ok_set ho.heap hg, fun x hx => Old.mono l1.ge l2.ge l3.ge (ho.vars x hx)⟩

theorem okw_bind {w : FWorld} (ho : w.Ok) {x : FRef} (hx : Old w.heap x) : (w.bind x).Ok := by
  refine ⟨ho.heap, fun y hy => ?_⟩
  simp only [FWorld.bind, List.mem_append, List.mem_singleton] at hy
  rcases hy with hy | rfl
  · exact ho.vars y hy
  · exact hx

theorem okw_push {w : FWorld} (ho : w.Ok) (fs : List FrameRec) (ls : List Link) (js : List Joint)
    (hf : ∀ f ∈ fs, f.link < w.heap.links.length + ls.length ∧ f.joint < w.heap.joints.length + js.length ∧
      ∀ c ∈ f.children, c < w.heap.frames.length + fs.length) {x : FRef}
    (hx : Old ⟨w.heap.frames ++ fs, w.heap.links ++ ls, w.heap.joints ++ js⟩ x) :
    FWorld.Ok ⟨⟨w.heap.frames ++ fs, w.heap.links ++ ls, w.heap.joints ++ js⟩, w.vars ++ [x]⟩ := by
  refine ⟨ok_push ho.heap fs ls js hf, fun y hy => ?_⟩
  simp only [List.mem_append, List.mem_singleton] at hy
  rcases hy with hy | rfl
  · exact Old.mono (by simp) (by simp) (by simp) (ho.vars y hy)
  · exact hx

theorem old_findList {h : FHeap} {name : Name} {rec : ℕ → Option ℕ} {n : ℕ} : ∀ {cs : List ℕ} {x : ℕ},
    (∀ c ∈ cs, c < n) → (∀ c ∈ cs, ∀ y, rec c = some y → y < n) → findList h name rec cs = some x → x < n
  | [], _, _, _, he => by simp [findList] at he
  | c :: cs, x, h1, h2, he => by
    simp only [findList] at he
    split at he
    · cases he; exact h1 _ (by simp)
    · split at he
      · rename_i y hy
        cases he
        exact h2 c (by simp) _ hy
      · exact old_findList (fun c hc => h1 c (by simp [hc])) (fun c hc => h2 c (by simp [hc])) he

theorem old_findRec {h : FHeap} (hs : h.Ok) (name : Name) : ∀ {n r x : ℕ},
    h.findRec name n r = some x → x < h.frames.length
  | 0, _, _, he => by simp [FHeap.findRec] at he
  | n + 1, r, x, he => by
    simp only [FHeap.findRec] at he
    cases hf : h.frames[r]? with
    | none => rw [hf] at he; simp at he
    | some f =>
      rw [hf] at he
      exact old_findList ((hs f (List.mem_of_getElem? hf)).2.2) (fun c _ y hy => old_findRec hs name hy) he

theorem old_findFrame {h : FHeap} (hs : h.Ok) {name : Name} {n r x : ℕ} (hr : r < h.frames.length)
    (he : h.findFrame n r name = some x) : x < h.frames.length := by
  simp only [FHeap.findFrame] at he
  split at he
  · cases he; exact hr
  · exact old_findRec hs name he

theorem step_ok {w w' : FWorld} (ho : w.Ok) {op : FOp} (hs : op.step w = some w') : w'.Ok := by
  have hF : ∀ {v i}, w.frame v = some i → i < w.heap.frames.length := fun hx => ok_vars ho (FWorld.frame_some hx)
  have hL : ∀ {v i}, w.link v = some i → i < w.heap.links.length := fun hx => ok_vars ho (FWorld.link_some hx)
  have hJ : ∀ {v i}, w.joint v = some i → i < w.heap.joints.length := fun hx => ok_vars ho (FWorld.joint_some hx)
  have hR : ∀ {r : ℕ} {f}, w.heap.frames[r]? = some f → f.link < w.heap.links.length ∧ f.joint < w.heap.joints.length ∧
      ∀ c ∈ f.children, c < w.heap.frames.length := fun hf => ho.heap _ (List.mem_of_getElem? hf)
  cases op with
  | newLink l =>
    simp only [FOp.step, Option.some.injEq] at hs
    subst hs
    simpa using okw_push ho [] [l] [] (by simp) (x := .link w.heap.links.length) (by simp [Old])
  | newJoint j =>
    simp only [FOp.step, Option.some.injEq] at hs
    subst hs
    simpa using okw_push ho [] [] [j] (by simp) (x := .joint w.heap.joints.length) (by simp [Old])
  | newFrame n l j =>
    simp only [FOp.step, Option.bind_eq_bind, Option.bind_eq_some_iff, Option.some.injEq] at hs
    obtain ⟨a, ha, b, hb, rfl⟩ := hs
    have h1 := hL ha
    have h2 := hJ hb
    simpa using okw_push ho [⟨n, a, b, []⟩] [] [] (by simp; omega) (x := .frame w.heap.frames.length) (by simp [Old])
  | getLink v =>
    simp only [FOp.step, Option.bind_eq_bind, Option.bind_eq_some_iff, Option.some.injEq] at hs
    obtain ⟨r, hr, f, hf, rfl⟩ := hs
    exact okw_bind ho (hR hf).1
  | getJoint v =>
    simp only [FOp.step, Option.bind_eq_bind, Option.bind_eq_some_iff, Option.some.injEq] at hs
    obtain ⟨r, hr, f, hf, rfl⟩ := hs
    exact okw_bind ho (hR hf).2.1
  | getChild v i =>
    simp only [FOp.step, Option.bind_eq_bind, Option.bind_eq_some_iff, Option.some.injEq] at hs
    obtain ⟨r, hr, f, hf, c, hc, rfl⟩ := hs
    exact okw_bind ho ((hR hf).2.2 c (List.mem_of_getElem? hc))
  | find v fuel name =>
    simp only [FOp.step, Option.bind_eq_bind, Option.bind_eq_some_iff, Option.some.injEq] at hs
    obtain ⟨r, hr, c, hc, rfl⟩ := hs
    exact okw_bind ho (old_findFrame ho.heap (hF hr) hc)
  | setLink v l =>
    simp only [FOp.step, Option.bind_eq_bind, Option.bind_eq_some_iff, Option.some.injEq] at hs
    obtain ⟨r, hr, rfl⟩ := hs
    refine ⟨fun f hf => by simpa using ho.heap f hf, fun x hx => ?_⟩
    have := ho.vars x hx
    cases x <;> simpa [Old] using this
  | setJoint v j =>
    simp only [FOp.step, Option.bind_eq_bind, Option.bind_eq_some_iff, Option.some.injEq] at hs
    obtain ⟨r, hr, rfl⟩ := hs
    refine ⟨fun f hf => by simpa using ho.heap f hf, fun x hx => ?_⟩
    have := ho.vars x hx
    cases x <;> simpa [Old] using this
  | setName v n =>
    simp only [FOp.step, Option.bind_eq_bind, Option.bind_eq_some_iff, Option.some.injEq] at hs
    obtain ⟨r, hr, rfl⟩ := hs
    exact okw_set ho fun f hf => ⟨(hR hf).1, (hR hf).2⟩
  | assignLink v u =>
    simp only [FOp.step, Option.bind_eq_bind, Option.bind_eq_some_iff, Option.some.injEq] at hs
    obtain ⟨r, hr, l, hl, rfl⟩ := hs
    exact okw_set ho fun f hf => ⟨hL hl, (hR hf).2⟩
  | assignJoint v u =>
    simp only [FOp.step, Option.bind_eq_bind, Option.bind_eq_some_iff, Option.some.injEq] at hs
    obtain ⟨r, hr, l, hl, rfl⟩ := hs
    exact okw_set ho fun f hf => ⟨(hR hf).1, hJ hl, (hR hf).2.2⟩
  | addChild v u =>
    simp only [FOp.step, Option.bind_eq_bind, Option.bind_eq_some_iff, Option.some.injEq] at hs
    obtain ⟨r, hr, c, hc, rfl⟩ := hs
    refine okw_set ho fun f hf => ⟨(hR hf).1, (hR hf).2.1, fun x hx => ?_⟩
    simp only [List.mem_append, List.mem_singleton] at hx
    rcases hx with hx | rfl
    · exact (hR hf).2.2 x hx
    · exact hF hc
  | clearChildren v =>
    simp only [FOp.step, Option.bind_eq_bind, Option.bind_eq_some_iff, Option.some.injEq] at hs
    obtain ⟨r, hr, rfl⟩ := hs
    exact okw_set ho fun f hf => ⟨(hR hf).1, (hR hf).2.1, by simp⟩

theorem run_ok : ∀ {ops : List FOp} {w : FWorld}, w.Ok → (runFOps w ops).Ok
  | [], _, ho => ho
  | op :: ops, w, ho => by
    refine run_ok (ops := ops) (w := op.run w) ?_
    unfold FOp.run
    cases hs : op.step w with
    | none => exact ho
    | some w' => exact step_ok ho hs

theorem empty_ok : FWorld.Ok {} := ⟨by intro f hf; simp at hf, by intro x hx; simp at hx⟩

/-! ## Extensions: everything old is kept, everything new refers to new objects -/

structure Ext (h h' : FHeap) : Prop where
  ok : h'.Ok
  same : Same (Old h) h h'
  lf : h.frames.length ≤ h'.frames.length
  ll : h.links.length ≤ h'.links.length
  lj : h.joints.length ≤ h'.joints.length
  new : ∀ i f, h.frames.length ≤ i → h'.frames[i]? = some f →
    h.links.length ≤ f.link ∧ h.joints.length ≤ f.joint ∧ ∀ c ∈ f.children, h.frames.length ≤ c

theorem Ext.refl {h : FHeap} (ho : h.Ok) : Ext h h :=
  ⟨ho, Same.refl _ _, le_rfl, le_rfl, le_rfl, fun i f hi hf => by
    rw [List.getElem?_eq_none hi] at hf; simp at hf⟩

theorem Ext.trans {a b c : FHeap} (h : Ext a b) (h' : Ext b c) : Ext a c := by
  refine ⟨h'.ok, ⟨fun i hi => ?_, fun i hi => ?_, fun i hi => ?_⟩, h.lf.trans h'.lf, h.ll.trans h'.ll, h.lj.trans h'.lj,
    fun i f hi hf => ?_⟩
  · exact (h'.same.1 i (Old.mono h.lf h.ll h.lj hi)).trans (h.same.1 i hi)
  · exact (h'.same.2.1 i (Old.mono h.lf h.ll h.lj hi)).trans (h.same.2.1 i hi)
  · exact (h'.same.2.2 i (Old.mono h.lf h.ll h.lj hi)).trans (h.same.2.2 i hi)
  · by_cases hb : i < b.frames.length
    · rw [h'.same.1 i hb] at hf
      exact h.new i f hi hf
    · obtain ⟨h1, h2, h3⟩ := h'.new i f (by omega) hf
      exact ⟨h.ll.trans h1, h.lj.trans h2, fun c hc => h.lf.trans (h3 c hc)⟩

theorem old_sep {h : FHeap} (ho : h.Ok) : Sep (Old h) h := by
  intro i f hf
  obtain ⟨h1, h2, h3⟩ := ho f (List.mem_of_getElem? hf)
  have hi : Old h (.frame i) := (List.getElem?_eq_some_iff.1 hf).1
  exact ⟨iff_of_true h1 hi, iff_of_true h2 hi, fun c hc => iff_of_true (h3 c hc) hi⟩

theorem Ext.sep {h h' : FHeap} (he : Ext h h') (ho : h.Ok) : Sep (Old h) h' := by
  intro i f hf
  by_cases hi : i < h.frames.length
  · rw [he.same.1 i hi] at hf
    exact old_sep ho i f hf
  · obtain ⟨h1, h2, h3⟩ := he.new i f (by omega) hf
    have hi' : ¬ Old h (.frame i) := hi
    exact ⟨iff_of_false (by simp [Old]; omega) hi', iff_of_false (by simp [Old]; omega) hi',
      fun c hc => iff_of_false (by have := h3 c hc; simp [Old]; omega) hi'⟩

theorem Ext.fresh {h h' : FHeap} (he : Ext h h') : FreshFor (Old h) h' := by
  have := he.lf
  have := he.ll
  have := he.lj
  exact ⟨fun i hi => by simp [Old]; omega, fun i hi => by simp [Old]; omega, fun i hi => by simp [Old]; omega⟩

/-- the objects made between two heaps -/
def Made (h h' : FHeap) (x : FRef) : Prop := Old h' x ∧ ¬ Old h x

theorem Ext.sep_made {h h' : FHeap} (he : Ext h h') (ho : h.Ok) : Sep (Made h h') h' := by
  intro i f hf
  obtain ⟨h1, h2, h3⟩ := he.sep ho i f hf
  obtain ⟨g1, g2, g3⟩ := old_sep he.ok i f hf
  exact ⟨by simp only [Made]; tauto, by simp only [Made]; tauto,
    fun c hc => by have := h3 c hc; have := g3 c hc; simp only [Made]; tauto⟩

theorem Ext.fresh_made (h h' : FHeap) : FreshFor (Made h h') h' :=
  ⟨fun i hi hm => by have := hm.1; simp only [Old] at this; omega,
    fun i hi hm => by have := hm.1; simp only [Old] at this; omega,
    fun i hi hm => by have := hm.1; simp only [Old] at this; omega⟩

/-! ## `copy.deepcopy` -/

theorem ext_push {h0 h : FHeap} (he : Ext h0 h) (f : FrameRec) (l : Link) (j : Joint)
    (hl : f.link = h.links.length) (hj : f.joint = h.joints.length)
    (hc : ∀ c ∈ f.children, h0.frames.length ≤ c ∧ c < h.frames.length) :
    Ext h0 ⟨h.frames ++ [f], h.links ++ [l], h.joints ++ [j]⟩ := by
  have l1 := he.lf
  have l2 := he.ll
  have l3 := he.lj
  refine ⟨ok_push he.ok [f] [l] [j] ?_, he.same.trans (same_push he.fresh [f] [l] [j]), by simp; omega, by simp; omega,
    by simp; omega, fun i g hi hg => ?_⟩
  · intro g hg
    simp only [List.mem_singleton] at hg
    subst hg
    refine ⟨by simp [hl], by simp [hj], fun c hc' => ?_⟩
    have := (hc c hc').2
    simp; omega
  · simp only [List.getElem?_append] at hg
    split at hg
    · exact he.new i g hi hg
    · rw [List.getElem?_singleton] at hg
      split at hg
      · cases hg
        exact ⟨by omega, by omega, fun c hc' => (hc c hc').1⟩
      · simp at hg

/-- a copying function makes new objects only -/
def CopiesNew (cp : FHeap → ℕ → Option (FHeap × ℕ)) : Prop :=
  ∀ h r h' r', h.Ok → cp h r = some (h', r') → Ext h h' ∧ h.frames.length ≤ r' ∧ r' < h'.frames.length

theorem copyList_ext {cp : FHeap → ℕ → Option (FHeap × ℕ)} (hcp : CopiesNew cp) : ∀ (rs : List ℕ) (h h' : FHeap)
    (rs' : List ℕ), h.Ok → copyList cp h rs = some (h', rs') →
    Ext h h' ∧ ∀ c ∈ rs', h.frames.length ≤ c ∧ c < h'.frames.length
  | [], h, h', rs', ho, he => by
    simp only [copyList, Option.some.injEq, Prod.mk.injEq] at he
    obtain ⟨rfl, rfl⟩ := he
    exact ⟨Ext.refl ho, by simp⟩
  | r :: rs, h, h', rs', ho, he => by
    simp only [copyList, Option.bind_eq_bind, Option.bind_eq_some_iff, Option.some.injEq, Prod.mk.injEq] at he
    obtain ⟨⟨h1, c⟩, ha, ⟨h2, cs⟩, hb, rfl, rfl⟩ := he
    obtain ⟨e1, b1, b2⟩ := hcp _ _ _ _ ho ha
    obtain ⟨e2, b3⟩ := copyList_ext hcp rs _ _ _ e1.ok hb
    refine ⟨e1.trans e2, fun x hx => ?_⟩
    have l1 := e1.lf
    have l2 := e2.lf
    rcases List.mem_cons.1 hx with rfl | hx
    · simp only at b1 b2 l1 l2 ⊢; omega
    · have := b3 x hx
      simp only at b1 b2 l1 l2 this ⊢; omega

theorem deepcopy_new : ∀ n : ℕ, CopiesNew (FHeap.deepcopy n)
  | 0 => by intro h r h' r' _ he; simp [FHeap.deepcopy] at he
  | n + 1 => by
    intro h r h' r' ho he
    simp only [FHeap.deepcopy, Option.bind_eq_bind, Option.bind_eq_some_iff, Option.some.injEq, Prod.mk.injEq] at he
    obtain ⟨f, hf, l, hl, j, hj, ⟨h1, cs⟩, hc, rfl, rfl⟩ := he
    obtain ⟨e1, b⟩ := copyList_ext (deepcopy_new n) _ _ _ _ ho hc
    refine ⟨ext_push e1 _ l j rfl rfl b, e1.lf, by simp⟩

theorem Ext.tree {h h' : FHeap} (he : Ext h h') (ho : h.Ok) (n : ℕ) {r : ℕ} (hr : r < h.frames.length) :
    h'.tree n r = h.tree n r := tree_same (old_sep ho) he.same n r hr

theorem tree_lt {h : FHeap} {n r : ℕ} {t : Frame} (ht : h.tree n r = some t) : r < h.frames.length := by
  cases n with
  | zero => simp [FHeap.tree] at ht
  | succ n =>
    simp only [FHeap.tree, Option.bind_eq_bind, Option.bind_eq_some_iff] at ht
    obtain ⟨f, hf, -⟩ := ht
    exact (List.getElem?_eq_some_iff.1 hf).1

theorem mapM_some_forall₂ {α β : Type} {f : α → Option β} : ∀ {l : List α} {l' : List β}, l.mapM f = some l' →
    List.Forall₂ (fun a b => f a = some b) l l'
  | [], l', h => by
    simp only [List.mapM_nil, Option.pure_def, Option.some.injEq] at h
    subst h; exact .nil
  | a :: l, l', h => by
    simp only [List.mapM_cons, Option.bind_eq_bind, Option.bind_eq_some_iff, Option.pure_def, Option.some.injEq] at h
    obtain ⟨b, hb, bs, hbs, rfl⟩ := h
    exact .cons hb (mapM_some_forall₂ hbs)

theorem forall₂_mapM_some {α β : Type} {f : α → Option β} {l : List α} {l' : List β}
    (h : List.Forall₂ (fun a b => f a = some b) l l') : l.mapM f = some l' := by
  induction h with
  | nil => rfl
  | cons hab _ ih => rw [List.mapM_cons, hab, ih]; rfl

/-- a copying function gives an equal tree -/
def CopiesTree (n : ℕ) (cp : FHeap → ℕ → Option (FHeap × ℕ)) : Prop :=
  ∀ h r t, h.Ok → h.tree n r = some t → ∃ h' r', cp h r = some (h', r') ∧ h'.tree n r' = some t

theorem copyList_tree {n : ℕ} {cp : FHeap → ℕ → Option (FHeap × ℕ)} (hcp : CopiesNew cp) (hct : CopiesTree n cp) :
    ∀ (rs : List ℕ) (ts : List Frame) (h : FHeap), h.Ok → List.Forall₂ (fun r t => h.tree n r = some t) rs ts →
    ∃ h' rs', copyList cp h rs = some (h', rs') ∧ List.Forall₂ (fun r t => h'.tree n r = some t) rs' ts
  | [], [], h, _, _ => ⟨h, [], rfl, .nil⟩
  | r :: rs, t :: ts, h, ho, .cons hrt hrs => by
    obtain ⟨h1, c, hc, ht⟩ := hct h r t ho hrt
    obtain ⟨e1, b1, b2⟩ := hcp _ _ _ _ ho hc
    have hrs' : List.Forall₂ (fun r t => h1.tree n r = some t) rs ts :=
      hrs.imp fun a b hab => by rw [e1.tree ho n (tree_lt hab)]; exact hab
    obtain ⟨h2, cs, hcs, hts⟩ := copyList_tree hcp hct rs ts h1 e1.ok hrs'
    obtain ⟨e2, b3⟩ := copyList_ext hcp _ _ _ _ e1.ok hcs
    refine ⟨h2, c :: cs, ?_, .cons ?_ hts⟩
    · simp [copyList, hc, hcs]
    · rw [e2.tree e1.ok n b2]; exact ht

theorem deepcopy_tree : ∀ n : ℕ, CopiesTree n (FHeap.deepcopy n)
  | 0 => by intro h r t _ ht; simp [FHeap.tree] at ht
  | n + 1 => by
    intro h r t ho ht
    simp only [FHeap.tree, Option.bind_eq_bind, Option.bind_eq_some_iff, Option.some.injEq] at ht
    obtain ⟨f, hf, l, hl, j, hj, cs, hcs, rfl⟩ := ht
    obtain ⟨h1, rs', hc, hts⟩ := copyList_tree (deepcopy_new n) (deepcopy_tree n) _ _ h ho (mapM_some_forall₂ hcs)
    obtain ⟨e1, b⟩ := copyList_ext (deepcopy_new n) _ _ _ _ ho hc
    refine ⟨⟨h1.frames ++ [⟨f.name, h1.links.length, h1.joints.length, rs'⟩], h1.links ++ [l], h1.joints ++ [j]⟩,
      h1.frames.length, by simp only [FHeap.deepcopy, hf, hl, hj, hc, Option.bind_eq_bind, Option.bind_some], ?_⟩
    have hsame := same_push (P := Old h1) (Ext.refl e1.ok).fresh
      [⟨f.name, h1.links.length, h1.joints.length, rs'⟩] [l] [j]
    simp only [FHeap.tree, List.getElem?_concat_length, Option.bind_eq_bind, Option.bind_some]
    rw [forall₂_mapM_some (l' := cs)]
    · rfl
    · refine hts.imp fun a t hat => ?_
      rw [tree_same (old_sep e1.ok) hsame n a (tree_lt hat)]
      exact hat

/-! ## The constructor -/

theorem ext_set {h0 h : FHeap} (he : Ext h0 h) {r : ℕ} (hr : h0.frames.length ≤ r) {g : FrameRec → FrameRec}
    (hg : ∀ f, h.frames[r]? = some f → (g f).link = f.link ∧ (g f).joint = f.joint ∧
      ∀ c ∈ (g f).children, h0.frames.length ≤ c ∧ c < h.frames.length) : Ext h0 (h.setFrame r g) := by
  obtain ⟨l1, l2, l3⟩ := setFrame_lengths h r g
  refine ⟨ok_set he.ok fun f hf => ?_, he.same.trans (same_set (P := Old h0) (by simp [Old]; omega) g), by rw [l1]; exact he.lf,
    by rw [l2]; exact he.ll, by rw [l3]; exact he.lj, fun i f hi hf => ?_⟩
  · obtain ⟨g1, g2, g3⟩ := hg f hf
    obtain ⟨k1, k2, k3⟩ := he.ok f (List.mem_of_getElem? hf)
    exact ⟨by omega, by omega, fun c hc => (g3 c hc).2⟩
  · by_cases hri : r = i
    · subst hri
      simp only [FHeap.setFrame, List.getElem?_modify, if_true] at hf
      cases hx : h.frames[r]? with
      | none => rw [hx] at hf; simp at hf
      | some f0 =>
        rw [hx] at hf
        simp only [Option.map_eq_map, Option.map_some, Option.some.injEq] at hf
        subst hf
        obtain ⟨g1, g2, g3⟩ := hg f0 hx
        obtain ⟨k1, k2, k3⟩ := he.new r f0 hr hx
        exact ⟨by omega, by omega, fun c hc => (g3 c hc).1⟩
    · simp only [FHeap.setFrame, List.getElem?_modify, hri, if_false, Option.map_eq_map, Option.map_id'] at hf
      exact he.new i f hi hf

theorem ext_reset {h0 h : FHeap} (he : Ext h0 h) {r : ℕ} (hr : h0.frames.length ≤ r) : Ext h0 (resetCopy h r) := by
  unfold resetCopy
  cases hx : h.frames[r]? with
  | none => exact he
  | some f =>
    obtain ⟨k1, k2, k3⟩ := he.new r f hr hx
    have l3 := he.lj
    refine ⟨?_, ⟨fun i hi => ?_, fun i hi => ?_, fun i hi => ?_⟩, by simpa using he.lf, by simpa using he.ll,
      by simp; omega, fun i g hi hg => ?_⟩
    · intro g hg
      obtain ⟨i, hi⟩ := List.mem_iff_getElem?.1 hg
      simp only [List.getElem?_modify] at hi
      by_cases hri : r = i
      · subst hri
        rw [hx] at hi
        simp only [if_true, Option.map_eq_map, Option.map_some, Option.some.injEq] at hi
        subst hi
        obtain ⟨q1, q2, q3⟩ := he.ok f (List.mem_of_getElem? hx)
        simpa using ⟨q1, q3⟩
      · simp only [hri, if_false, Option.map_eq_map, Option.map_id'] at hi
        obtain ⟨q1, q2, q3⟩ := he.ok g (List.mem_of_getElem? hi)
        simp only [List.length_modify, List.length_append, List.length_singleton]
        exact ⟨q1, by omega, q3⟩
    · have : r ≠ i := by rintro rfl; simp only [Old] at hi; omega
      simp only [List.getElem?_modify, this, if_false, Option.map_eq_map, Option.map_id']
      exact he.same.1 i hi
    · have : f.link ≠ i := by rintro rfl; simp only [Old] at hi; omega
      simp only [List.getElem?_modify, this, if_false, Option.map_eq_map, Option.map_id']
      exact he.same.2.1 i hi
    · have : i < h.joints.length := by simp only [Old] at hi; omega
      simp only [List.getElem?_append_left this]
      exact he.same.2.2 i hi
    · simp only [List.getElem?_modify] at hg
      by_cases hri : r = i
      · subst hri
        rw [hx] at hg
        simp only [if_true, Option.map_eq_map, Option.map_some, Option.some.injEq] at hg
        subst hg
        exact ⟨k1, l3, k3⟩
      · simp only [hri, if_false, Option.map_eq_map, Option.map_id'] at hg
        exact he.new i g hi hg

theorem serialCopy_ext {fuel : ℕ} {c : Chain} {rootRef endIdx : ℕ} {h h' : FHeap} {i r : ℕ} (ho : h.Ok)
    (he : serialCopy fuel c rootRef endIdx h i = .ok (h', r)) :
    Ext h h' ∧ h.frames.length ≤ r ∧ r < h'.frames.length := by
  unfold serialCopy at he
  cases hn : c.idxToFrame.item i with
  | error e => rw [hn, error_bind] at he; simp at he
  | ok nm =>
    rw [hn, ok_bind] at he
    cases hf : h.findFrame fuel rootRef nm with
    | none => rw [hf] at he; simp at he
    | some x =>
      simp only [hf] at he
      cases hd : h.deepcopy fuel x with
      | none => rw [hd] at he; simp at he
      | some a =>
        obtain ⟨h1, r1⟩ := a
        simp only [hd, Except.ok.injEq, Prod.mk.injEq] at he
        obtain ⟨rfl, rfl⟩ := he
        obtain ⟨e1, b1, b2⟩ := deepcopy_new _ _ _ _ _ ho hd
        split
        · exact ⟨ext_set e1 b1 (by simp), b1, by rw [(setFrame_lengths _ _ _).1]; exact b2⟩
        · exact ⟨e1, b1, b2⟩

theorem serialCopies_ext {fuel : ℕ} {c : Chain} {rootRef endIdx : ℕ} : ∀ {is : List ℕ} {h h' : FHeap} {rs : List ℕ}, h.Ok →
    serialCopies fuel c rootRef endIdx h is = .ok (h', rs) →
    Ext h h' ∧ ∀ r ∈ rs, h.frames.length ≤ r ∧ r < h'.frames.length
  | [], h, h', rs, ho, he => by
    simp only [serialCopies, Except.ok.injEq, Prod.mk.injEq] at he
    obtain ⟨rfl, rfl⟩ := he
    exact ⟨Ext.refl ho, by simp⟩
  | i :: is, h, h', rs, ho, he => by
    simp only [serialCopies] at he
    cases h1 : serialCopy fuel c rootRef endIdx h i with
    | error e => rw [h1, error_bind] at he; simp at he
    | ok a =>
      obtain ⟨ha, r⟩ := a
      rw [h1, ok_bind] at he
      obtain ⟨e1, b1, b2⟩ := serialCopy_ext ho h1
      cases h2 : serialCopies fuel c rootRef endIdx ha is with
      | error e => rw [h2, error_bind] at he; simp at he
      | ok b =>
        obtain ⟨hb, rs'⟩ := b
        rw [h2, ok_bind, pure_ok] at he
        simp only [Except.ok.injEq, Prod.mk.injEq] at he
        obtain ⟨rfl, rfl⟩ := he
        obtain ⟨e2, b3⟩ := serialCopies_ext e1.ok h2
        refine ⟨e1.trans e2, fun x hx => ?_⟩
        have l1 := e1.lf
        have l2 := e2.lf
        rcases List.mem_cons.1 hx with rfl | hx
        · omega
        · have := b3 x hx
          omega

theorem linkCopies_ext {h0 : FHeap} : ∀ {rs : List ℕ} {h : FHeap}, Ext h0 h →
    (∀ r ∈ rs, h0.frames.length ≤ r ∧ r < h.frames.length) → Ext h0 (linkCopies h rs)
  | [], _, he, _ => he
  | [_], _, he, _ => he
  | a :: b :: rest, h, he, hr => by
    rw [linkCopies]
    refine linkCopies_ext (ext_set he (hr a (by simp)).1 fun f hf => ⟨rfl, rfl, ?_⟩) ?_
    · intro c hc
      simp only [List.mem_singleton] at hc
      subst hc
      exact hr c (by simp)
    · intro r hr'
      rw [(setFrame_lengths _ _ _).1]
      exact hr r (by simp [hr'])

theorem linkCopies_lengths : ∀ (rs : List ℕ) (h : FHeap), (linkCopies h rs).frames.length = h.frames.length ∧
    (linkCopies h rs).links = h.links ∧ (linkCopies h rs).joints = h.joints
  | [], _ => ⟨rfl, rfl, rfl⟩
  | [_], _ => ⟨rfl, rfl, rfl⟩
  | a :: b :: rest, h => by
    rw [linkCopies]
    obtain ⟨h1, h2, h3⟩ := linkCopies_lengths (b :: rest) (h.setFrame a fun f => { f with children := [b] })
    exact ⟨by rw [h1]; exact (setFrame_lengths _ _ _).1, h2, h3⟩

theorem resetCopy_length (h : FHeap) (r : ℕ) : (resetCopy h r).frames.length = h.frames.length := by
  unfold resetCopy
  split <;> simp

theorem pySerial_ext {fuel : ℕ} {h h' : FHeap} {root : ℕ} {endName rootName : Name} {rs : List ℕ} (ho : h.Ok)
    (he : pySerial fuel h root endName rootName = .ok (h', rs)) :
    Ext h h' ∧ ∀ r ∈ rs, h.frames.length ≤ r ∧ r < h'.frames.length := by
  unfold pySerial at he
  cases h1 : serialStartRef h fuel root rootName with
  | error e => rw [h1, error_bind] at he; simp at he
  | ok r =>
  rw [h1, ok_bind] at he
  cases h2 : readTree h fuel r with
  | error e => rw [h2, error_bind] at he; simp at he
  | ok t =>
  rw [h2, ok_bind] at he
  simp only at he
  cases h3 : (Chain.init t).frameToIdx.item endName with
  | error e => rw [h3, error_bind] at he; simp at he
  | ok endIdx =>
  rw [h3, ok_bind] at he
  cases h4 : ancestorsAt (Chain.init t) endIdx with
  | error e => rw [h4, error_bind] at he; simp at he
  | ok anc =>
  rw [h4, ok_bind] at he
  cases h5 : serialCopies fuel (Chain.init t) r endIdx h anc with
  | error e => rw [h5, error_bind] at he; simp at he
  | ok a =>
  obtain ⟨h1', rs1⟩ := a
  rw [h5, ok_bind] at he
  obtain ⟨e1, b1⟩ := serialCopies_ext ho h5
  cases rs1 with
  | nil => simp at he
  | cons r0 rest =>
    simp only [pure_ok, Except.ok.injEq, Prod.mk.injEq] at he
    obtain ⟨rfl, rfl⟩ := he
    refine ⟨ext_reset (linkCopies_ext e1 b1) (b1 r0 (by simp)).1, fun x hx => ?_⟩
    rw [resetCopy_length, (linkCopies_lengths _ _).1]
    exact b1 x hx

/-! ## What the constructor makes -/

theorem tree_fuel {h : FHeap} : ∀ {n r : ℕ} {t : Frame}, h.tree n r = some t → h.tree (n + 1) r = some t
  | 0, _, _, ht => by simp [FHeap.tree] at ht
  | n + 1, r, t, ht => by
    rw [FHeap.tree] at ht ⊢
    simp only [Option.bind_eq_bind, Option.bind_eq_some_iff, Option.some.injEq] at ht ⊢
    obtain ⟨f, hf, l, hl, j, hj, cs, hcs, rfl⟩ := ht
    exact ⟨f, hf, l, hl, j, hj, cs, forall₂_mapM_some ((mapM_some_forall₂ hcs).imp fun _ _ hab => tree_fuel hab), rfl⟩

theorem tree_name {h : FHeap} {n r : ℕ} {t : Frame} (ht : h.tree n r = some t) :
    (h.frames[r]?).map FrameRec.name = some t.name := by
  cases n with
  | zero => simp [FHeap.tree] at ht
  | succ n =>
    simp only [FHeap.tree, Option.bind_eq_bind, Option.bind_eq_some_iff, Option.some.injEq] at ht
    obtain ⟨f, hf, l, hl, j, hj, cs, hcs, rfl⟩ := ht
    rw [hf]; rfl

/-- a search among objects agrees with a search in the tree -/
def FindAgrees (h : FHeap) (n : ℕ) (x : Option ℕ) (y : Option Frame) : Prop :=
  (x = none ∧ y = none) ∨ ∃ r t, x = some r ∧ y = some t ∧ h.tree n r = some t

theorem FindAgrees.fuel {h : FHeap} {n : ℕ} {x : Option ℕ} {y : Option Frame} (ha : FindAgrees h n x y) :
    FindAgrees h (n + 1) x y := by
  rcases ha with ha | ⟨r, t, h1, h2, h3⟩
  · exact .inl ha
  · exact .inr ⟨r, t, h1, h2, tree_fuel h3⟩

theorem findList_agrees {h : FHeap} {n : ℕ} {name : Name} {rec : ℕ → Option ℕ}
    (hrec : ∀ c t, h.tree n c = some t → FindAgrees h n (rec c) (Frame.findFrameRec name t)) :
    ∀ {cs : List ℕ} {ts : List Frame}, List.Forall₂ (fun c t => h.tree n c = some t) cs ts →
    FindAgrees h n (findList h name rec cs) (Frame.findFrameRecL name ts)
  | _, _, .nil => .inl ⟨rfl, by simp [Frame.findFrameRecL]⟩
  | c :: cs, t :: ts, .cons hct hcs => by
    have h1 := tree_name hct
    simp only [findList, Frame.findFrameRecL, h1, Option.some.injEq]
    by_cases hn : t.name = name
    · simp only [hn, if_true]
      exact .inr ⟨c, t, rfl, rfl, hct⟩
    · simp only [hn, if_false]
      rcases hrec c t hct with ⟨h2, h3⟩ | ⟨r, t', h2, h3, h4⟩
      · simp only [h2, h3]
        exact findList_agrees hrec hcs
      · simp only [h2, h3]
        exact .inr ⟨r, t', rfl, rfl, h4⟩

theorem findRec_agrees {h : FHeap} {name : Name} : ∀ {n r : ℕ} {t : Frame}, h.tree n r = some t →
    FindAgrees h n (h.findRec name n r) (Frame.findFrameRec name t)
  | 0, _, _, ht => by simp [FHeap.tree] at ht
  | n + 1, r, t, ht => by
    rw [FHeap.tree] at ht
    simp only [Option.bind_eq_bind, Option.bind_eq_some_iff, Option.some.injEq] at ht
    obtain ⟨f, hf, l, hl, j, hj, cs, hcs, rfl⟩ := ht
    simp only [FHeap.findRec, hf, Frame.findFrameRec]
    exact (findList_agrees (fun c t hct => findRec_agrees hct) (mapM_some_forall₂ hcs)).fuel

theorem findFrame_agrees {h : FHeap} {name : Name} {n r : ℕ} {t : Frame} (ht : h.tree n r = some t) :
    FindAgrees h n (h.findFrame n r name) (t.findFrame name) := by
  simp only [FHeap.findFrame, Frame.findFrame, tree_name ht, Option.some.injEq]
  by_cases hn : t.name = name
  · simp only [hn, if_true]
    exact .inr ⟨r, t, rfl, rfl, ht⟩
  · simp only [hn, if_false]
    exact findRec_agrees ht

/-- the object `r` has the name, link and joint of `f` -/
def Holds (h : FHeap) (r : ℕ) (f : Frame) : Prop :=
  ∃ x, h.frames[r]? = some x ∧ x.name = f.name ∧ h.links[x.link]? = some f.link ∧ h.joints[x.joint]? = some f.joint

/-- the objects and their links are different -/
def Apart (h : FHeap) (rs : List ℕ) : Prop :=
  rs.Pairwise fun r r' => r < r' ∧ ∀ x y, h.frames[r]? = some x → h.frames[r']? = some y → x.link < y.link

theorem Holds.ext {h h' : FHeap} (he : Ext h h') (ho : h.Ok) {r : ℕ} {f : Frame} (hh : Holds h r f) : Holds h' r f := by
  obtain ⟨x, h1, h2, h3, h4⟩ := hh
  obtain ⟨k1, k2, k3⟩ := ho x (List.mem_of_getElem? h1)
  refine ⟨x, ?_, h2, ?_, ?_⟩
  · rw [he.same.1 r (List.getElem?_eq_some_iff.1 h1).1]; exact h1
  · rw [he.same.2.1 _ k1]; exact h3
  · rw [he.same.2.2 _ k2]; exact h4

theorem serialCopy_holds {fuel : ℕ} {c : Chain} {rootRef endIdx : ℕ} {h0 h : FHeap} {t : Frame} (ho : h0.Ok)
    (he : Ext h0 h) (ht : h0.tree fuel rootRef = some t) (i : ℕ) :
    (∀ e, serialFrameAt t c i = .error e → serialCopy fuel c rootRef endIdx h i = .error e) ∧
    ∀ f, serialFrameAt t c i = .ok f → ∃ h' r, serialCopy fuel c rootRef endIdx h i = .ok (h', r) ∧ Holds h' r f ∧
      (i = endIdx → ∃ x, h'.frames[r]? = some x ∧ x.children = []) := by
  unfold serialFrameAt serialCopy
  cases hn : c.idxToFrame.item i with
  | error e => simp [error_bind]
  | ok nm =>
    simp only [ok_bind]
    have ht' : h.tree fuel rootRef = some t := by rw [he.tree ho fuel (tree_lt ht)]; exact ht
    rcases findFrame_agrees (name := nm) ht' with ⟨h1, h2⟩ | ⟨r, f, h1, h2, h3⟩
    · simp [h1, h2]
    · simp only [h1, h2]
      refine ⟨by simp, ?_⟩
      rintro g ⟨rfl⟩
      obtain ⟨h', r', hd, htr⟩ := deepcopy_tree fuel h r f he.ok h3
      simp only [hd]
      have hh : ∃ x, h'.frames[r']? = some x ∧ x.name = f.name ∧ h'.links[x.link]? = some f.link ∧
          h'.joints[x.joint]? = some f.joint := by
        cases fuel with
        | zero => simp [FHeap.tree] at htr
        | succ n =>
          simp only [FHeap.tree, Option.bind_eq_bind, Option.bind_eq_some_iff, Option.some.injEq] at htr
          obtain ⟨x, hx, l, hl, j, hj, cs, hcs, rfl⟩ := htr
          exact ⟨x, hx, rfl, hl, hj⟩
      obtain ⟨x, g1, g2, g3, g4⟩ := hh
      by_cases hi : i = endIdx
      · simp only [hi, if_true]
        have hx : (h'.setFrame r' fun f => { f with children := [] }).frames[r']? = some { x with children := [] } := by
          simp [FHeap.setFrame, List.getElem?_modify, g1]
        exact ⟨_, _, rfl, ⟨_, hx, g2, g3, g4⟩, fun _ => ⟨_, hx, rfl⟩⟩
      · simp only [hi, if_false]
        exact ⟨_, _, rfl, ⟨x, g1, g2, g3, g4⟩, by simp⟩

theorem serialCopies_holds {fuel : ℕ} {c : Chain} {rootRef endIdx : ℕ} {h0 : FHeap} {t : Frame} (ho : h0.Ok)
    (ht : h0.tree fuel rootRef = some t) : ∀ (is : List ℕ) (h : FHeap), Ext h0 h →
    (∀ e, is.mapM (serialFrameAt t c) = .error e → serialCopies fuel c rootRef endIdx h is = .error e) ∧
    ∀ fs, is.mapM (serialFrameAt t c) = .ok fs → ∃ h' rs, serialCopies fuel c rootRef endIdx h is = .ok (h', rs) ∧
      List.Forall₂ (Holds h') rs fs ∧ Apart h' rs ∧
      (is.getLast? = some endIdx → ∃ r x, rs.getLast? = some r ∧ h'.frames[r]? = some x ∧ x.children = [])
  | [], h, he => by
    simp only [List.mapM_nil, pure_ok, serialCopies]
    refine ⟨by simp, ?_⟩
    rintro fs ⟨rfl⟩
    exact ⟨h, [], rfl, .nil, List.Pairwise.nil, by simp⟩
  | i :: is, h, he => by
    obtain ⟨c1, c2⟩ := serialCopy_holds (c := c) (endIdx := endIdx) ho he ht i
    simp only [List.mapM_cons, serialCopies]
    cases h1 : serialFrameAt t c i with
    | error e => simp [c1 e h1, error_bind]
    | ok f =>
      obtain ⟨ha, r, hc, hh, hend⟩ := c2 f h1
      simp only [hc, ok_bind]
      obtain ⟨e1, b1, b2⟩ := serialCopy_ext he.ok hc
      obtain ⟨d1, d2⟩ := serialCopies_holds (c := c) (endIdx := endIdx) ho ht is ha (he.trans e1)
      cases h2 : is.mapM (serialFrameAt t c) with
      | error e => simp [d1 e h2, error_bind]
      | ok fs =>
        obtain ⟨h', rs, hcs, hfs, hap, hlast⟩ := d2 fs h2
        simp only [hcs, ok_bind, pure_ok]
        refine ⟨by simp, ?_⟩
        rintro fs' ⟨rfl⟩
        obtain ⟨e2, b3⟩ := serialCopies_ext e1.ok hcs
        refine ⟨h', r :: rs, rfl, .cons (hh.ext e2 e1.ok) hfs, List.pairwise_cons.2 ⟨fun r' hr' => ?_, hap⟩, fun hl => ?_⟩
        · have := b3 r' hr'
          refine ⟨by omega, fun x y hx hy => ?_⟩
          rw [e2.same.1 r b2] at hx
          have k1 := (e1.ok x (List.mem_of_getElem? hx)).1
          have k2 := (e2.new r' y this.1 hy).1
          omega
        · cases is with
          | nil =>
            simp only [List.mapM_nil, pure_ok, Except.ok.injEq] at h2
            subst h2
            cases hfs
            simp only [List.getLast?_singleton, Option.some.injEq] at hl
            obtain ⟨x, hx, hx2⟩ := hend hl
            exact ⟨r, x, rfl, by rw [e2.same.1 r b2]; exact hx, hx2⟩
          | cons i' is' =>
            rw [List.getLast?_cons_cons] at hl
            obtain ⟨r', x, g1, g2, g3⟩ := hlast hl
            refine ⟨r', x, ?_, g2, g3⟩
            cases rs with
            | nil => simp at g1
            | cons _ _ => rw [List.getLast?_cons_cons]; exact g1

/-- every object of the list has the next one as its only child -/
def Nest (h : FHeap) : List ℕ → List Frame → Prop
  | [], [] => True
  | r :: rs, f :: fs => (∃ x, h.frames[r]? = some x ∧ x.name = f.name ∧ h.links[x.link]? = some f.link ∧
      h.joints[x.joint]? = some f.joint ∧ x.children = rs.take 1) ∧ Nest h rs fs
  | _, _ => False

theorem linkCopies_get : ∀ (rs : List ℕ) (h : FHeap) (i : ℕ) (y : FrameRec), (linkCopies h rs).frames[i]? = some y →
    ∃ x, h.frames[i]? = some x ∧ y.link = x.link ∧ (i ∉ rs → y = x)
  | [], _, _, y, hy => ⟨y, hy, rfl, fun _ => rfl⟩
  | [_], _, _, y, hy => ⟨y, hy, rfl, fun _ => rfl⟩
  | a :: b :: rest, h, i, y, hy => by
    rw [linkCopies] at hy
    obtain ⟨x, hx, h1, h2⟩ := linkCopies_get (b :: rest) _ i y hy
    by_cases hai : a = i
    · subst hai
      simp only [FHeap.setFrame, List.getElem?_modify, if_true] at hx
      cases hz : h.frames[a]? with
      | none => rw [hz] at hx; simp at hx
      | some z =>
        rw [hz] at hx
        simp only [Option.map_eq_map, Option.map_some, Option.some.injEq] at hx
        subst hx
        exact ⟨z, rfl, h1, fun hc => absurd (by simp) hc⟩
    · simp only [FHeap.setFrame, List.getElem?_modify, hai, if_false, Option.map_eq_map, Option.map_id'] at hx
      exact ⟨x, hx, h1, fun hc => h2 fun hm => hc (by simp only [List.mem_cons] at hm ⊢; tauto)⟩

theorem linkCopies_other {rs : List ℕ} {h : FHeap} {i : ℕ} (hi : i ∉ rs) :
    (linkCopies h rs).frames[i]? = h.frames[i]? := by
  cases hy : (linkCopies h rs).frames[i]? with
  | some y =>
    obtain ⟨x, hx, -, h2⟩ := linkCopies_get rs h i y hy
    rw [hx, h2 hi]
  | none =>
    symm
    rw [List.getElem?_eq_none_iff] at hy ⊢
    rw [← (linkCopies_lengths rs h).1]; exact hy

theorem linkCopies_nest : ∀ (rs : List ℕ) (fs : List Frame) (h : FHeap), List.Forall₂ (Holds h) rs fs →
    rs.Pairwise (· < ·) → (∀ r, rs.getLast? = some r → ∃ x, h.frames[r]? = some x ∧ x.children = []) →
    Nest (linkCopies h rs) rs fs
  | [], [], _, _, _, _ => trivial
  | [r], [f], h, .cons ⟨x, h1, h2, h3, h4⟩ .nil, _, hl => by
    obtain ⟨y, hy, hy2⟩ := hl r rfl
    rw [h1] at hy
    cases hy
    exact ⟨⟨x, h1, h2, h3, h4, by simpa using hy2⟩, trivial⟩
  | a :: b :: rest, f :: g :: fs, h, .cons ⟨x, h1, h2, h3, h4⟩ hr, hp, hl => by
    rw [List.pairwise_cons] at hp
    have hna : a ∉ b :: rest := fun hm => absurd (hp.1 a hm) (lt_irrefl a)
    have hne : ∀ r ∈ b :: rest, (h.setFrame a fun f => { f with children := [b] }).frames[r]? = h.frames[r]? := by
      intro r hr'
      have : a ≠ r := by rintro rfl; exact hna hr'
      simp [FHeap.setFrame, List.getElem?_modify, this]
    have hr' : List.Forall₂ (Holds (h.setFrame a fun f => { f with children := [b] })) (b :: rest) (g :: fs) := by
      rw [List.forall₂_iff_get] at hr ⊢
      refine ⟨hr.1, fun i hi1 hi2 => ?_⟩
      obtain ⟨x, k1, k2⟩ := hr.2 i hi1 hi2
      exact ⟨x, by rw [hne _ (List.get_mem _ _)]; exact k1, k2⟩
    have ih := linkCopies_nest (b :: rest) (g :: fs) (h.setFrame a fun f => { f with children := [b] }) hr' hp.2
      fun r hr'' => by
        obtain ⟨y, hy⟩ := hl r (by rw [List.getLast?_cons_cons]; exact hr'')
        exact ⟨y, by rw [hne r (List.mem_of_getLast? hr'')]; exact hy.1, hy.2⟩
    rw [linkCopies]
    obtain ⟨-, l2, l3⟩ := linkCopies_lengths (b :: rest) (h.setFrame a fun f => { f with children := [b] })
    refine ⟨⟨{ x with children := [b] }, ?_, h2, ?_, ?_, rfl⟩, ih⟩
    · rw [linkCopies_other hna]
      simp [FHeap.setFrame, List.getElem?_modify, h1]
    · rw [l2]; exact h3
    · rw [l3]; exact h4

theorem nest_congr {h h' : FHeap} : ∀ {rs : List ℕ} {fs : List Frame}, Nest h rs fs →
    (∀ r ∈ rs, ∀ x, h.frames[r]? = some x → h'.frames[r]? = some x ∧ h'.links[x.link]? = h.links[x.link]? ∧
      h'.joints[x.joint]? = h.joints[x.joint]? ∨ h.joints[x.joint]? = none) → Nest h' rs fs
  | [], [], _, _ => trivial
  | r :: rs, f :: fs, ⟨⟨x, h1, h2, h3, h4, h5⟩, hn⟩, hc => by
    rcases hc r (by simp) x h1 with ⟨k1, k2, k3⟩ | k
    · exact ⟨⟨x, k1, h2, by rw [k2]; exact h3, by rw [k3]; exact h4, h5⟩, nest_congr hn fun r hr => hc r (by simp [hr])⟩
    · rw [k] at h4; simp at h4

theorem mapM_take {α β : Type} {f : α → Option β} : ∀ (n : ℕ) {l : List α} {l' : List β}, l.map f = l'.map some →
    (l.take n).mapM f = some (l'.take n)
  | 0, _, _, _ => by simp
  | n + 1, [], [], _ => by simp
  | n + 1, a :: l, b :: l', h => by
    simp only [List.map_cons, List.cons.injEq] at h
    rw [List.take_succ_cons, List.take_succ_cons, List.mapM_cons, h.1, mapM_take n h.2]
    rfl
  | n + 1, [], _ :: _, h => by simp at h
  | n + 1, _ :: _, [], h => by simp at h

theorem nest_tree {h : FHeap} : ∀ {rs : List ℕ} {fs : List Frame} {k : ℕ}, Nest h rs fs → rs.length ≤ k →
    rs.map (h.tree k) = (serialNest fs).map some
  | [], [], _, _, _ => rfl
  | r :: rs, .mk n l j cs :: fs, 0, _, hk => by simp at hk
  | r :: rs, .mk n l j cs :: fs, k + 1, ⟨⟨x, h1, h2, h3, h4, h5⟩, hn⟩, hk => by
    simp only [List.length_cons, Nat.add_le_add_iff_right] at hk
    rw [List.map_cons, nest_tree hn (k := k + 1) (by omega), serialNest, List.map_cons]
    congr 1
    rw [FHeap.tree]
    simp only [h1, h3, h4, h5, Option.bind_eq_bind, Option.bind_some, mapM_take 1 (nest_tree hn hk)]
    rw [h2]; rfl

theorem reset_trees {h : FHeap} {r0 : ℕ} {rs : List ℕ} {f0 : Frame} {fs : List Frame} (hn : Nest h (r0 :: rs) (f0 :: fs))
    (ha : Apart h (r0 :: rs)) {k : ℕ} (hk : (r0 :: rs).length ≤ k) :
    (r0 :: rs).map ((resetCopy h r0).tree k) = (serialFramesOf (f0 :: fs)).map some := by
  obtain ⟨⟨x, h1, h2, h3, h4, h5⟩, hn⟩ := hn
  obtain ⟨ha, -⟩ := List.pairwise_cons.1 ha
  have hnest : Nest (resetCopy h r0) rs fs := by
    refine nest_congr hn fun r hr y hy => ?_
    obtain ⟨a1, a2⟩ := ha r hr
    have a3 := a2 x y h1 hy
    have n1 : r0 ≠ r := by omega
    have n2 : x.link ≠ y.link := by omega
    by_cases hj : y.joint < h.joints.length
    · left
      simp [resetCopy, h1, List.getElem?_modify, n1, n2, hy, List.getElem?_append_left hj]
    · right
      exact List.getElem?_eq_none (by omega)
  cases f0 with
  | mk n l j cs =>
    cases k with
    | zero => simp at hk
    | succ k =>
      simp only [List.length_cons, Nat.add_le_add_iff_right] at hk
      rw [List.map_cons, nest_tree hnest (k := k + 1) (by omega), serialFramesOf, List.map_cons]
      congr 1
      rw [FHeap.tree]
      have g1 : (resetCopy h r0).frames[r0]? = some { x with joint := h.joints.length } := by
        simp [resetCopy, h1, List.getElem?_modify]
      have g2 : (resetCopy h r0).links[x.link]? = some { l with offset := none } := by
        simp only [resetCopy, h1, List.getElem?_modify, if_true, h3]; rfl
      have g3 : (resetCopy h r0).joints[h.joints.length]? = some Joint.init := by
        simp [resetCopy, h1]
      simp only [g1, g2, g3, h5, Option.bind_eq_bind, Option.bind_some, mapM_take 1 (nest_tree hnest hk)]
      rw [h2]; rfl

theorem ancestors_last {t : Frame} {i : ℕ} {anc : List ℕ} (h : ancestorsAt (Chain.init t) i = .ok anc) :
    anc.getLast? = some i := by
  unfold ancestorsAt at h
  rw [init_parents] at h
  cases ha : (ancestors t)[i]? with
  | none => rw [ha] at h; simp at h
  | some pi =>
    rw [ha] at h
    simp only [Except.ok.injEq] at h
    subst h
    have hi : i < (visit t).length := by
      rw [← ancestors_length]; exact (List.getElem?_eq_some_iff.1 ha).1
    obtain ⟨pi', path, g1, -, -, -, g5, -⟩ := ancestors_isPath t i _ (List.getElem?_eq_getElem hi)
    rw [ha] at g1
    cases g1
    exact g5

theorem start_agrees {h : FHeap} {fuel root : ℕ} {t : Frame} (ht : h.tree fuel root = some t) (rootName : Name) :
    (∀ e, serialStart t rootName = .error e → serialStartRef h fuel root rootName = .error e) ∧
    ∀ t', serialStart t rootName = .ok t' → ∃ r, serialStartRef h fuel root rootName = .ok r ∧ h.tree fuel r = some t' := by
  unfold serialStart serialStartRef
  by_cases h0 : rootName = []
  · simp only [h0, if_true]
    refine ⟨by simp, ?_⟩
    rintro t' ⟨rfl⟩
    exact ⟨root, rfl, ht⟩
  · simp only [h0, if_false]
    rcases findFrame_agrees (name := rootName) ht with ⟨h1, h2⟩ | ⟨r, f, h1, h2, h3⟩
    · simp [h1, h2]
    · simp only [h1, h2]
      refine ⟨by simp, ?_⟩
      rintro t' ⟨rfl⟩
      exact ⟨r, rfl, h3⟩

theorem pySerial_value {h : FHeap} (ho : h.Ok) {fuel root : ℕ} {t : Frame} (ht : h.tree fuel root = some t)
    (endName rootName : Name) {s : SerialChain} (hs : SerialChain.init t endName rootName = .ok s) :
    ∃ h' rs, pySerial fuel h root endName rootName = .ok (h', rs) ∧
      ∀ k, rs.length ≤ k → rs.map (h'.tree k) = s.serialFrames.map some := by
  unfold SerialChain.init at hs
  unfold pySerial
  obtain ⟨s1, s2⟩ := start_agrees ht rootName
  cases h1 : serialStart t rootName with
  | error e => rw [h1, error_bind] at hs; simp at hs
  | ok t' =>
  obtain ⟨r, hr, ht'⟩ := s2 t' h1
  rw [h1, ok_bind] at hs
  have hread : readTree h fuel r = .ok t' := by simp [readTree, ht']
  rw [hr, ok_bind, hread, ok_bind]
  simp only at hs ⊢
  cases h2 : (Chain.init t').frameToIdx.item endName with
  | error e => rw [h2, error_bind] at hs; simp at hs
  | ok endIdx =>
  rw [h2, ok_bind] at hs
  rw [ok_bind]
  cases h3 : ancestorsAt (Chain.init t') endIdx with
  | error e => rw [h3, error_bind] at hs; simp at hs
  | ok anc =>
  rw [h3, ok_bind] at hs
  rw [ok_bind]
  cases h4 : anc.mapM (serialFrameAt t' (Chain.init t')) with
  | error e => rw [h4, error_bind] at hs; simp at hs
  | ok copies =>
  rw [h4, ok_bind] at hs
  obtain ⟨h', rs, hcs, hfs, hap, hlast⟩ :=
    (serialCopies_holds (c := Chain.init t') (endIdx := endIdx) ho ht' anc h (Ext.refl ho)).2 copies h4
  rw [hcs, ok_bind]
  obtain ⟨rl, x, g1, g2, g3⟩ := hlast (ancestors_last h3)
  cases rs with
  | nil => simp at g1
  | cons r0 rs =>
    cases copies with
    | nil => cases hfs
    | cons f0 fs =>
      refine ⟨_, _, rfl, fun k hk => ?_⟩
      have hsf : s.serialFrames = serialFramesOf (f0 :: fs) := by
        split at hs
        · cases h5 : List.mapM (fun f => (Chain.init _).frameToIdx.item f.name)
            (List.filter (fun f => decide (f.joint.jtype ≠ .fixed)) (serialFramesOf (f0 :: fs))) with
          | error e => rw [h5, error_bind] at hs; simp at hs
          | ok dfi =>
            rw [h5, ok_bind] at hs
            rename_i fe _ _
            cases h6 : (Chain.init _).frameToIdx.item fe.name with
            | error e => rw [h6, error_bind] at hs; simp at hs
            | ok eef =>
              rw [h6, ok_bind, pure_ok] at hs
              cases hs
              rfl
        · simp at hs
      rw [hsf]
      refine reset_trees (linkCopies_nest _ _ _ hfs (hap.imp fun h => h.1) ?_) ?_ hk
      · intro r' hr'
        rw [g1] at hr'
        cases hr'
        exact ⟨x, g2, g3⟩
      · refine hap.imp ?_
        rintro a b ⟨q1, q2⟩
        refine ⟨q1, fun y z hy hz => ?_⟩
        obtain ⟨y', hy', e1, -⟩ := linkCopies_get _ _ _ _ hy
        obtain ⟨z', hz', e2, -⟩ := linkCopies_get _ _ _ _ hz
        have := q2 y' z' hy' hz'
        omega

/-! ## C98 -/

theorem serial_ok {w w' : FWorld} {fuel v : ℕ} {endName rootName : Name} (h : w.serial fuel v endName rootName = .ok w') :
    ∃ root rs, w.frame v = some root ∧ pySerial fuel w.heap root endName rootName = .ok (w'.heap, rs) ∧
      w'.vars = w.vars ++ rs.map .frame := by
  unfold FWorld.serial at h
  cases hv : w.frame v with
  | none => rw [hv] at h; simp at h
  | some root =>
    rw [hv] at h
    simp only at h
    cases hp : pySerial fuel w.heap root endName rootName with
    | error e => rw [hp, error_bind] at h; simp at h
    | ok a =>
      rw [hp, ok_bind, pure_ok] at h
      cases h
      exact ⟨root, a.2, rfl, hp, rfl⟩

/-- C98: building a serial chain changes no frame, link or joint that existed before, whatever was done before. -/
theorem C98_source_unchanged (before : List FOp) (fuel v : ℕ) (endName rootName : Name) (w' : FWorld)
    (h : (runFOps {} before).serial fuel v endName rootName = .ok w') :
    let w := runFOps {} before
    (∀ r < w.heap.frames.length, ∀ n, w'.heap.tree n r = w.heap.tree n r) ∧
    (∀ i < w.heap.frames.length, w'.heap.frames[i]? = w.heap.frames[i]?) ∧
    (∀ i < w.heap.links.length, w'.heap.links[i]? = w.heap.links[i]?) ∧
    (∀ i < w.heap.joints.length, w'.heap.joints[i]? = w.heap.joints[i]?) := by
  intro w
  have ho : w.Ok := run_ok empty_ok
  obtain ⟨root, rs, -, hp, -⟩ := serial_ok h
  obtain ⟨he, -⟩ := pySerial_ext ho.heap hp
  exact ⟨fun r hr n => he.tree ho.heap n hr, he.same⟩

/-- C98: whatever is done afterwards through the frames of the serial chain, the frames, links and joints that existed
before it was built do not change. -/
theorem C98_source_kept (before after : List FOp) (fuel v : ℕ) (endName rootName : Name) (w' : FWorld)
    (h : (runFOps {} before).serial fuel v endName rootName = .ok w')
    (ha : ∀ op ∈ after, ∀ u ∈ usedVars op, (runFOps {} before).vars.length ≤ u) :
    let w := runFOps {} before
    (∀ r < w.heap.frames.length, ∀ n, (runFOps w' after).heap.tree n r = w.heap.tree n r) ∧
    (∀ i < w.heap.links.length, (runFOps w' after).heap.links[i]? = w.heap.links[i]?) ∧
    (∀ i < w.heap.joints.length, (runFOps w' after).heap.joints[i]? = w.heap.joints[i]?) := by
  intro w
  have ho : w.Ok := run_ok empty_ok
  obtain ⟨root, rs, -, hp, hv⟩ := serial_ok h
  obtain ⟨he, hb⟩ := pySerial_ext ho.heap hp
  have hout : Outside (fun u => w.vars.length ≤ u) (Old w.heap) w' := by
    refine ⟨he.sep ho.heap, he.fresh, fun u x hx hu => ?_⟩
    rw [hv, List.getElem?_append_right hu] at hx
    have hx' := List.mem_of_getElem? hx
    simp only [List.mem_map] at hx'
    obtain ⟨r, hr, rfl⟩ := hx'
    have := (hb r hr).1
    simp only [Old]; omega
  obtain ⟨-, hs⟩ := run_outside hout ha
  have hs' := he.same.trans hs
  exact ⟨fun r hr n => tree_same (old_sep ho.heap) hs' n r hr, hs'.2⟩

/-- C98: whatever is done afterwards to anything but the frames of the serial chain, these frames do not change. -/
theorem C98_serial_kept (before after : List FOp) (fuel v : ℕ) (endName rootName : Name) (w' : FWorld)
    (h : (runFOps {} before).serial fuel v endName rootName = .ok w')
    (ha : ∀ op ∈ after, ∀ u ∈ usedVars op, u < (runFOps {} before).vars.length ∨ w'.vars.length ≤ u)
    (u r : ℕ) (hu : (runFOps {} before).vars.length ≤ u) (hr : w'.frame u = some r) (n : ℕ) :
    (runFOps w' after).heap.tree n r = w'.heap.tree n r := by
  have ho : (runFOps {} before).Ok := run_ok empty_ok
  generalize runFOps {} before = w at *
  obtain ⟨root, rs, -, hp, hv⟩ := serial_ok h
  obtain ⟨he, hb⟩ := pySerial_ext ho.heap hp
  have hout : Outside (fun u => u < w.vars.length ∨ w'.vars.length ≤ u) (Made w.heap w'.heap) w' := by
    refine ⟨he.sep_made ho.heap, Ext.fresh_made _ _, fun u x hx hu hm => ?_⟩
    rcases hu with hu | hu
    · rw [hv, List.getElem?_append_left hu] at hx
      exact hm.2 (ok_vars ho hx)
    · rw [List.getElem?_eq_none hu] at hx
      simp at hx
  obtain ⟨-, hs⟩ := run_outside hout ha
  refine tree_same (he.sep_made ho.heap) hs n r ?_
  have hx := FWorld.frame_some hr
  rw [hv, List.getElem?_append_right hu] at hx
  have hx' := List.mem_of_getElem? hx
  simp only [List.mem_map, FRef.frame.injEq] at hx'
  obtain ⟨r', hr', rfl⟩ := hx'
  have := hb r' hr'
  exact ⟨this.2, by simp only [Old]; omega⟩

/-- C98: the frames of the new serial chain have the values given by `Model/Serial.lean`. -/
theorem C98_value (before : List FOp) (fuel v root : ℕ) (t : Frame) (endName rootName : Name) (s : SerialChain)
    (hv : (runFOps {} before).frame v = some root) (ht : (runFOps {} before).heap.tree fuel root = some t)
    (hs : SerialChain.init t endName rootName = .ok s) :
    ∃ (w' : FWorld) (rs : List ℕ), (runFOps {} before).serial fuel v endName rootName = .ok w' ∧
      w'.vars = (runFOps {} before).vars ++ rs.map .frame ∧
      ∀ k, rs.length ≤ k → rs.map (w'.heap.tree k) = s.serialFrames.map some := by
  have ho : (runFOps {} before).Ok := run_ok empty_ok
  generalize runFOps {} before = w at *
  obtain ⟨h', rs, hp, hk⟩ := pySerial_value ho.heap ht endName rootName hs
  refine ⟨⟨h', w.vars ++ rs.map .frame⟩, rs, ?_, rfl, hk⟩
  simp only [FWorld.serial, hv, hp, ok_bind, pure_ok]

/-- C98: and it raises what `Model/Serial.lean` says. -/
theorem C98_raises (before : List FOp) (fuel v root : ℕ) (t : Frame) (hw : WF t) (endName rootName : Name) (e : Err)
    (hv : (runFOps {} before).frame v = some root) (ht : (runFOps {} before).heap.tree fuel root = some t)
    (hs : SerialChain.init t endName rootName = .error e) :
    (runFOps {} before).serial fuel v endName rootName = .error e := by
  generalize runFOps {} before = w at *
  obtain ⟨s1, s2⟩ := start_agrees ht rootName
  have hp : pySerial fuel w.heap root endName rootName = .error e := by
    by_cases hr : rootName ≠ [] ∧ ∀ f ∈ preorder t, f.name ≠ rootName
    · have hbad : serialStart t rootName = .error .valueError := by
        have : t.findFrame rootName = none := by
          rw [(C12_lookups t rootName none).1, List.find?_eq_none]
          intro f hf; simpa using hr.2 f hf
        rw [serialStart, if_neg hr.1, this]
      rw [serialInit_bad_root hr.1 hr.2] at hs
      cases hs
      unfold pySerial
      rw [s1 _ hbad, error_bind]
    · obtain ⟨rf, hst, hstart⟩ : ∃ rf, StartsAt t rf rootName ∧ serialStart t rootName = .ok rf := by
        by_cases h0 : rootName = []
        · exact ⟨t, ⟨by rw [preorder_eq]; simp, .inl ⟨h0, rfl⟩⟩, by rw [serialStart, if_pos h0]⟩
        · have : ∃ f ∈ preorder t, f.name = rootName := by
            by_contra hc
            exact hr ⟨h0, fun f hf hn => hc ⟨f, hf, hn⟩⟩
          obtain ⟨f, hf, hn⟩ := this
          exact ⟨f, ⟨hf, .inr ⟨h0, hn⟩⟩, by rw [serialStart, if_neg h0, ← hn, C12_find_frame t f hw hf]⟩
      by_cases hk : ∀ f ∈ preorder rf, f.name ≠ endName
      · rw [serialInit_bad_end hw hst hk] at hs
        cases hs
        obtain ⟨r, hr1, hr2⟩ := s2 rf hstart
        unfold pySerial
        have hread : readTree w.heap fuel r = .ok rf := by simp [readTree, hr2]
        rw [hr1, ok_bind, hread, ok_bind]
        simp only [Dict.item, (hw.sub hst.1).frameToIdx_none hk, error_bind]
      · have : ∃ s, SerialChain.init t endName rootName = .ok s := by
          rw [(C20_construction_outcome t rootName endName hw).1]
          obtain ⟨f, hf⟩ := not_forall.1 hk
          obtain ⟨hf, hn⟩ := Classical.not_imp.1 hf
          exact ⟨rf, f, hst, mem_preorder_iff_below.1 hf, not_not.1 hn⟩
        obtain ⟨s, hs'⟩ := this
        rw [hs'] at hs
        cases hs
  simp only [FWorld.serial, hv, hp, error_bind]

/-- a program that builds a three-frame arm and keeps its frames in the variables 2, 5 and 8 -/
noncomputable def exProgram : List FOp :=
  [.newLink {}, .newJoint {}, .newFrame ['b'] 0 1,
   .newLink { offset := some (mkHom 1 ![0, 0, 1]) }, .newJoint { name := some ['j'], jtype := .revolute }, .newFrame ['s'] 3 4,
   .newLink {}, .newJoint { name := some ['k'], jtype := .prismatic }, .newFrame ['t'] 6 7,
   .addChild 2 5, .addChild 5 8]

/-- the arm as a value -/
noncomputable def exArm : Frame :=
  .mk ['b'] {} {} [.mk ['s'] { offset := some (mkHom 1 ![0, 0, 1]) } { name := some ['j'], jtype := .revolute }
    [.mk ['t'] {} { name := some ['k'], jtype := .prismatic } []]]

theorem exArm_wf : WF exArm := by
  constructor
  · simp [exArm, preorder, preorderL, Frame.name]
  · simp [exArm, preorder, preorderL, Frame.name]
  · simp [exArm, movingJoints, preorder, preorderL, Frame.joint, Moving]

theorem exProgram_run : (runFOps {} exProgram).frame 2 = some 0 ∧ (runFOps {} exProgram).heap.tree 10 0 = some exArm := by
  simp [runFOps, exProgram, FOp.run, FOp.step, FWorld.link, FWorld.joint, FWorld.frame, FHeap.setFrame, FHeap.tree, exArm,
    List.modify]

theorem exArm_serial : ∃ s, SerialChain.init exArm ['t'] ['s'] = .ok s := by
  rw [(C20_construction_outcome exArm ['s'] ['t'] exArm_wf).1]
  refine ⟨exArm.children[0], exArm.children[0].children[0], ⟨?_, .inr ⟨by simp, rfl⟩⟩, .child _ _ .refl (by simp), rfl⟩
  exact mem_preorder_iff_below.2 (.child _ _ .refl (by simp))

/-- The hypotheses can be met: the arm of `exProgram`, a serial chain from `s` to `t`, and then a new limit, a new name and a
new child on both sides. -/
example : ∃ w' : FWorld, (runFOps {} exProgram).serial 10 2 ['t'] ['s'] = .ok w' ∧
    (∀ n, (runFOps w' [.setName 9 ['x'], .addChild 9 9]).heap.tree n 0 = (runFOps {} exProgram).heap.tree n 0) ∧
    ∀ u r, 9 ≤ u → w'.frame u = some r → ∀ n,
      (runFOps w' [.setName 5 ['x'], .setLink 3 {}, .clearChildren 2]).heap.tree n r = w'.heap.tree n r := by
  obtain ⟨s, hs⟩ := exArm_serial
  obtain ⟨w', rs, h1, h2, h3⟩ := C98_value exProgram 10 2 0 exArm _ _ s exProgram_run.1 exProgram_run.2 hs
  have hl : (runFOps {} exProgram).vars.length = 9 := by
    simp [runFOps, exProgram, FOp.run, FOp.step, FWorld.link, FWorld.joint, FWorld.frame, FHeap.setFrame, List.modify]
  have hf : 0 < (runFOps {} exProgram).heap.frames.length := tree_lt exProgram_run.2
  refine ⟨w', h1, fun n => ?_, fun u r hu hr n => ?_⟩
  · exact (C98_source_kept exProgram _ 10 2 _ _ w' h1 (by simp [usedVars, hl])).1 0 hf n
  · exact C98_serial_kept exProgram _ 10 2 _ _ w' h1 (by simp [usedVars, hl]) u r (by omega) hr n

end PK
