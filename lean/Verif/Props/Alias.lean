import Verif.Spec.Alias
import Mathlib.Tactic.Linarith

/-! # Independence of transforms from each other's storage (C97) -/

namespace PK
open Spec
noncomputable section

/-- where the tensor of a new object comes from -/
def FromS (w w' : TWorld) (T R : List ℕ) (x : MTensor) : Prop :=
  (x.store = w.stores.length ∧ ∃ s, w'.stores[w.stores.length]? = some s ∧ x.rows = List.range s.length) ∨
  (∃ i ∈ T, ∃ o, w.transforms[i]? = some o ∧ o.mat.store = x.store ∧ x.rows.Sublist o.mat.rows) ∨
  (∃ r ∈ R, ∃ m, w.tensors[r]? = some m ∧ m.store = x.store ∧ x.rows.Sublist m.rows)

/-- what a statement that names the transforms `T` and the tensors `R` can do -/
structure StepRel (w : TWorld) (T R : List ℕ) (w' : TWorld) : Prop where
  transforms : ∃ ts, w'.transforms = w.transforms ++ ts ∧ ∀ t ∈ ts, FromS w w' T R t.mat
  tensors : ∃ ms, w'.tensors = w.tensors ++ ms ∧ ∀ m ∈ ms, FromS w w' T R m
  length : w.stores.length ≤ w'.stores.length
  stores : ∀ s < w.stores.length, (∀ r ∈ R, ∀ m, w.tensors[r]? = some m → m.store ≠ s) →
    w'.stores[s]? = w.stores[s]?
  sizes : ∀ s < w.stores.length, (w'.stores[s]?).map List.length = (w.stores[s]?).map List.length

theorem StepRel.refl (w : TWorld) (T R : List ℕ) : StepRel w T R w :=
  ⟨⟨[], by simp⟩, ⟨[], by simp⟩, le_rfl, fun _ _ _ => rfl, fun _ _ => rfl⟩

theorem stepRel_fresh (w : TWorld) (T R : List ℕ) (x : T3) : StepRel w T R (w.addFresh x) := by
  refine ⟨⟨_, rfl, ?_⟩, ⟨[], by simp [TWorld.addFresh], by simp⟩, by simp [TWorld.addFresh], ?_, ?_⟩
  · intro t ht
    simp only [List.mem_singleton] at ht
    subst ht
    exact Or.inl ⟨rfl, x.mats, by simp [TWorld.addFresh], rfl⟩
  · intro s hs _
    simp [TWorld.addFresh, List.getElem?_append_left hs]
  · intro s hs
    simp [TWorld.addFresh, List.getElem?_append_left hs]

theorem stepRel_alias (w : TWorld) (T R : List ℕ) (t : TObj) (h : FromS w w T R t.mat) :
    StepRel w T R (w.addAlias t) := by
  refine ⟨⟨_, rfl, ?_⟩, ⟨[], by simp [TWorld.addAlias], by simp⟩, le_rfl, fun _ _ _ => rfl, fun _ _ => rfl⟩
  intro t' ht
  simp only [List.mem_singleton] at ht
  subst ht
  exact h

theorem transform_ok {w : TWorld} {i : ℕ} {o : TObj} (h : w.transform i = .ok o) : w.transforms[i]? = some o := by
  simp only [TWorld.transform] at h
  split at h <;> simp_all

theorem tensor_ok {w : TWorld} {i : ℕ} {o : MTensor} (h : w.tensor i = .ok o) : w.tensors[i]? = some o := by
  simp only [TWorld.tensor] at h
  split at h <;> simp_all

theorem transform_error {w : TWorld} {i : ℕ} {e : Err} (h : w.transform i = .error e) : w.transforms[i]? = none := by
  simp only [TWorld.transform] at h
  split at h <;> simp_all

theorem sub_store {m m' : MTensor} {i : Item} (h : m.sub i = .ok m') :
    m.store = m'.store ∧ m'.rows.Sublist m.rows := by
  cases i with
  | int i =>
    simp only [MTensor.sub] at h
    split at h
    · rename_i r hr
      simp only [Except.ok.injEq] at h
      subst h
      exact ⟨rfl, List.singleton_sublist.mpr (List.mem_of_getElem? hr)⟩
    · simp at h
  | slice a b =>
    simp only [MTensor.sub, Except.ok.injEq] at h
    subst h
    exact ⟨rfl, (List.drop_sublist _ _).trans (List.take_sublist _ _)⟩
  | list is => simp [MTensor.sub] at h

theorem stepRel_result {w w' : TWorld} (T R : List ℕ) {r : Except Err T3} (h : w.addResult r = .ok w') :
    StepRel w T R w' ∧ ∃ x, r = .ok x ∧ w' = w.addFresh x := by
  cases r with
  | error e => simp [TWorld.addResult, Except.map] at h
  | ok x =>
    simp only [TWorld.addResult, Except.map, Except.ok.injEq] at h
    subst h
    exact ⟨stepRel_fresh .., x, rfl, rfl⟩

/-- every statement -/
theorem step_rel {w w' : TWorld} {op : TOp} (h : op.step w = .ok w') :
    StepRel w (usedTransforms op) (usedTensors op) w' := by
  cases op with
  | newTensor ms d v =>
    simp only [TOp.step, Except.ok.injEq] at h
    subst h
    refine ⟨⟨[], by simp, by simp⟩, ⟨_, rfl, ?_⟩, by simp, ?_, ?_⟩
    · intro m hm
      simp only [List.mem_singleton] at hm
      subst hm
      exact Or.inl ⟨rfl, ms, by simp, rfl⟩
    · intro s hs _
      simp [List.getElem?_append_left hs]
    · intro s hs
      simp [List.getElem?_append_left hs]
  | write r k m =>
    simp only [TOp.step] at h
    cases ht : w.tensor r with
    | error e => rw [ht] at h; simp [error_bind] at h
    | ok t =>
      rw [ht, ok_bind] at h
      split at h
      · simp at h
      · simp only [Except.ok.injEq] at h
        subst h
        refine ⟨⟨[], by simp, by simp⟩, ⟨[], by simp, by simp⟩, by simp, ?_, ?_⟩
        · intro s hs hr
          have := hr r (by simp [usedTensors]) t (tensor_ok ht)
          simp [List.getElem?_modify, this]
        · intro s hs
          rw [List.getElem?_modify, Option.map_eq_map, Option.map_map]
          congr 1
          funext x
          simp only [Function.comp]
          split <;> simp
  | ofMatrix r =>
    simp only [TOp.step] at h
    cases ht : w.tensor r with
    | error e => rw [ht] at h; simp [error_bind] at h
    | ok t =>
      rw [ht, ok_bind, pure_ok, Except.ok.injEq] at h
      subst h
      exact stepRel_alias _ _ _ _ (Or.inr (Or.inr ⟨r, by simp [usedTensors], t, tensor_ok ht, rfl, List.Sublist.refl _⟩))
  | init n pos rot d v =>
    exact (stepRel_result _ _ h).1
  | getMatrix t =>
    simp only [TOp.step] at h
    cases ht : w.transform t with
    | error e => rw [ht] at h; simp [error_bind] at h
    | ok o =>
      rw [ht, ok_bind, pure_ok, Except.ok.injEq] at h
      subst h
      refine ⟨⟨[], by simp, by simp⟩, ⟨_, rfl, ?_⟩, le_rfl, fun _ _ _ => rfl, fun _ _ => rfl⟩
      intro m hm
      simp only [List.mem_singleton] at hm
      subst hm
      exact Or.inr (Or.inl ⟨t, by simp [usedTransforms], o, transform_ok ht, rfl, List.Sublist.refl _⟩)
  | getItem t i =>
    have key : ∀ i, (∀ is, i ≠ .list is) → (do
        let o ← w.transform t
        let m ← o.mat.sub i
        return w.addAlias (ofTensor m) : Except Err TWorld) = .ok w' → StepRel w [t] [] w' := by
      intro i _ h
      cases ht : w.transform t with
      | error e => rw [ht] at h; simp [error_bind] at h
      | ok o =>
        rw [ht, ok_bind] at h
        cases hm : o.mat.sub i with
        | error e => rw [hm] at h; simp [error_bind] at h
        | ok m =>
          rw [hm, ok_bind, pure_ok, Except.ok.injEq] at h
          subst h
          exact stepRel_alias _ _ _ _ (Or.inr (Or.inl ⟨t, by simp, o, transform_ok ht, sub_store hm⟩))
    cases i with
    | int i => exact key _ (by simp) h
    | slice a b => exact key _ (by simp) h
    | list is =>
      simp only [TOp.step] at h
      cases ht : w.transform t with
      | error e => rw [ht] at h; simp [error_bind] at h
      | ok o =>
        rw [ht, ok_bind] at h
        cases hm : pickMats (w.read o.mat) is with
        | error e => rw [hm] at h; simp [error_bind] at h
        | ok ms =>
          rw [hm, ok_bind, pure_ok, Except.ok.injEq] at h
          subst h
          exact stepRel_fresh ..
  | compose t os =>
    cases os with
    | nil =>
      simp only [TOp.step] at h
      cases ht : w.transform t with
      | error e => rw [ht] at h; simp [error_bind] at h
      | ok o =>
        rw [ht, ok_bind, pure_ok, Except.ok.injEq] at h
        subst h
        exact stepRel_alias _ _ _ _ (Or.inr (Or.inl ⟨t, by simp [usedTransforms], o, transform_ok ht, rfl, List.Sublist.refl _⟩))
    | cons a os =>
      simp only [TOp.step] at h
      cases ht : w.transform t with
      | error e => rw [ht] at h; simp [error_bind] at h
      | ok o =>
        rw [ht, ok_bind] at h
        cases hm : (a :: os).mapM w.transform with
        | error e => rw [hm] at h; simp [error_bind] at h
        | ok ms =>
          rw [hm, ok_bind] at h
          exact (stepRel_result _ _ h).1
  | stack t os =>
    simp only [TOp.step] at h
    cases ht : w.transform t with
    | error e => rw [ht] at h; simp [error_bind] at h
    | ok o =>
      rw [ht, ok_bind] at h
      cases hm : os.mapM w.transform with
      | error e => rw [hm] at h; simp [error_bind] at h
      | ok ms =>
        rw [hm, ok_bind, pure_ok, Except.ok.injEq] at h
        subst h
        exact stepRel_fresh ..
  | move t device copy dtype =>
    simp only [TOp.step] at h
    cases ht : w.transform t with
    | error e => rw [ht] at h; simp [error_bind] at h
    | ok o =>
      rw [ht, ok_bind, pure_ok, Except.ok.injEq] at h
      have hs : FromS w w [t] [] o.mat := Or.inr (Or.inl ⟨t, by simp, o, transform_ok ht, rfl, List.Sublist.refl _⟩)
      subst h
      unfold TWorld.to
      split_ifs
      · exact stepRel_alias _ _ _ _ hs
      · exact stepRel_alias _ _ _ _ hs
      · exact stepRel_fresh ..
  | inverse t | clone t =>
    simp only [TOp.step] at h
    cases ht : w.transform t with
    | error e => rw [ht] at h; simp [error_bind] at h
    | ok o =>
      rw [ht, ok_bind, pure_ok, Except.ok.injEq] at h
      subst h
      exact stepRel_fresh ..
  | translate t | scale t | rotate t | rotateAxisAngle t =>
    simp only [TOp.step] at h
    cases ht : w.transform t with
    | error e => rw [ht] at h; simp [error_bind] at h
    | ok o =>
      rw [ht, ok_bind] at h
      exact (stepRel_result _ _ h).1

theorem run_rel (w : TWorld) (op : TOp) : StepRel w (usedTransforms op) (usedTensors op) (op.run w) := by
  unfold TOp.run
  cases h : op.step w with
  | ok w' => exact step_rel h
  | error e => exact StepRel.refl ..

/-- every tensor shows different matrices of an existing storage -/
def TensorOk (w : TWorld) (m : MTensor) : Prop :=
  m.rows.Nodup ∧ ∃ s, w.stores[m.store]? = some s ∧ ∀ r ∈ m.rows, r < s.length

/-- this for every object -/
def TWF (w : TWorld) : Prop := (∀ t ∈ w.transforms, TensorOk w t.mat) ∧ ∀ m ∈ w.tensors, TensorOk w m

theorem TensorOk.lt {w : TWorld} {m : MTensor} (h : TensorOk w m) : m.store < w.stores.length := by
  obtain ⟨_, s, hs, _⟩ := h
  exact (List.getElem?_eq_some_iff.mp hs).1

theorem TensorOk.step {w w' : TWorld} {T R : List ℕ} {m : MTensor} (r : StepRel w T R w') (h : TensorOk w m) :
    TensorOk w' m := by
  have hl := r.sizes m.store h.lt
  obtain ⟨h1, s, hs, h2⟩ := h
  rw [hs] at hl
  cases hs' : w'.stores[m.store]? with
  | none => rw [hs'] at hl; simp at hl
  | some s' =>
    rw [hs'] at hl
    simp only [Option.map_some, Option.some.injEq] at hl
    exact ⟨h1, s', hs', fun k hk => hl ▸ h2 k hk⟩

theorem TensorOk.sub {w : TWorld} {m x : MTensor} (h : TensorOk w m) (hs : m.store = x.store)
    (hr : x.rows.Sublist m.rows) : TensorOk w x := by
  obtain ⟨h1, s, h2, h3⟩ := h
  exact ⟨h1.sublist hr, s, hs ▸ h2, fun k hk => h3 k (hr.subset hk)⟩

theorem fromS_ok {w w' : TWorld} {T R : List ℕ} {x : MTensor} (hw : TWF w) (r : StepRel w T R w')
    (h : FromS w w' T R x) : TensorOk w' x := by
  rcases h with ⟨hs, s, h1, h2⟩ | ⟨i, _, o, ho, hs, hr⟩ | ⟨k, _, m, hm, hs, hr⟩
  · exact ⟨h2 ▸ List.nodup_range, s, hs ▸ h1, fun k hk => by rw [h2] at hk; exact List.mem_range.mp hk⟩
  · exact ((hw.1 o (List.mem_of_getElem? ho)).step r).sub hs hr
  · exact ((hw.2 m (List.mem_of_getElem? hm)).step r).sub hs hr

theorem StepRel.wf {w w' : TWorld} {T R : List ℕ} (hw : TWF w) (h : StepRel w T R w') : TWF w' := by
  obtain ⟨ts, hts, ht⟩ := h.transforms
  obtain ⟨ms, hms, hm⟩ := h.tensors
  constructor
  · intro t htm
    rw [hts, List.mem_append] at htm
    rcases htm with htm | htm
    · exact (hw.1 t htm).step h
    · exact fromS_ok hw h (ht t htm)
  · intro m hmm
    rw [hms, List.mem_append] at hmm
    rcases hmm with hmm | hmm
    · exact (hw.2 m hmm).step h
    · exact fromS_ok hw h (hm m hmm)

theorem wf_run (ops : List TOp) {w : TWorld} (hw : TWF w) : TWF (runTOps w ops) := by
  induction ops generalizing w with
  | nil => exact hw
  | cons o ops ih => exact ih ((run_rel w o).wf hw)

theorem wf_empty : TWF {} := ⟨by simp, by simp⟩

/-- only transform `u` shows storage `s` -/
def OnlyAt (w : TWorld) (u s : ℕ) : Prop :=
  s < w.stores.length ∧ (∀ i t, w.transforms[i]? = some t → t.mat.store = s → i = u) ∧
    (∀ m ∈ w.tensors, m.store ≠ s) ∧ u < w.transforms.length

theorem OnlyAt.step {w w' : TWorld} {T R : List ℕ} {u s : ℕ} (h : OnlyAt w u s) (r : StepRel w T R w') (hu : u ∉ T) :
    OnlyAt w' u s ∧ w'.stores[s]? = w.stores[s]? ∧ w'.transforms[u]? = w.transforms[u]? := by
  obtain ⟨hs, h1, h2, h3⟩ := h
  obtain ⟨ts, hts, ht⟩ := r.transforms
  obtain ⟨ms, hms, hm⟩ := r.tensors
  have hne : ∀ x, FromS w w' T R x → x.store ≠ s := by
    rintro x (⟨hx, _⟩ | ⟨i, hi, o, ho, hx, _⟩ | ⟨k, _, m, hm, hx, _⟩) he
    · omega
    · exact hu (h1 i o ho (hx.trans he) ▸ hi)
    · exact h2 m (List.mem_of_getElem? hm) (hx.trans he)
  refine ⟨⟨lt_of_lt_of_le hs r.length, ?_, ?_, ?_⟩, ?_, ?_⟩
  · intro i t hi hst
    rw [hts] at hi
    by_cases hlt : i < w.transforms.length
    · rw [List.getElem?_append_left hlt] at hi
      exact h1 i t hi hst
    · rw [List.getElem?_append_right (by omega)] at hi
      exact absurd hst (hne _ (ht t (List.mem_of_getElem? hi)))
  · intro m hmm
    rw [hms, List.mem_append] at hmm
    rcases hmm with hmm | hmm
    · exact h2 m hmm
    · exact hne _ (hm m hmm)
  · rw [hts, List.length_append]; omega
  · exact r.stores s hs fun k _ m hm => h2 m (List.mem_of_getElem? hm)
  · rw [hts, List.getElem?_append_left h3]

theorem onlyAt_run (ops : List TOp) {w : TWorld} {u s : ℕ} (h : OnlyAt w u s)
    (hu : ∀ o ∈ ops, u ∉ usedTransforms o) :
    (runTOps w ops).stores[s]? = w.stores[s]? ∧ (runTOps w ops).transforms[u]? = w.transforms[u]? := by
  induction ops generalizing w with
  | nil => exact ⟨rfl, rfl⟩
  | cons o ops ih =>
    obtain ⟨a, b, c⟩ := h.step (run_rel w o) (hu o (by simp))
    obtain ⟨d, e⟩ := ih a fun o ho => hu o (by simp [ho])
    exact ⟨d.trans b, e.trans c⟩

theorem read_congr {w w' : TWorld} {m : MTensor} (h : w'.stores[m.store]? = w.stores[m.store]?) :
    w'.read m = w.read m := by
  simp only [TWorld.read, List.getD_eq_getElem?_getD, h]

theorem value_congr {w w' : TWorld} {t : TObj} (h : w'.stores[t.mat.store]? = w.stores[t.mat.store]?) :
    w'.value t = w.value t := by
  simp only [TWorld.value, read_congr h]

/-- objects numbered from `n` and `k` on show only storages from `s` on -/
def After (w : TWorld) (n k s : ℕ) : Prop :=
  s ≤ w.stores.length ∧ n ≤ w.transforms.length ∧ k ≤ w.tensors.length ∧
  (∀ i t, w.transforms[i]? = some t → n ≤ i → s ≤ t.mat.store) ∧
  (∀ r m, w.tensors[r]? = some m → k ≤ r → s ≤ m.store)

theorem After.step {w w' : TWorld} {T R : List ℕ} {n k s : ℕ} (h : After w n k s) (r : StepRel w T R w')
    (hT : ∀ t ∈ T, n ≤ t) (hR : ∀ t ∈ R, k ≤ t) :
    After w' n k s ∧ (∀ x < s, w'.stores[x]? = w.stores[x]?) ∧
      (∀ i < n, w'.transforms[i]? = w.transforms[i]?) ∧ (∀ i < k, w'.tensors[i]? = w.tensors[i]?) := by
  obtain ⟨h0, h1, h2, h3, h4⟩ := h
  obtain ⟨ts, hts, ht⟩ := r.transforms
  obtain ⟨ms, hms, hm⟩ := r.tensors
  have hge : ∀ x, FromS w w' T R x → s ≤ x.store := by
    rintro x (⟨hx, _⟩ | ⟨i, hi, o, ho, hx, _⟩ | ⟨j, hj, m, hm, hx, _⟩)
    · exact hx ▸ h0
    · exact hx ▸ h3 i o ho (hT i hi)
    · exact hx ▸ h4 j m hm (hR j hj)
  refine ⟨⟨le_trans h0 r.length, ?_, ?_, ?_, ?_⟩, ?_, ?_, ?_⟩
  · rw [hts, List.length_append]; omega
  · rw [hms, List.length_append]; omega
  · intro i t hi hn
    rw [hts] at hi
    by_cases hlt : i < w.transforms.length
    · rw [List.getElem?_append_left hlt] at hi
      exact h3 i t hi hn
    · rw [List.getElem?_append_right (by omega)] at hi
      exact hge _ (ht t (List.mem_of_getElem? hi))
  · intro i t hi hn
    rw [hms] at hi
    by_cases hlt : i < w.tensors.length
    · rw [List.getElem?_append_left hlt] at hi
      exact h4 i t hi hn
    · rw [List.getElem?_append_right (by omega)] at hi
      exact hge _ (hm t (List.mem_of_getElem? hi))
  · intro x hx
    refine r.stores x (by omega) fun j hj m hm hms => ?_
    have := h4 j m hm (hR j hj)
    omega
  · intro i hi
    rw [hts, List.getElem?_append_left (by omega)]
  · intro i hi
    rw [hms, List.getElem?_append_left (by omega)]

theorem after_run (ops : List TOp) {w : TWorld} {n k s : ℕ} (h : After w n k s)
    (hu : ∀ o ∈ ops, (∀ t ∈ usedTransforms o, n ≤ t) ∧ ∀ r ∈ usedTensors o, k ≤ r) :
    (∀ x < s, (runTOps w ops).stores[x]? = w.stores[x]?) ∧
      (∀ i < n, (runTOps w ops).transforms[i]? = w.transforms[i]?) ∧
      (∀ i < k, (runTOps w ops).tensors[i]? = w.tensors[i]?) := by
  induction ops generalizing w with
  | nil => exact ⟨fun _ _ => rfl, fun _ _ => rfl, fun _ _ => rfl⟩
  | cons o ops ih =>
    obtain ⟨a, b, c, d⟩ := h.step (run_rel w o) (hu o (by simp)).1 (hu o (by simp)).2
    obtain ⟨e, f, g⟩ := ih a fun o ho => hu o (by simp [ho])
    exact ⟨fun x hx => (e x hx).trans (b x hx), fun x hx => (f x hx).trans (c x hx),
      fun x hx => (g x hx).trans (d x hx)⟩

/-- a transform with a new storage is independent of everything else -/
theorem independent_fresh {w : TWorld} (hw : TWF w) (x : T3) : Independent w (w.addFresh x) := by
  constructor
  · intro ops hops
    have h0 : (w.addFresh x).transforms[w.transforms.length]? = some
        ⟨x.kind, ⟨w.stores.length, List.range x.mats.length, x.mdtype, x.mdevice⟩, x.dtype, x.device⟩ := by
      simp [TWorld.addFresh]
    have ho : OnlyAt (w.addFresh x) w.transforms.length w.stores.length := by
      refine ⟨by simp [TWorld.addFresh], ?_, ?_, by simp [TWorld.addFresh]⟩
      · intro i t hi hs
        simp only [TWorld.addFresh] at hi
        by_contra hne
        by_cases hlt : i < w.transforms.length
        · rw [List.getElem?_append_left hlt] at hi
          have := (hw.1 t (List.mem_of_getElem? hi)).lt
          omega
        · rw [List.getElem?_append_right (by omega)] at hi
          obtain ⟨j, hj⟩ : ∃ j, i - w.transforms.length = j + 1 := ⟨i - w.transforms.length - 1, by omega⟩
          rw [hj] at hi
          simp at hi
      · intro m hm
        exact Nat.ne_of_lt (hw.2 m hm).lt
    obtain ⟨h1, h2⟩ := onlyAt_run ops ho hops
    simp only [shown]
    rw [h2, h0, Option.map_some, Option.map_some, value_congr h1]
  · intro ops hops
    have ha : After (w.addFresh x) w.transforms.length w.tensors.length w.stores.length := by
      refine ⟨by simp [TWorld.addFresh], by simp [TWorld.addFresh], le_rfl, ?_, ?_⟩
      · intro i t hi hn
        simp only [TWorld.addFresh] at hi
        rw [List.getElem?_append_right hn] at hi
        have := List.mem_of_getElem? hi
        simp only [List.mem_singleton] at this
        subst this
        exact le_rfl
      · intro r m hr hk
        have : r < w.tensors.length := by
          by_contra hc
          simp [TWorld.addFresh, List.getElem?_eq_none (Nat.le_of_not_lt hc)] at hr
        omega
    obtain ⟨h1, h2, h3⟩ := after_run ops ha hops
    have hst : ∀ s < w.stores.length, (runTOps (w.addFresh x) ops).stores[s]? = w.stores[s]? := by
      intro s hs
      rw [h1 s hs]
      simp [TWorld.addFresh, List.getElem?_append_left hs]
    constructor
    · intro i hi
      have : (w.addFresh x).transforms[i]? = w.transforms[i]? := by
        simp [TWorld.addFresh, List.getElem?_append_left hi]
      simp only [shown]
      rw [h2 i hi, this]
      cases ht : w.transforms[i]? with
      | none => rfl
      | some t =>
        rw [Option.map_some, Option.map_some, value_congr (hst _ (hw.1 t (List.mem_of_getElem? ht)).lt)]
    · intro r hr
      simp only [shownTensor]
      rw [h3 r hr]
      change Option.map _ w.tensors[r]? = _
      cases ht : w.tensors[r]? with
      | none => rfl
      | some t =>
        rw [Option.map_some, Option.map_some, read_congr (hst _ (hw.2 t (List.mem_of_getElem? ht)).lt)]

theorem makesCopy_fresh {w w' : TWorld} {op : TOp} (hc : makesCopy op) (h : op.step w = .ok w') :
    ∃ x, w' = w.addFresh x := by
  cases op with
  | newTensor | write | ofMatrix | getMatrix | move => exact hc.elim
  | init n pos rot d v =>
    obtain ⟨_, x, _, rfl⟩ := stepRel_result [] [] h
    exact ⟨x, rfl⟩
  | getItem t i =>
    cases i with
    | int | slice => exact hc.elim
    | list is =>
      simp only [TOp.step] at h
      cases ht : w.transform t with
      | error e => rw [ht] at h; simp [error_bind] at h
      | ok o =>
        rw [ht, ok_bind] at h
        cases hm : pickMats (w.read o.mat) is with
        | error e => rw [hm] at h; simp [error_bind] at h
        | ok ms =>
          rw [hm, ok_bind, pure_ok, Except.ok.injEq] at h
          exact ⟨_, h.symm⟩
  | compose t os =>
    cases os with
    | nil => exact absurd rfl hc
    | cons a os =>
      simp only [TOp.step] at h
      cases ht : w.transform t with
      | error e => rw [ht] at h; simp [error_bind] at h
      | ok o =>
        rw [ht, ok_bind] at h
        cases hm : (a :: os).mapM w.transform with
        | error e => rw [hm] at h; simp [error_bind] at h
        | ok ms =>
          rw [hm, ok_bind] at h
          obtain ⟨_, x, _, rfl⟩ := stepRel_result [] [] h
          exact ⟨x, rfl⟩
  | stack t os =>
    simp only [TOp.step] at h
    cases ht : w.transform t with
    | error e => rw [ht] at h; simp [error_bind] at h
    | ok o =>
      rw [ht, ok_bind] at h
      cases hm : os.mapM w.transform with
      | error e => rw [hm] at h; simp [error_bind] at h
      | ok ms =>
        rw [hm, ok_bind, pure_ok, Except.ok.injEq] at h
        exact ⟨_, h.symm⟩
  | inverse t | clone t =>
    simp only [TOp.step] at h
    cases ht : w.transform t with
    | error e => rw [ht] at h; simp [error_bind] at h
    | ok o =>
      rw [ht, ok_bind, pure_ok, Except.ok.injEq] at h
      exact ⟨_, h.symm⟩
  | translate t | scale t | rotate t | rotateAxisAngle t =>
    simp only [TOp.step] at h
    cases ht : w.transform t with
    | error e => rw [ht] at h; simp [error_bind] at h
    | ok o =>
      rw [ht, ok_bind] at h
      obtain ⟨_, x, _, rfl⟩ := stepRel_result [] [] h
      exact ⟨x, rfl⟩

/-- **C97** (part). In every program: a transform made by the constructor without `matrix`, `clone`, `inverse`, `stack`,
`compose` with an argument, `translate`, `scale`, `rotate`, `rotate_axis_angle` or an index list is independent of all
tensors and transforms that existed before.  Missing: `compose()` and `to(copy=True)`, see the `_fails` theorems. -/
theorem C97_independent_partial (before : List TOp) (op : TOp) (hc : makesCopy op) (w' : TWorld)
    (h : op.step (runTOps {} before) = .ok w') : Independent (runTOps {} before) w' := by
  obtain ⟨x, rfl⟩ := makesCopy_fresh hc h
  exact independent_fresh (wf_run before wf_empty) x

/-- `to(…, copy=True)` makes an independent transform when the dtype or the device of the matrix changes. -/
theorem C97_to_copy_partial (before : List TOp) (t : ℕ) (o : TObj) (ho : (runTOps {} before).transforms[t]? = some o)
    (device : Device) (dtype : Option DType) (hd : device ≠ o.mat.device ∨ dtype.getD o.mat.dtype ≠ o.mat.dtype) :
    Independent (runTOps {} before) ((TOp.move t device true dtype).run (runTOps {} before)) := by
  have hs : (TOp.move t device true dtype).run (runTOps {} before) =
      (runTOps {} before).addFresh (((runTOps {} before).value o).to device true dtype) := by
    have ht : (runTOps {} before).transform t = .ok o := by simp [TWorld.transform, ho]
    have h2 : ¬ (device = o.mat.device ∧ dtype.getD o.mat.dtype = o.mat.dtype) := by tauto
    simp only [TOp.run, TOp.step]
    rw [ht, ok_bind, pure_ok]
    simp only [TWorld.to]
    rw [if_neg (by simp), if_neg h2]
  rw [hs]
  exact independent_fresh (wf_run before wf_empty) _

/-- reading after writing matrix `k` of a tensor with the same storage and the same rows -/
theorem read_write {w : TWorld} {m : MTensor} (h : TensorOk w m) {k row : ℕ} (hk : m.rows[k]? = some row) (M : M4) :
    ({ w with stores := w.stores.modify m.store fun s => s.set row M } : TWorld).read m = (w.read m).set k M := by
  obtain ⟨h1, s, h2, h3⟩ := h
  simp only [TWorld.read, List.getD_eq_getElem?_getD, List.getElem?_modify_eq, h2, Option.map_eq_map,
    Option.map_some, Option.getD_some]
  apply List.ext_getElem?
  intro j
  rw [List.getElem?_map, List.getElem?_set, List.getElem?_map]
  obtain ⟨hkl, hkr⟩ := List.getElem?_eq_some_iff.mp hk
  by_cases hj : k = j
  · subst hj
    simp only [hk, Option.map_some, List.length_map, hkl, if_true, List.getElem?_set_self (h3 row (List.mem_of_getElem? hk)),
      Option.getD_some]
  · simp only [hj, if_false]
    cases hjr : m.rows[j]? with
    | none => rfl
    | some r =>
      obtain ⟨hjl, hjr'⟩ := List.getElem?_eq_some_iff.mp hjr
      have : row ≠ r := by
        intro he
        exact hj ((List.nodup_iff_injective_getElem.mp h1) (a₁ := ⟨k, hkl⟩) (a₂ := ⟨j, hjl⟩)
          (by simp [hkr, hjr', he]) |> fun h => by simpa using congrArg Fin.val h)
      simp [List.getElem?_set_ne this]

/-- **C97**, views. `t.get_matrix()` shows the transform itself: writing matrix `k` of it changes matrix `k` of `t` and no
other. -/
theorem C97_get_matrix (before : List TOp) (t : ℕ) (o : TObj) (ho : (runTOps {} before).transforms[t]? = some o)
    (k : ℕ) (hk : k < o.mat.rows.length) (M : M4) :
    shown (runTOps {} (before ++ [.getMatrix t, .write (runTOps {} before).tensors.length k M])) t =
      some { (runTOps {} before).value o with mats := ((runTOps {} before).read o.mat).set k M } := by
  have hw := wf_run before wf_empty
  generalize hwd : runTOps {} before = w at *
  have ht : w.transform t = .ok o := by simp [TWorld.transform, ho]
  have h1 : (TOp.getMatrix t).run w = { w with tensors := w.tensors ++ [o.mat] } := by
    simp only [TOp.run, TOp.step]
    rw [ht, ok_bind, pure_ok]
  obtain ⟨row, hrow⟩ : ∃ row, o.mat.rows[k]? = some row := ⟨_, List.getElem?_eq_getElem hk⟩
  have h2 : (TOp.write w.tensors.length k M).run { w with tensors := w.tensors ++ [o.mat] } =
      { w with tensors := w.tensors ++ [o.mat], stores := w.stores.modify o.mat.store fun s => s.set row M } := by
    have : ({ w with tensors := w.tensors ++ [o.mat] } : TWorld).tensor w.tensors.length = .ok o.mat := by
      simp [TWorld.tensor]
    simp only [TOp.run, TOp.step]
    rw [this, ok_bind]
    simp only [hrow]
  simp only [runTOps, List.foldl_append, List.foldl_cons, List.foldl_nil] at hwd ⊢
  rw [hwd, h1, h2]
  simp only [shown, ho, Option.map_some, TWorld.value]
  rw [← read_write (hw.1 o (List.mem_of_getElem? ho)) hrow M]
  rfl

/-- **C97**, views. `Transform3d(matrix=m)` shows `m`: what is written to `m` later is seen in the transform. -/
theorem C97_of_matrix (before : List TOp) (r : ℕ) (m : MTensor) (hm : (runTOps {} before).tensors[r]? = some m)
    (k : ℕ) (hk : k < m.rows.length) (M : M4) :
    shown (runTOps {} (before ++ [.ofMatrix r, .write r k M])) (runTOps {} before).transforms.length =
      some ⟨.plain, ((runTOps {} before).read m).set k M, m.dtype, m.device, m.dtype, m.device⟩ := by
  have hw := wf_run before wf_empty
  generalize hwd : runTOps {} before = w at *
  have ht : w.tensor r = .ok m := by simp [TWorld.tensor, hm]
  have h1 : (TOp.ofMatrix r).run w = w.addAlias (ofTensor m) := by
    simp only [TOp.run, TOp.step]
    rw [ht, ok_bind, pure_ok]
  obtain ⟨row, hrow⟩ : ∃ row, m.rows[k]? = some row := ⟨_, List.getElem?_eq_getElem hk⟩
  have h2 : (TOp.write r k M).run (w.addAlias (ofTensor m)) =
      { w.addAlias (ofTensor m) with stores := w.stores.modify m.store fun s => s.set row M } := by
    have : (w.addAlias (ofTensor m)).tensor r = .ok m := by simp [TWorld.tensor, TWorld.addAlias, hm]
    simp only [TOp.run, TOp.step]
    rw [this, ok_bind]
    simp only [hrow]
    rfl
  simp only [runTOps, List.foldl_append, List.foldl_cons, List.foldl_nil] at hwd ⊢
  rw [hwd, h1, h2]
  rw [← read_write (hw.2 m (List.mem_of_getElem? hm)) hrow M]
  simp [shown, TWorld.addAlias, TWorld.value, ofTensor, TWorld.read]

/-- **C97**, views. `t[i]` shows matrix `i` of `t`: writing to the matrix of `t[i]` changes `t`. -/
theorem C97_item (before : List TOp) (t : ℕ) (o : TObj) (ho : (runTOps {} before).transforms[t]? = some o)
    (i : ℕ) (hi : i < o.mat.rows.length) (M : M4) :
    shown (runTOps {} (before ++ [.getItem t (.int i), .getMatrix (runTOps {} before).transforms.length,
      .write (runTOps {} before).tensors.length 0 M])) t =
      some { (runTOps {} before).value o with mats := ((runTOps {} before).read o.mat).set i M } := by
  have hw := wf_run before wf_empty
  generalize hwd : runTOps {} before = w at *
  have ht : w.transform t = .ok o := by simp [TWorld.transform, ho]
  have htl : t < w.transforms.length := (List.getElem?_eq_some_iff.mp ho).1
  obtain ⟨row, hrow⟩ : ∃ row, o.mat.rows[i]? = some row := ⟨_, List.getElem?_eq_getElem hi⟩
  have h1 : (TOp.getItem t (.int i)).run w = w.addAlias (ofTensor { o.mat with rows := [row] }) := by
    simp only [TOp.run, TOp.step]
    rw [ht, ok_bind]
    simp only [MTensor.sub, hrow]
    rw [ok_bind, pure_ok]
  have h2 : (TOp.getMatrix w.transforms.length).run (w.addAlias (ofTensor { o.mat with rows := [row] })) =
      { w.addAlias (ofTensor { o.mat with rows := [row] }) with
        tensors := w.tensors ++ [{ o.mat with rows := [row] }] } := by
    simp only [TOp.run, TOp.step]
    have : (w.addAlias (ofTensor { o.mat with rows := [row] })).transform w.transforms.length =
        .ok (ofTensor { o.mat with rows := [row] }) := by simp [TWorld.transform, TWorld.addAlias]
    rw [this, ok_bind, pure_ok]
    rfl
  have h3 : (TOp.write w.tensors.length 0 M).run { w.addAlias (ofTensor { o.mat with rows := [row] }) with
        tensors := w.tensors ++ [{ o.mat with rows := [row] }] } =
      { w.addAlias (ofTensor { o.mat with rows := [row] }) with
        tensors := w.tensors ++ [{ o.mat with rows := [row] }]
        stores := w.stores.modify o.mat.store fun s => s.set row M } := by
    have : ({ w.addAlias (ofTensor { o.mat with rows := [row] }) with
        tensors := w.tensors ++ [{ o.mat with rows := [row] }] } : TWorld).tensor w.tensors.length =
        .ok { o.mat with rows := [row] } := by simp [TWorld.tensor]
    simp only [TOp.run, TOp.step]
    rw [this, ok_bind]
    rfl
  simp only [runTOps, List.foldl_append, List.foldl_cons, List.foldl_nil] at hwd ⊢
  rw [hwd, h1, h2, h3]
  rw [← read_write (hw.1 o (List.mem_of_getElem? ho)) hrow M]
  simp [shown, TWorld.addAlias, TWorld.value, TWorld.read, List.getElem?_append_left htl, ho]

/-- a second transform with the same tensor is not independent -/
theorem alias_dependent {w : TWorld} (hw : TWF w) {t : ℕ} {o o' : TObj} (ho : w.transforms[t]? = some o)
    (hm : o'.mat = o.mat) (hr : o.mat.rows ≠ []) : ¬ Independent w (w.addAlias o') := by
  rintro ⟨-, h⟩
  obtain ⟨row, hrow⟩ : ∃ row, o.mat.rows[0]? = some row := ⟨_, List.getElem?_eq_getElem (List.length_pos_iff.mpr hr)⟩
  have htl : t < w.transforms.length := (List.getElem?_eq_some_iff.mp ho).1
  let M : M4 := fun i j => ((w.read o.mat).headD 0) i j + 1
  have hi := (h [.getMatrix w.transforms.length, .write w.tensors.length 0 M] (by
    simp [usedTransforms, usedTensors])).1 t htl
  have ht : (w.addAlias o').transform w.transforms.length = .ok o' := by
    simp [TWorld.transform, TWorld.addAlias]
  have h1 : (TOp.getMatrix w.transforms.length).run (w.addAlias o') =
      { w.addAlias o' with tensors := w.tensors ++ [o.mat] } := by
    simp only [TOp.run, TOp.step]
    rw [ht, ok_bind, pure_ok, hm]
    rfl
  have h2 : (TOp.write w.tensors.length 0 M).run { w.addAlias o' with tensors := w.tensors ++ [o.mat] } =
      { w.addAlias o' with
        tensors := w.tensors ++ [o.mat], stores := w.stores.modify o.mat.store fun s => s.set row M } := by
    have : ({ w.addAlias o' with tensors := w.tensors ++ [o.mat] } : TWorld).tensor w.tensors.length = .ok o.mat := by
      simp [TWorld.tensor]
    simp only [TOp.run, TOp.step]
    rw [this, ok_bind]
    simp only [hrow]
    rfl
  simp only [runTOps, List.foldl_cons, List.foldl_nil] at hi
  rw [h1, h2] at hi
  simp only [shown, TWorld.addAlias, List.getElem?_append_left htl, ho, Option.map_some, Option.some.injEq] at hi
  have hread := congrArg T3.mats hi
  simp only [TWorld.value] at hread
  have hw2 := read_write (hw.1 o (List.mem_of_getElem? ho)) hrow M
  simp only [TWorld.read] at hread hw2
  rw [hw2] at hread
  cases hrows : o.mat.rows with
  | nil => exact hr hrows
  | cons a l =>
    simp only [hrows, List.map_cons, List.set_cons_zero, List.cons.injEq] at hread
    have := congrFun (congrFun hread.1 0) 0
    simp only [M, TWorld.read, hrows, List.map_cons, List.headD_cons] at this
    linarith

/-- **C97**, negation for `to`. Whenever dtype and device stay the same, the result of `to(device, copy=True)` is not a
copy: writing to its matrix changes the transform it was made from. -/
theorem C97_to_copy_fails (before : List TOp) (t : ℕ) (o : TObj) (ho : (runTOps {} before).transforms[t]? = some o)
    (hr : o.mat.rows ≠ []) (dtype : Option DType) (hd : dtype = none ∨ dtype = some o.mat.dtype) :
    ¬ Independent (runTOps {} before) ((TOp.move t o.mat.device true dtype).run (runTOps {} before)) := by
  have hs : (TOp.move t o.mat.device true dtype).run (runTOps {} before) =
      (runTOps {} before).addAlias ⟨.plain, o.mat, dtype.getD o.dtype, o.mat.device⟩ := by
    have ht : (runTOps {} before).transform t = .ok o := by simp [TWorld.transform, ho]
    simp only [TOp.run, TOp.step]
    rw [ht, ok_bind, pure_ok]
    simp only [TWorld.to]
    rw [if_neg (by simp), if_pos (by rcases hd with rfl | rfl <;> simp)]
  rw [hs]
  exact alias_dependent (wf_run before wf_empty) ho rfl hr

/-- **C97**, negation for `compose()`: without arguments the "new Transform3d" shows the matrix of the old one. -/
theorem C97_compose_fails (before : List TOp) (t : ℕ) (o : TObj) (ho : (runTOps {} before).transforms[t]? = some o)
    (hr : o.mat.rows ≠ []) :
    ¬ Independent (runTOps {} before) ((TOp.compose t []).run (runTOps {} before)) := by
  have hs : (TOp.compose t []).run (runTOps {} before) = (runTOps {} before).addAlias (ofTensor o.mat) := by
    have ht : (runTOps {} before).transform t = .ok o := by simp [TWorld.transform, ho]
    simp only [TOp.run, TOp.step]
    rw [ht, ok_bind, pure_ok]
  rw [hs]
  exact alias_dependent (wf_run before wf_empty) ho rfl hr

theorem shown_fresh (w : TWorld) (x : T3) : shown (w.addFresh x) w.transforms.length = some x := by
  have : (w.addFresh x).transforms[w.transforms.length]? = some
      ⟨x.kind, ⟨w.stores.length, List.range x.mats.length, x.mdtype, x.mdevice⟩, x.dtype, x.device⟩ := by
    simp [TWorld.addFresh]
  rw [shown, this, Option.map_some]
  simp only [TWorld.value, TWorld.read, TWorld.addFresh, List.getD_eq_getElem?_getD,
    List.getElem?_concat_length, Option.getD_some]
  have : (List.range x.mats.length).map (fun r => x.mats[r]?.getD 0) = x.mats := by
    apply List.ext_getElem (by simp)
    intro i h1 h2
    simp [h2]
  rw [this]

theorem shown_alias (w : TWorld) (o : TObj) : shown (w.addAlias o) w.transforms.length = some (w.value o) := by
  simp [shown, TWorld.addAlias, TWorld.value, TWorld.read]

/-- **C97**, values. Whatever storage is shared, a call returns what `Model/Transform3d.lean` says about the values that
its operands show at the time of the call. -/
theorem C97_values (before : List TOp) (t : ℕ) (o : TObj) (ho : (runTOps {} before).transforms[t]? = some o) :
    let w := runTOps {} before
    shown ((TOp.clone t).run w) w.transforms.length = some (w.value o).clone ∧
    shown ((TOp.inverse t).run w) w.transforms.length = some (w.value o).inverse ∧
    (∀ device copy dtype, shown ((TOp.move t device copy dtype).run w) w.transforms.length =
      some ((w.value o).to device copy dtype)) ∧
    (∀ i x, (w.value o).get i = .ok x → shown ((TOp.getItem t (.int i)).run w) w.transforms.length = some x) ∧
    (∀ (os : List ℕ) (objs : List TObj), os.map (w.transforms[·]?) = objs.map some →
      (∀ x, (w.value o).compose (objs.map w.value) = .ok x →
        shown ((TOp.compose t os).run w) w.transforms.length = some x) ∧
      shown ((TOp.stack t os).run w) w.transforms.length = some ((w.value o).stack (objs.map w.value))) := by
  intro w
  have ht : w.transform t = .ok o := by simp [TWorld.transform, w, ho]
  refine ⟨?_, ?_, ?_, ?_, ?_⟩
  · simp only [TOp.run, TOp.step]
    rw [ht, ok_bind, pure_ok]
    exact shown_fresh ..
  · simp only [TOp.run, TOp.step]
    rw [ht, ok_bind, pure_ok]
    exact shown_fresh ..
  · intro device copy dtype
    simp only [TOp.run, TOp.step]
    rw [ht, ok_bind, pure_ok]
    simp only [TWorld.to]
    by_cases h1 : copy = false ∧ (dtype = none ∨ dtype = some o.dtype) ∧ o.device = device
    · rw [if_pos h1, shown_alias]
      simp only [T3.to]
      rw [if_pos (by simpa [TWorld.value] using h1)]
    · rw [if_neg h1]
      have h1' : ¬ (copy = false ∧ (dtype = none ∨ dtype = some (w.value o).dtype) ∧ (w.value o).device = device) := h1
      split_ifs with h2
      · rw [shown_alias]
        simp only [T3.to]
        rw [if_neg h1']
        simp [TWorld.value, h2.1, h2.2]
      · exact shown_fresh ..
  · intro i x hx
    simp only [T3.get, TWorld.value] at hx
    split at hx
    · rename_i m hm
      simp only [Except.ok.injEq] at hx
      subst hx
      simp only [TWorld.read, List.getElem?_map] at hm
      cases hr : o.mat.rows[i]? with
      | none => rw [hr] at hm; simp at hm
      | some r =>
        rw [hr] at hm
        simp only [Option.map_some, Option.some.injEq] at hm
        simp only [TOp.run, TOp.step]
        rw [ht, ok_bind]
        simp only [MTensor.sub, hr]
        rw [ok_bind, pure_ok]
        simp only [shown_alias]
        simp [TWorld.value, ofTensor, TWorld.read, ← hm]
    · simp at hx
  · intro os objs hos
    have hmap : os.mapM w.transform = .ok objs := by
      clear ho ht
      induction os generalizing objs with
      | nil => cases objs with
        | nil => rfl
        | cons a l => simp at hos
      | cons a l ih => cases objs with
        | nil => simp at hos
        | cons b m =>
          simp only [List.map_cons, List.cons.injEq] at hos
          have hb : w.transform a = .ok b := by simp [TWorld.transform, hos.1]
          rw [List.mapM_cons, hb, ok_bind, ih m hos.2, ok_bind, pure_ok]
    constructor
    · intro x hx
      cases os with
      | nil =>
        have : objs = [] := by simpa using hos.symm
        subst this
        simp only [TOp.run, TOp.step]
        rw [ht, ok_bind, pure_ok]
        simp only [shown_alias]
        simp only [T3.compose, List.map_nil, List.foldlM_nil] at hx
        rw [pure_ok, ok_bind, pure_ok, Except.ok.injEq] at hx
        rw [← hx]
        rfl
      | cons a l =>
        simp only [TOp.run, TOp.step]
        rw [ht, ok_bind, hmap, ok_bind, hx]
        exact shown_fresh ..
    · simp only [TOp.run, TOp.step]
      rw [ht, ok_bind, hmap, ok_bind, pure_ok]
      exact shown_fresh ..

/-- the object that `t[a:b]` makes -/
theorem slice_run {w : TWorld} {t : ℕ} {o : TObj} (ho : w.transforms[t]? = some o) (a b : ℕ) :
    (TOp.getItem t (.slice a b)).run w = w.addAlias (ofTensor { o.mat with rows := (o.mat.rows.take b).drop a }) := by
  have ht : w.transform t = .ok o := by simp [TWorld.transform, ho]
  simp only [TOp.run, TOp.step]
  rw [ht, ok_bind]
  simp only [MTensor.sub]
  rw [ok_bind, pure_ok]

theorem getElem?_slice {α : Type*} (l : List α) (a b k : ℕ) :
    ((l.take b).drop a)[k]? = if a + k < b then l[a + k]? else none := by
  rw [List.getElem?_drop, List.getElem?_take]

/-- **C97**, values and views. `t[a:b]` consists of the matrices `a`, …, `b - 1` of `t`, and it shows them: writing matrix `k`
of it changes matrix `a + k` of `t` and no other. -/
theorem C97_slice (before : List TOp) (t : ℕ) (o : TObj) (ho : (runTOps {} before).transforms[t]? = some o) (a b : ℕ) :
    (∃ ms : List M4, shown ((TOp.getItem t (.slice a b)).run (runTOps {} before)) (runTOps {} before).transforms.length =
        some ⟨.plain, ms, o.mat.dtype, o.mat.device, o.mat.dtype, o.mat.device⟩ ∧
      ∀ k, ms[k]? = if a + k < b then ((runTOps {} before).read o.mat)[a + k]? else none) ∧
    ∀ k M, a + k < b → a + k < o.mat.rows.length →
      shown (runTOps {} (before ++ [.getItem t (.slice a b), .getMatrix (runTOps {} before).transforms.length,
        .write (runTOps {} before).tensors.length k M])) t =
      some { (runTOps {} before).value o with mats := ((runTOps {} before).read o.mat).set (a + k) M } := by
  have hw := wf_run before wf_empty
  generalize hwd : runTOps {} before = w at *
  have h1 := slice_run ho a b
  refine ⟨⟨((w.read o.mat).take b).drop a, ?_, getElem?_slice _ a b⟩, fun k M hk hkl => ?_⟩
  · rw [h1, shown_alias]
    simp [TWorld.value, ofTensor, TWorld.read, List.map_drop, List.map_take]
  have htl : t < w.transforms.length := (List.getElem?_eq_some_iff.mp ho).1
  obtain ⟨row, hrow⟩ : ∃ row, o.mat.rows[a + k]? = some row := ⟨_, List.getElem?_eq_getElem hkl⟩
  have hrow' : ((o.mat.rows.take b).drop a)[k]? = some row := by rw [getElem?_slice, if_pos hk, hrow]
  generalize hs : ({ o.mat with rows := (o.mat.rows.take b).drop a } : MTensor) = m at *
  have hm : m.rows[k]? = some row := by rw [← hs]; exact hrow'
  have hms : m.store = o.mat.store := by rw [← hs]
  have h2 : (TOp.getMatrix w.transforms.length).run (w.addAlias (ofTensor m)) =
      { w.addAlias (ofTensor m) with tensors := w.tensors ++ [m] } := by
    simp only [TOp.run, TOp.step]
    have : (w.addAlias (ofTensor m)).transform w.transforms.length = .ok (ofTensor m) := by
      simp [TWorld.transform, TWorld.addAlias]
    rw [this, ok_bind, pure_ok]
    rfl
  have h3 : (TOp.write w.tensors.length k M).run { w.addAlias (ofTensor m) with tensors := w.tensors ++ [m] } =
      { w.addAlias (ofTensor m) with
        tensors := w.tensors ++ [m]
        stores := w.stores.modify o.mat.store fun s => s.set row M } := by
    have : ({ w.addAlias (ofTensor m) with tensors := w.tensors ++ [m] } : TWorld).tensor w.tensors.length = .ok m := by
      simp [TWorld.tensor]
    simp only [TOp.run, TOp.step]
    rw [this, ok_bind]
    simp only [hm, hms]
    rfl
  simp only [runTOps, List.foldl_append, List.foldl_cons, List.foldl_nil] at hwd ⊢
  rw [hwd, h1, h2, h3]
  rw [← read_write (hw.1 o (List.mem_of_getElem? ho)) hrow M]
  simp [shown, TWorld.addAlias, TWorld.value, TWorld.read, List.getElem?_append_left htl, ho]

/-- **C97**, values. `t[[i, j, …]]` consists of the matrices `i`, `j`, … of `t`. -/
theorem C97_list (before : List TOp) (t : ℕ) (o : TObj) (ho : (runTOps {} before).transforms[t]? = some o) (is : List ℕ)
    (ms : List M4) (h : List.Forall₂ (fun i m => ((runTOps {} before).read o.mat)[i]? = some m) is ms) :
    shown ((TOp.getItem t (.list is)).run (runTOps {} before)) (runTOps {} before).transforms.length =
      some ⟨.plain, ms, o.mat.dtype, o.mat.device, o.mat.dtype, o.mat.device⟩ := by
  generalize runTOps {} before = w at *
  have ht : w.transform t = .ok o := by simp [TWorld.transform, ho]
  have hp : pickMats (w.read o.mat) is = .ok ms := by
    unfold pickMats
    induction h with
    | nil => rfl
    | cons h _ ih => simp only [List.mapM_cons, h, ok_bind, ih, pure_ok]
  simp only [TOp.run, TOp.step]
  rw [ht, ok_bind, hp, ok_bind, pure_ok]
  exact shown_fresh ..

/-- A program with three transforms: from a tensor of two matrices, its clone, and its first matrix.  Writing the first
matrix of the tensor changes the first and the third and not the clone. -/
def aliasProgram : List TOp :=
  [.newTensor [1, 1] .f32 cpu, .ofMatrix 0, .clone 0, .getItem 0 (.int 0)]

example : shown (runTOps {} aliasProgram) 0 = some ⟨.plain, [1, 1], .f32, cpu, .f32, cpu⟩ ∧
    shown (runTOps {} (aliasProgram ++ [.write 0 0 2])) 0 = some ⟨.plain, [2, 1], .f32, cpu, .f32, cpu⟩ ∧
    shown (runTOps {} (aliasProgram ++ [.write 0 0 2])) 1 = some ⟨.plain, [1, 1], .f32, cpu, .f32, cpu⟩ ∧
    shown (runTOps {} (aliasProgram ++ [.write 0 0 2])) 2 = some ⟨.plain, [2], .f32, cpu, .f32, cpu⟩ := by
  simp [aliasProgram, runTOps, TOp.run, TOp.step, TWorld.tensor, TWorld.transform, TWorld.addAlias, TWorld.addFresh,
    ofTensor, shown, TWorld.value, TWorld.read, T3.clone, MTensor.sub, List.range_succ, ok_bind, pure_ok, List.modify]

/-- the hypotheses of `C97_independent_partial`: a clone in this program -/
example : makesCopy (.clone 0) ∧ ∃ w', (TOp.clone 0).step (runTOps {} aliasProgram) = .ok w' := by
  refine ⟨trivial, ?_⟩
  simp [aliasProgram, runTOps, TOp.run, TOp.step, TWorld.tensor, TWorld.transform, TWorld.addAlias, TWorld.addFresh,
    ofTensor, T3.clone, MTensor.sub, List.range_succ, ok_bind, pure_ok]

/-- the hypotheses of `C97_to_copy_fails`, `C97_to_copy_partial` and `C97_get_matrix` -/
example : (runTOps {} aliasProgram).transforms[0]? = some ⟨.plain, ⟨0, [0, 1], .f32, cpu⟩, .f32, cpu⟩ := by
  simp [aliasProgram, runTOps, TOp.run, TOp.step, TWorld.tensor, TWorld.transform, TWorld.addAlias, TWorld.addFresh,
    ofTensor, T3.clone, MTensor.sub, List.range_succ, ok_bind, pure_ok]

end
end PK
