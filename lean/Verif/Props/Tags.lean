import Verif.Model.Tags
import Mathlib.Tactic.Ring

/-!
# dtype and device of a chain (C93, C94, C95)

The specification: `ChainTags.At c d v` lists what "the chain is float32/float64 on this device" means for every tensor
the object holds; `requested` is the last dtype (device) asked for in a sequence of calls.
-/

namespace PK

/-- Every tensor of the frame has the floating dtype `d` and is on `v`. -/
def FrameTags.At (f : FrameTags) (d : DType) (v : Device) : Prop :=
  f.axis = flTag d v ∧ (∀ t, f.link = some t → t = flTag d v) ∧ ∀ t, f.joint = some t → t = flTag d v

/-- Every floating point tensor of the chain has dtype `d`, every index tensor is of integers, and all are on `v`. -/
structure ChainTags.At (c : ChainTags) (d : DType) (v : Device) : Prop where
  dtype : c.dtype = d
  device : c.device = v
  identity : c.identity = flTag d v
  low : c.low = flTag d v
  high : c.high = flTag d v
  parentsIndices : ∀ p ∈ c.parentsIndices, p = ixTag v
  jointIndices : c.jointIndices = ixTag v
  jointTypeIndices : c.jointTypeIndices = ixTag v
  axes : c.axes = flTag d v
  linkOffsets : ∀ t, some t ∈ c.linkOffsets → t = flTag d v
  jointOffsets : ∀ t, some t ∈ c.jointOffsets → t = flTag d v
  directParent : c.directParent = ixTag v
  bfsLevels : ∀ l ∈ c.bfsLevels, l = ixTag v
  levels : c.bfsLevels ≠ []
  staticOffsets : c.staticOffsets = flTag d v
  jointIndicesClamped : c.jointIndicesClamped = ixTag v
  dofFrameIndices : c.dofFrameIndices = ixTag v
  dofAncestorMask : c.dofAncestorMask = flTag d v
  dofIsRevolute : c.dofIsRevolute = ⟨.bool, v⟩

/-- Every tensor of the frames below `_root` has dtype `d` and is on `v`. -/
def ChainTags.FramesAt (c : ChainTags) (d : DType) (v : Device) : Prop := ∀ f ∈ c.frames, f.At d v

/-- The same for a serial chain. -/
structure SerialTags.At (s : SerialTags) (d : DType) (v : Device) : Prop extends s.toChainTags.At d v where
  serialDofFrameIndices : s.serialDofFrameIndices = ixTag v
  serialDofAxes : s.serialDofAxes = flTag d v
  serialDofTypes : s.serialDofTypes = ixTag v

/-- the last value asked for, `x` if none was -/
def requested {α : Type} (x : α) : List (Option α) → α
  | [] => x
  | a :: l => requested (a.getD x) l

/-! ## lemmas -/

/-- what `to` leaves as it was: the dtypes of the index tensors -/
structure ChainTags.Ix (c : ChainTags) : Prop where
  directParent : c.directParent.dt = .i64
  bfsLevels : ∀ l ∈ c.bfsLevels, l.dt = .i64
  levels : c.bfsLevels ≠ []
  jointIndicesClamped : c.jointIndicesClamped.dt = .i64
  dofFrameIndices : c.dofFrameIndices.dt = .i64
  dofIsRevolute : c.dofIsRevolute.dt = .bool

theorem FrameTags.to_at (f : FrameTags) (d : DType) (v : Device) : (f.to d v).At d v := by
  refine ⟨rfl, ?_, ?_⟩
  · intro t ht
    simp only [FrameTags.to, Option.map_eq_some_iff] at ht
    obtain ⟨_, _, h⟩ := ht
    exact h.symm
  · intro t ht
    simp only [FrameTags.to, Option.map_eq_some_iff] at ht
    obtain ⟨_, _, h⟩ := ht
    exact h.symm

theorem ChainTags.Ix.to {c : ChainTags} (h : c.Ix) (d : Option DType) (v : Option Device) : (c.to d v).Ix where
  directParent := h.directParent
  bfsLevels := by
    intro l hl
    simp only [ChainTags.to, List.mem_map] at hl
    obtain ⟨a, ha, rfl⟩ := hl
    exact h.bfsLevels a ha
  levels := by simpa [ChainTags.to] using h.levels
  jointIndicesClamped := h.jointIndicesClamped
  dofFrameIndices := h.dofFrameIndices
  dofIsRevolute := h.dofIsRevolute

theorem tag_eq {t : Tag} {d : Dt} (h : t.dt = d) (v : Device) : (⟨t.dt, v⟩ : Tag) = ⟨d, v⟩ := by rw [h]

theorem ChainTags.Ix.to_at {c : ChainTags} (h : c.Ix) (d : Option DType) (v : Option Device) :
    (c.to d v).At (d.getD c.dtype) (v.getD c.device) where
  dtype := rfl
  device := rfl
  identity := rfl
  low := rfl
  high := rfl
  parentsIndices := by
    intro p hp
    simp only [ChainTags.to, List.mem_map] at hp
    obtain ⟨_, _, rfl⟩ := hp
    rfl
  jointIndices := rfl
  jointTypeIndices := rfl
  axes := rfl
  linkOffsets := by
    intro t ht
    simp only [ChainTags.to, List.mem_map, Option.map_eq_some_iff] at ht
    obtain ⟨_, _, _, _, h⟩ := ht
    exact h.symm
  jointOffsets := by
    intro t ht
    simp only [ChainTags.to, List.mem_map, Option.map_eq_some_iff] at ht
    obtain ⟨_, _, _, _, h⟩ := ht
    exact h.symm
  directParent := tag_eq h.directParent _
  bfsLevels := by
    intro l hl
    simp only [ChainTags.to, List.mem_map] at hl
    obtain ⟨a, ha, rfl⟩ := hl
    exact tag_eq (h.bfsLevels a ha) _
  levels := by simpa [ChainTags.to] using h.levels
  staticOffsets := rfl
  jointIndicesClamped := tag_eq h.jointIndicesClamped _
  dofFrameIndices := tag_eq h.dofFrameIndices _
  dofAncestorMask := rfl
  dofIsRevolute := tag_eq h.dofIsRevolute _

theorem ChainTags.to_frames (c : ChainTags) (d : Option DType) (v : Option Device) :
    (c.to d v).FramesAt (d.getD c.dtype) (v.getD c.device) := by
  intro f hf
  simp only [ChainTags.to, List.mem_map] at hf
  obtain ⟨a, _, rfl⟩ := hf
  exact a.to_at _ _

theorem ew_self (t : Tag) : ew t t = .ok t := by
  rcases t with ⟨d, v⟩
  simp only [ew, if_true]
  cases d with
  | bool => rfl
  | i64 => rfl
  | fl d => cases d <;> rfl

theorem ew_dev {a b : Tag} (h : a.dev ≠ b.dev) : ew a b = .error .runtimeError := by simp [ew, h]

theorem index_dev {a i : Tag} (h : i.dev = a.dev) : index a i = .ok a := by simp [index, h]

theorem index_ix (d : Dt) (v : Device) : index ⟨d, v⟩ (ixTag v) = .ok ⟨d, v⟩ := by simp [index, ixTag]

theorem foldl_axes (t : Tag) (fs : List FrameTags) :
    fs.foldl (fun a f => if f.jtype = .fixed then a else copyTo a f.axis) t = t := by
  induction fs with
  | nil => rfl
  | cons f fs ih => simp [copyTo]

/-- the fields of a constructed chain -/
theorem ChainTags.init_ok {fs : List FrameTags} {n : ℕ} {d : DType} {v : Device} {c : ChainTags}
    (h : ChainTags.init fs n d v = .ok c) : c.Ix ∧ c.dtype = d ∧ c.device = v ∧ c.frames = fs := by
  unfold ChainTags.init at h
  rcases e : (fs.mapM fun f => matmul (f.link.getD (flTag d v)) (f.joint.getD (flTag d v))) with _ | offs
  · simp only [e, error_bind] at h; cases h
  simp only [e, ok_bind] at h
  rcases e2 : stackT offs with _ | st
  · simp only [e2, error_bind] at h; cases h
  simp only [e2, ok_bind] at h
  rcases e3 : index (ixTag cpu) (ixTag v) with _ | jt
  · simp only [e3, error_bind] at h; cases h
  simp only [e3, ok_bind, pure_ok] at h
  cases h
  refine ⟨⟨rfl, ?_, by simp, rfl, rfl, rfl⟩, rfl, rfl, rfl⟩
  intro l hl
  rw [List.eq_of_mem_replicate hl]
  rfl

theorem matmul_self (t : Tag) : matmul t t = .ok t := by simp [matmul]

theorem indexPut_ix (d : Dt) (v : Device) : indexPut ⟨d, v⟩ (ixTag v) ⟨d, v⟩ = .ok ⟨d, v⟩ := by simp [indexPut, ixTag]

theorem foldlM_ew (t : Tag) : ∀ (l : List Tag), (∀ a ∈ l, a = t) → l.foldlM ew t = .ok t
  | [], _ => rfl
  | a :: l, h => by
    have h1 : a = t := h a (by simp)
    subst h1
    rw [List.foldlM_cons, ew_self, ok_bind]
    exact foldlM_ew a l fun x hx => h x (by simp [hx])

/-- `stack` of equal tags -/
theorem stackT_same (t : Tag) : ∀ (l : List Tag), l ≠ [] → (∀ a ∈ l, a = t) → stackT l = .ok t
  | [], h, _ => absurd rfl h
  | a :: l, _, ha => by
    have h1 : a = t := ha a (by simp)
    subst h1
    exact foldlM_ew a l fun b hb => ha b (by simp [hb])

theorem mapM_same {α : Type} (g : α → Except Err Tag) (t : Tag) : ∀ (l : List α), (∀ a ∈ l, g a = .ok t) →
    l.mapM g = .ok (l.map fun _ => t)
  | [], _ => rfl
  | a :: l, h => by
    rw [List.mapM_cons, h a (by simp), ok_bind, mapM_same g t l fun x hx => h x (by simp [hx])]
    rfl

theorem offsets_matmul {f : FrameTags} {d : DType} {v : Device}
    (h : (∀ t, f.link = some t → t = flTag d v) ∧ ∀ t, f.joint = some t → t = flTag d v) :
    matmul (f.link.getD (flTag d v)) (f.joint.getD (flTag d v)) = .ok (flTag d v) := by
  obtain ⟨h1, h2⟩ := h
  have e1 : f.link.getD (flTag d v) = flTag d v := by
    cases e : f.link with
    | none => rfl
    | some t => exact h1 t e
  have e2 : f.joint.getD (flTag d v) = flTag d v := by
    cases e : f.joint with
    | none => rfl
    | some t => exact h2 t e
  rw [e1, e2]
  simp [matmul]

/-! ## C93 moving a chain -/

/-- the calls `chain.to(dtype, device)` one after the other -/
def ChainTags.toAll (c : ChainTags) (calls : List (Option DType × Option Device)) : ChainTags :=
  calls.foldl (fun c x => c.to x.1 x.2) c

/-- the same for a serial chain -/
def SerialTags.toAll (s : SerialTags) (calls : List (Option DType × Option Device)) : SerialTags :=
  calls.foldl (fun s x => s.to x.1 x.2) s

theorem toAll_at (calls : List (Option DType × Option Device)) : ∀ (c : ChainTags), c.Ix →
    (calls ≠ [] ∨ (c.At c.dtype c.device ∧ c.FramesAt c.dtype c.device)) →
    (c.toAll calls).At (requested c.dtype (calls.map (·.1))) (requested c.device (calls.map (·.2))) ∧
    (c.toAll calls).FramesAt (requested c.dtype (calls.map (·.1))) (requested c.device (calls.map (·.2))) := by
  induction calls with
  | nil => intro c _ h; exact h.resolve_left (by simp)
  | cons x calls ih =>
    intro c hc _
    exact ih (c.to x.1 x.2) (hc.to x.1 x.2) (.inr ⟨hc.to_at x.1 x.2, c.to_frames x.1 x.2⟩)

/-- C93: after any sequence of `chain.to(…)` calls, at least one, on a constructed chain, every tensor of the chain and
of its frames has the dtype and the device last asked for (those of the construction where none was). -/
theorem C93_moved {fs : List FrameTags} {n : ℕ} {d : DType} {v : Device} {c : ChainTags}
    (h : ChainTags.init fs n d v = .ok c) (calls : List (Option DType × Option Device)) (hc : calls ≠ []) :
    (c.toAll calls).At (requested d (calls.map (·.1))) (requested v (calls.map (·.2))) ∧
    (c.toAll calls).FramesAt (requested d (calls.map (·.1))) (requested v (calls.map (·.2))) := by
  obtain ⟨hix, rfl, rfl, _⟩ := ChainTags.init_ok h
  exact toAll_at calls c hix (.inl hc)

/-- two frames, as a loader makes them: a root and a revolute joint, all float32 on the CPU -/
def exTagFrames : List FrameTags :=
  [⟨.fixed, flTag .f32 cpu, some (flTag .f32 cpu), none⟩, ⟨.revolute, flTag .f32 cpu, none, some (flTag .f32 cpu)⟩]

example : ∃ c, ChainTags.init exTagFrames 1 .f32 cpu = .ok c ∧
    (c.toAll [(some .f64, none), (none, some 1)]).At .f64 1 := by
  obtain ⟨c, hc⟩ : ∃ c, ChainTags.init exTagFrames 1 .f32 cpu = .ok c := ⟨_, rfl⟩
  exact ⟨c, hc, (C93_moved hc [(some .f64, none), (none, some 1)] (by simp)).1⟩

theorem constructed_core {fs : List FrameTags} (hne : fs ≠ []) (n : ℕ) (d : DType)
    (hf : ∀ f ∈ fs, (∀ t, f.link = some t → t = flTag d cpu) ∧ ∀ t, f.joint = some t → t = flTag d cpu) :
    ∃ c, ChainTags.init fs n d cpu = .ok c ∧ c.At d cpu ∧ c.frames = fs := by
  have e1 := mapM_same (fun f : FrameTags => matmul (f.link.getD (flTag d cpu)) (f.joint.getD (flTag d cpu))) (flTag d cpu)
    fs fun f h => offsets_matmul (hf f h)
  have e2 : stackT (fs.map fun _ => flTag d cpu) = .ok (flTag d cpu) := by
    refine stackT_same _ _ (by simpa using hne) ?_
    intro a ha
    obtain ⟨_, _, rfl⟩ := List.mem_map.mp ha
    rfl
  unfold ChainTags.init
  simp only [e1, e2, ok_bind, show index (ixTag cpu) (ixTag cpu) = .ok (ixTag cpu) from rfl, pure_ok]
  refine ⟨_, rfl, ?_, rfl⟩
  constructor
  case dtype => rfl
  case device => rfl
  case identity => rfl
  case low => rfl
  case high => rfl
  case parentsIndices =>
    intro p hp
    obtain ⟨_, _, rfl⟩ := List.mem_map.mp hp
    rfl
  case jointIndices => rfl
  case jointTypeIndices => rfl
  case axes => exact foldl_axes _ _
  case linkOffsets =>
    intro t ht
    obtain ⟨f, hfm, e⟩ := List.mem_map.mp ht
    exact (hf f hfm).1 t e
  case jointOffsets =>
    intro t ht
    obtain ⟨f, hfm, e⟩ := List.mem_map.mp ht
    exact (hf f hfm).2 t e
  case directParent => rfl
  case bfsLevels =>
    intro l hl
    exact List.eq_of_mem_replicate hl
  case levels => simp
  case staticOffsets => rfl
  case jointIndicesClamped => rfl
  case dofFrameIndices => rfl
  case dofAncestorMask => rfl
  case dofIsRevolute => rfl

/-- C93 without a call of `to`: a chain constructed on the CPU from frames of its dtype. -/
theorem C93_constructed {fs : List FrameTags} (hne : fs ≠ []) (n : ℕ) (d : DType) (hf : ∀ f ∈ fs, f.At d cpu) :
    ∃ c, ChainTags.init fs n d cpu = .ok c ∧ c.At d cpu ∧ c.FramesAt d cpu ∧ c.frames = fs := by
  have core := constructed_core hne n d fun f h => (hf f h).2
  obtain ⟨c, h1, h2, h3⟩ := core
  exact ⟨c, h1, h2, by rw [ChainTags.FramesAt, h3]; exact hf, h3⟩

example : ∃ c, ChainTags.init (exTagFrames.map (·.to .f64 cpu)) 1 .f64 cpu = .ok c ∧ c.At .f64 cpu := by
  obtain ⟨c, h1, h2, _⟩ := C93_constructed (fs := exTagFrames.map (·.to .f64 cpu)) (by simp [exTagFrames]) 1 .f64
    (by
      intro f hf
      obtain ⟨a, _, rfl⟩ := List.mem_map.mp hf
      exact a.to_at _ _)
  exact ⟨c, h1, h2⟩

/-- the joint transforms of a chain at one place, for joint values of any tag -/
theorem joint_at {c : ChainTags} {d : DType} {v : Device} (hax : c.axes = flTag d v)
    (hji : c.jointIndicesClamped = ixTag v) (hjt : c.jointTypeIndices = ixTag v) (th : Tag) :
    c.jointTransforms th = if c.hasRevolute = true ∨ c.hasPrismatic = true then
      (if th.dev = v then .ok ⟨(Dt.fl d).promote th.dt, v⟩ else .error .runtimeError) else .ok th := by
  have hp : (Dt.fl d).promote ((Dt.fl d).promote th.dt) = (Dt.fl d).promote th.dt := by
    rcases th with ⟨dt, _⟩
    cases d <;> rcases dt with _ | _ | d' <;> (try cases d') <;> rfl
  have ht : ∀ t : Tag, (trig t).dev = t.dev := by
    rintro ⟨dt, _⟩
    cases dt <;> rfl
  unfold ChainTags.jointTransforms axisAngle44Tag axisAngle33Tag axisDTag
  by_cases hv : th.dev = v
  · have e1 : ew c.axes (trig th) = .ok ⟨(Dt.fl d).promote (trig th).dt, v⟩ := by
      rw [hax]; simp [ew, flTag, ht, hv]
    have e2 : ew c.axes th = .ok ⟨(Dt.fl d).promote th.dt, v⟩ := by
      rw [hax]; simp [ew, flTag, hv]
    have e3 : index c.axes c.jointIndicesClamped = .ok (flTag d v) := by
      rw [hax, hji]; exact index_ix _ _
    have e4 : whereT (eqT c.jointTypeIndices) (flTag d v) th = .ok ⟨(Dt.fl d).promote th.dt, v⟩ := by
      rw [hjt]; simp [whereT, eqT, ixTag, flTag, hv]
    have e5 : whereT (eqT c.jointTypeIndices) (flTag d v) ⟨(Dt.fl d).promote th.dt, v⟩ =
        .ok ⟨(Dt.fl d).promote th.dt, v⟩ := by
      rw [hjt]; simp [whereT, eqT, ixTag, flTag, hp]
    cases hr : c.hasRevolute <;> cases hq : c.hasPrismatic <;>
      simp [e1, e2, e3, e4, e5, hv, ok_bind, pure_ok, copyTo]
  · have e1 : ew c.axes (trig th) = .error .runtimeError := by
      rw [hax]; exact ew_dev (by rw [ht]; exact fun e => hv e.symm)
    have e2 : ew c.axes th = .error .runtimeError := by
      rw [hax]; exact ew_dev (fun e => hv e.symm)
    cases hr : c.hasRevolute <;> cases hq : c.hasPrismatic <;>
      simp [e1, e2, hv, ok_bind, error_bind]

theorem fkLevelsTag_at (d : DType) (v : Device) : ∀ (ls : List Tag), (∀ l ∈ ls, l = ixTag v) →
    fkLevelsTag (ixTag v) (flTag d v) ls (flTag d v) = .ok (flTag d v)
  | [], _ => rfl
  | l :: ls, h => by
    have h1 : l = ixTag v := h l (by simp)
    subst h1
    have e : index (ixTag v) (ixTag v) = .ok (ixTag v) := index_ix _ _
    have e2 : index (flTag d v) (ixTag v) = .ok (flTag d v) := index_ix _ _
    have e3 : indexPut (flTag d v) (ixTag v) (flTag d v) = .ok (flTag d v) := indexPut_ix _ _
    simp only [fkLevelsTag, e, ok_bind, e2, matmul_self, e3]
    exact fkLevelsTag_at d v ls fun x hx => h x (by simp [hx])

/-- l.82-93, after the joint transforms -/
theorem fk_tail {d : DType} {v : Device} (ls : List Tag) (hls : ∀ l ∈ ls, l = ixTag v) (jts th : Tag) :
    (matmul (flTag d v) jts >>= fun localT => index localT (ixTag v) >>= fun r => indexPut th (ixTag v) r >>= fun T =>
      fkLevelsTag (ixTag v) localT ls T) =
    if jts = flTag d v ∧ th = flTag d v then .ok (flTag d v) else .error .runtimeError := by
  by_cases h1 : jts = flTag d v
  · subst h1
    have e2 : index (flTag d v) (ixTag v) = .ok (flTag d v) := index_ix _ _
    rw [matmul_self, ok_bind, e2, ok_bind]
    by_cases h2 : th = flTag d v
    · subst h2
      have e3 : indexPut (flTag d v) (ixTag v) (flTag d v) = .ok (flTag d v) := indexPut_ix _ _
      rw [e3, ok_bind, fkLevelsTag_at d v ls hls, if_pos ⟨rfl, rfl⟩]
    · have e3 : indexPut th (ixTag v) (flTag d v) = .error .runtimeError := by
        simp only [indexPut]
        rw [if_neg]
        rintro ⟨_, e⟩
        exact h2 e.symm
      rw [e3, error_bind, if_neg fun h => h2 h.2]
  · have : matmul (flTag d v) jts = .error .runtimeError := by
      simp only [matmul]
      rw [if_neg fun e => h1 e.symm]
    rw [this, error_bind, if_neg fun h => h1 h.1]

/-- C93: on a chain that is at dtype `d` on device `v`, the kinematics of a tensor of joint values succeeds exactly for
tensors of that dtype on that device, and gives transforms of it; any other tensor raises `RuntimeError`. -/
theorem C93_fk {c : ChainTags} {d : DType} {v : Device} (h : c.At d v) (th : Tag) :
    c.fk th = if th = flTag d v then .ok (flTag d v) else .error .runtimeError := by
  obtain ⟨l, ls, hl⟩ : ∃ l ls, c.bfsLevels = l :: ls := by
    cases e : c.bfsLevels with
    | nil => exact absurd e h.levels
    | cons l ls => exact ⟨l, ls, rfl⟩
  have hlv := h.bfsLevels
  rw [hl] at hlv
  have hl1 : l = ixTag v := hlv l (by simp)
  subst hl1
  have hls : ∀ x ∈ ls, x = ixTag v := fun x hx => hlv x (by simp [hx])
  unfold ChainTags.fk
  rw [joint_at h.axes h.jointIndicesClamped h.jointTypeIndices th, hl, h.staticOffsets, h.directParent]
  have tail := fk_tail (d := d) ls hls
  by_cases hm : c.hasRevolute = true ∨ c.hasPrismatic = true
  · rw [if_pos hm]
    by_cases hv : th.dev = v
    · rw [if_pos hv, ok_bind]
      refine (tail ⟨(Dt.fl d).promote th.dt, v⟩ th).trans ?_
      by_cases ht : th = flTag d v
      · subst ht
        have hself : (Dt.fl d).promote (.fl d) = .fl d := by cases d <;> rfl
        rw [if_pos rfl, if_pos]
        refine ⟨?_, rfl⟩
        simp only [flTag, hself]
      · rw [if_neg ht, if_neg fun e => ht e.2]
    · rw [if_neg hv, error_bind, if_neg]
      rintro rfl
      exact hv rfl
  · rw [if_neg hm, ok_bind]
    refine (tail th th).trans ?_
    simp only [and_self]

/-- C93: lists, arrays and dicts are accepted wherever the chain is, by the kinematics and by `clamp`. -/
theorem C93_data {c : ChainTags} {d : DType} {v : Device} (h : c.At d v) :
    c.forwardKinematics .data = .ok (flTag d v) ∧ c.clamp .data = .ok (flTag d v) := by
  constructor
  · simp only [ChainTags.forwardKinematics, ChainTags.ensureTensor, h.dtype, h.device]
    rw [C93_fk h, if_pos rfl]
  · simp only [ChainTags.clamp, ChainTags.ensureTensor, h.dtype, h.device, h.low, h.high, ew_self, ok_bind]

/-- C93: the gradient of a loss through the kinematics is computed wherever the chain is and has the joint values' dtype
and device. -/
theorem C93_backward {c : ChainTags} {d : DType} {v : Device} (h : c.At d v) :
    c.backward (flTag d v) (flTag d v) = .ok (flTag d v) := by
  have e1 : matmul (flTag d v) (flTag d v) = .ok (flTag d v) := by simp [matmul]
  have e2 : index (flTag d v) (ixTag v) = .ok (flTag d v) := index_ix _ _
  have e3 : whereT ⟨.bool, v⟩ (flTag d v) (flTag d v) = .ok (flTag d v) := by
    simp only [whereT, flTag, and_self, if_true]
    cases d <;> rfl
  simp only [ChainTags.backward, h.axes, h.dofFrameIndices, h.dofAncestorMask, h.dofIsRevolute, e1, e2, e3, ew_self, ok_bind]

theorem SerialTags.At.jacobianOf {s : SerialTags} {d : DType} {v : Device} (h : s.At d v) :
    s.jacobianOf (flTag d v) = .ok (flTag d v) := by
  have e1 : matmul (flTag d v) (flTag d v) = .ok (flTag d v) := by simp [matmul]
  have e2 : index (flTag d v) (ixTag v) = .ok (flTag d v) := index_ix _ _
  have e3 : whereT (eqT (ixTag v)) (flTag d v) (flTag d v) = .ok (flTag d v) := by
    simp only [whereT, eqT, ixTag, flTag, and_self, if_true]
    cases d <;> rfl
  simp only [SerialTags.jacobianOf, h.serialDofFrameIndices, h.serialDofAxes, h.serialDofTypes, e1, e2, e3, ew_self, ok_bind]

/-- C93: the Jacobian of a serial chain, likewise. -/
theorem C93_jacobian {s : SerialTags} {d : DType} {v : Device} (h : s.At d v) :
    s.jacobian .data none = .ok (flTag d v) ∧
    ∀ th, s.jacobian (.tensor th) none = if th = flTag d v then .ok (flTag d v) else .error .runtimeError := by
  constructor
  · simp only [SerialTags.jacobian, ChainTags.ensureTensor, h.dtype, h.device]
    rw [C93_fk h.toAt, if_pos rfl, ok_bind, h.jacobianOf]
    rfl
  · intro th
    simp only [SerialTags.jacobian, ChainTags.ensureTensor]
    rw [C93_fk h.toAt]
    split_ifs
    · rw [ok_bind, h.jacobianOf]; rfl
    · rfl

theorem SerialTags.to_chain (s : SerialTags) (d : Option DType) (v : Option Device) :
    (s.to d v).toChainTags = s.toChainTags.to d v := rfl

theorem SerialTags.init_ok {sub path : List FrameTags} {n : ℕ} {d : DType} {v : Device} {s : SerialTags}
    (h : SerialTags.init sub n path d v = .ok s) :
    s.toChainTags.Ix ∧ s.dtype = d ∧ s.device = v ∧ s.serialDofFrameIndices.dt = .i64 ∧ s.serialDofTypes.dt = .i64 := by
  unfold SerialTags.init at h
  rcases e : ChainTags.init sub n d v with _ | c0
  · simp only [e, error_bind] at h; cases h
  simp only [e, ok_bind] at h
  rcases e1 : ChainTags.init (serialFramesTag path) (path.length - 1) d v with _ | c
  · simp only [e1, error_bind] at h; cases h
  simp only [e1, ok_bind] at h
  obtain ⟨h1, h2, h3, _⟩ := ChainTags.init_ok e1
  rcases e2 : serialAxesTag (serialFramesTag path) d v with _ | ax
  · simp only [e2, error_bind] at h; cases h
  simp only [e2, ok_bind, pure_ok] at h
  cases h
  exact ⟨h1, h2, h3, rfl, rfl⟩

/-- C93: after any sequence of `to` calls, at least one, every tensor of a serial chain is where it was last asked to
be. -/
theorem C93_moved_serial {sub path : List FrameTags} {n : ℕ} {d : DType} {v : Device} {s : SerialTags}
    (h : SerialTags.init sub n path d v = .ok s) (calls : List (Option DType × Option Device)) (hc : calls ≠ []) :
    (s.toAll calls).At (requested d (calls.map (·.1))) (requested v (calls.map (·.2))) := by
  have hs := SerialTags.init_ok h
  obtain ⟨hix, rfl, rfl, h4, h5⟩ := hs
  have gen : ∀ (calls : List (Option DType × Option Device)) (s : SerialTags), s.toChainTags.Ix →
      s.serialDofFrameIndices.dt = .i64 → s.serialDofTypes.dt = .i64 → (calls ≠ [] ∨ s.At s.dtype s.device) →
      (s.toAll calls).At (requested s.dtype (calls.map (·.1))) (requested s.device (calls.map (·.2))) := by
    intro calls
    induction calls with
    | nil => intro s _ _ _ h; exact h.resolve_left (by simp)
    | cons x calls ih =>
      intro s hs h4 h5 _
      refine ih (s.to x.1 x.2) (hs.to x.1 x.2) h4 h5 (.inr ⟨hs.to_at x.1 x.2, ?_, rfl, ?_⟩)
      · exact tag_eq h4 _
      · exact tag_eq h5 _
  exact gen calls s hix h4 h5 (.inl hc)

/-! ## C94 tool locations -/

theorem toolOf_cpu (loc : Locations) (h : ∀ t, loc = .tensor t → t.dev = cpu) : ∃ t, toolOf loc = .ok t := by
  cases loc with
  | transform t => exact ⟨t, rfl⟩
  | data => exact ⟨_, rfl⟩
  | tensor t =>
    have ht : t.dev = cpu := h t rfl
    refine ⟨⟨(Dt.fl .f32).promote (t.dt.promote (.fl .f32)), cpu⟩, ?_⟩
    simp only [toolOf, ew, ht, flTag, if_true, ok_bind]

/-- C94 (partial): `jacobian(th, locations)` succeeds wherever the chain is, and gives a Jacobian of its dtype on its
device, when the locations are a list, an array, a `Transform3d` of any dtype on any device, or a tensor on the CPU.
Missing: tensors on another device (`C94_location_tensor_fails`). -/
theorem C94_locations_partial {s : SerialTags} {d : DType} {v : Device} (h : s.At d v) (loc : Locations)
    (hl : ∀ t, loc = .tensor t → t.dev = cpu) (th : ThArg) (hth : th = .data ∨ th = .tensor (flTag d v)) :
    s.jacobian th (some loc) = .ok (flTag d v) := by
  obtain ⟨tool, ht⟩ := toolOf_cpu loc hl
  have e0 : s.ensureTensor th = flTag d v := by
    rcases hth with rfl | rfl
    · simp only [ChainTags.ensureTensor, h.dtype, h.device]
    · rfl
  have e1 : (if tool ≠ flTag d v then flTag d v else tool) = flTag d v := by
    split_ifs with hne
    · rfl
    · exact not_not.mp hne
  have e2 : index (flTag d v) (ixTag v) = .ok (flTag d v) := index_ix _ _
  have e3 : whereT (eqT (ixTag v)) (flTag d v) (flTag d v) = .ok (flTag d v) := by
    simp only [whereT, eqT, ixTag, flTag, and_self, if_true]
    cases d <;> rfl
  simp only [SerialTags.jacobian, e0]
  rw [C93_fk h.toAt, if_pos rfl, ok_bind, h.jacobianOf, ok_bind]
  simp only [ht, ok_bind, h.dtype, h.device, e1, matmul_self, ew_self, h.serialDofFrameIndices, h.serialDofAxes,
    h.serialDofTypes, e2, e3, pure_ok, copyTo]

/-- C94 is false on every device but the CPU: a tensor of locations of the chain's own dtype on the chain's own device
raises `RuntimeError`, whatever the chain. -/
theorem C94_location_tensor_fails {s : SerialTags} {d : DType} {v : Device} (h : s.At d v) (hv : v ≠ cpu) (th : ThArg) :
    s.jacobian th (some (.tensor (flTag d v))) = .error .runtimeError := by
  simp only [SerialTags.jacobian]
  rw [C93_fk h.toAt]
  split_ifs
  · rw [ok_bind, h.jacobianOf, ok_bind]
    have : toolOf (.tensor (flTag d v)) = .error .runtimeError := by
      simp only [toolOf]
      rw [ew_dev (by exact hv), error_bind]
    simp only [this, error_bind]
  · rfl

/-! ## C95 constructing at a dtype and device -/

/-- the only exception raised is `RuntimeError` -/
def OnlyRt {α : Type} (x : Except Err α) : Prop := ∀ e, x = .error e → e = .runtimeError

theorem OnlyRt.bind {α β : Type} {x : Except Err α} {f : α → Except Err β} (h : OnlyRt x) (hf : ∀ a, OnlyRt (f a)) :
    OnlyRt (x >>= f) := by
  intro e he
  cases x with
  | error e' => rw [error_bind] at he; cases he; exact h _ rfl
  | ok a => exact hf a e he

theorem onlyRt_ok {α : Type} (a : α) : OnlyRt (.ok a : Except Err α) := fun _ h => nomatch h

theorem onlyRt_ite {α : Type} {p : Prop} [Decidable p] (a : α) :
    OnlyRt (if p then .ok a else .error .runtimeError : Except Err α) := by
  intro e h
  split_ifs at h
  cases h
  rfl

theorem onlyRt_mapM {α : Type} (g : α → Except Err Tag) (hg : ∀ a, OnlyRt (g a)) : ∀ l : List α, OnlyRt (l.mapM g)
  | [] => onlyRt_ok _
  | a :: l => by
    rw [List.mapM_cons]
    exact (hg a).bind fun _ => (onlyRt_mapM g hg l).bind fun _ => onlyRt_ok _

theorem onlyRt_foldlM : ∀ (l : List Tag) (t : Tag), OnlyRt (l.foldlM ew t)
  | [], t => onlyRt_ok t
  | a :: l, t => by
    rw [List.foldlM_cons]
    exact OnlyRt.bind (onlyRt_ite _) fun b => onlyRt_foldlM l b

theorem onlyRt_stackT : ∀ l : List Tag, OnlyRt (stackT l)
  | [] => fun _ h => by cases h; rfl
  | a :: l => onlyRt_foldlM l a

theorem OnlyRt.eq {α : Type} {x : Except Err α} (h : OnlyRt x) (hx : ∀ a, x ≠ .ok a) : x = .error .runtimeError := by
  cases x with
  | error e => rw [h e rfl]
  | ok a => exact absurd rfl (hx a)

theorem onlyRt_init (fs : List FrameTags) (n : ℕ) (d : DType) (v : Device) : OnlyRt (ChainTags.init fs n d v) := by
  unfold ChainTags.init
  exact (onlyRt_mapM _ (fun f => onlyRt_ite _) fs).bind fun _ => (onlyRt_stackT _).bind fun _ =>
    OnlyRt.bind (onlyRt_ite _) fun _ => onlyRt_ok _

/-- the static offsets and the index tensors of a constructed chain -/
theorem ChainTags.init_static {fs : List FrameTags} {n : ℕ} {d : DType} {v : Device} {c : ChainTags}
    (h : ChainTags.init fs n d v = .ok c) :
    (∃ offs, (fs.mapM fun f => matmul (f.link.getD (flTag d v)) (f.joint.getD (flTag d v))) = .ok offs ∧
      stackT offs = .ok c.staticOffsets) ∧ v = cpu ∧ c.axes = flTag d v ∧ c.jointIndicesClamped = ixTag cpu ∧
      c.jointTypeIndices = ixTag cpu := by
  unfold ChainTags.init at h
  rcases e : (fs.mapM fun f => matmul (f.link.getD (flTag d v)) (f.joint.getD (flTag d v))) with _ | offs
  · simp only [e, error_bind] at h; cases h
  simp only [e, ok_bind] at h
  rcases e2 : stackT offs with _ | st
  · simp only [e2, error_bind] at h; cases h
  simp only [e2, ok_bind] at h
  rcases e3 : index (ixTag cpu) (ixTag v) with _ | jt
  · simp only [e3, error_bind] at h; cases h
  simp only [e3, ok_bind, pure_ok] at h
  cases h
  refine ⟨⟨offs, e, e2⟩, ?_, foldl_axes _ _, rfl, rfl⟩
  by_contra hv
  have : index (ixTag cpu) (ixTag v) = .error .runtimeError := by
    unfold index
    exact if_neg fun h => hv (h.elim id id)
  rw [this] at e3
  cases e3

/-- C95 is false for every device but the CPU: `Chain(root, device=v)` raises `RuntimeError` for every tree of frames,
whatever their dtypes and devices. -/
theorem C95_device_fails (fs : List FrameTags) (n : ℕ) (d : DType) (v : Device) (hv : v ≠ cpu) :
    ChainTags.init fs n d v = .error .runtimeError :=
  (onlyRt_init fs n d v).eq fun _ h => hv (ChainTags.init_static h).2.1

theorem mapM_ok_mem {α : Type} (g : α → Except Err Tag) : ∀ (l : List α) (bs : List Tag), l.mapM g = .ok bs →
    ∀ a ∈ l, ∃ b ∈ bs, g a = .ok b
  | [], _, _, a, ha => by cases ha
  | x :: l, bs, h, a, ha => by
    rw [List.mapM_cons] at h
    rcases e : g x with _ | b
    · rw [e, error_bind] at h; cases h
    rw [e, ok_bind] at h
    rcases e2 : l.mapM g with _ | bs'
    · rw [e2, error_bind] at h; cases h
    rw [e2, ok_bind] at h
    cases h
    rcases List.mem_cons.mp ha with rfl | ha
    · exact ⟨b, by simp, e⟩
    · obtain ⟨b', hb', e'⟩ := mapM_ok_mem g l bs' e2 a ha
      exact ⟨b', by simp [hb'], e'⟩

/-- C95 is false for a dtype other than that of the frames: a frame with one of its two offsets, of another dtype, makes
`Chain(root, dtype=d)` raise `RuntimeError`.  The frames of every loader are float32 and many of them are of this kind. -/
theorem C95_dtype_fails (fs : List FrameTags) (n : ℕ) (d : DType) (f : FrameTags) (hf : f ∈ fs) (t : Tag)
    (ht : t ≠ flTag d cpu) (ho : (f.link = some t ∧ f.joint = none) ∨ (f.link = none ∧ f.joint = some t)) :
    ChainTags.init fs n d cpu = .error .runtimeError := by
  refine (onlyRt_init fs n d cpu).eq fun c h => ?_
  obtain ⟨⟨offs, h1, _⟩, _⟩ := ChainTags.init_static h
  obtain ⟨b, _, hb⟩ := mapM_ok_mem _ fs offs h1 f hf
  rcases ho with ⟨h2, h3⟩ | ⟨h2, h3⟩
  · simp only [h2, h3, Option.getD_some, Option.getD_none, matmul] at hb
    rw [if_neg ht] at hb
    cases hb
  · simp only [h2, h3, Option.getD_some, Option.getD_none, matmul] at hb
    rw [if_neg fun e => ht e.symm] at hb
    cases hb

example : ChainTags.init exTagFrames 1 .f64 cpu = .error .runtimeError :=
  C95_dtype_fails exTagFrames 1 .f64 _ (List.mem_cons_self ..) (flTag .f32 cpu) (by decide) (.inl ⟨rfl, rfl⟩)

/-- C95 (partial): on the CPU and with the frames' own dtype passed as an argument, `SerialChain(chain, end, root,
dtype=d)` succeeds and everything in it is of that dtype.  Missing: the dtype and device are not taken from the chain
(`C95_serial_fails`), and no device but the CPU is possible (`C95_device_fails`). -/
theorem C95_serial_partial {sub path : List FrameTags} (hs : sub ≠ []) (hp : path ≠ []) (n : ℕ) (d : DType)
    (h1 : ∀ f ∈ sub, f.At d cpu) (h2 : ∀ f ∈ path, f.At d cpu) :
    ∃ s, SerialTags.init sub n path d cpu = .ok s ∧ s.At d cpu := by
  obtain ⟨c0, e0, _⟩ := constructed_core hs n d fun f h => (h1 f h).2
  obtain ⟨f0, fs, rfl⟩ : ∃ f fs, path = f :: fs := by
    cases path with
    | nil => exact absurd rfl hp
    | cons f fs => exact ⟨f, fs, rfl⟩
  have hf : ∀ f ∈ serialFramesTag (f0 :: fs), (∀ t, f.link = some t → t = flTag d cpu) ∧
      ∀ t, f.joint = some t → t = flTag d cpu := by
    intro f hf
    rcases List.mem_cons.mp hf with rfl | hf
    · constructor
      · intro t h; cases h
      · intro t h; cases h
    · exact (h2 f (by simp [hf])).2
  obtain ⟨c, e1, hc, hfr⟩ := constructed_core (fs := serialFramesTag (f0 :: fs)) (by simp [serialFramesTag])
    ((f0 :: fs).length - 1) d hf
  have e2 : serialAxesTag (serialFramesTag (f0 :: fs)) d cpu = .ok (flTag d cpu) := by
    have hmov : ∀ a ∈ ((serialFramesTag (f0 :: fs)).filter fun f => f.jtype ≠ .fixed).map (·.axis), a = flTag d cpu := by
      intro a ha
      obtain ⟨f, hf, rfl⟩ := List.mem_map.mp ha
      obtain ⟨hf1, hf2⟩ := List.mem_filter.mp hf
      rcases List.mem_cons.mp hf1 with rfl | hf1
      · simp [FrameTags.resetRoot] at hf2
      · exact (h2 f (by simp [hf1])).1
    unfold serialAxesTag
    generalize ((serialFramesTag (f0 :: fs)).filter fun f => f.jtype ≠ .fixed).map (·.axis) = l at hmov
    cases l with
    | nil => rfl
    | cons a l =>
      show (stackT (a :: l) >>= fun _ => Except.ok (flTag d cpu)) = _
      rw [stackT_same (flTag d cpu) (a :: l) (by simp) hmov, ok_bind]
  simp only [SerialTags.init, e0, e1, e2, ok_bind, pure_ok]
  refine ⟨_, rfl, ?_⟩
  exact { toAt := hc, serialDofFrameIndices := rfl, serialDofAxes := rfl, serialDofTypes := rfl }

example : ∃ s, SerialTags.init exTagFrames 1 exTagFrames .f32 cpu = .ok s ∧ s.At .f32 cpu := by
  have h : ∀ f ∈ exTagFrames, f.At .f32 cpu := by
    intro f hf
    simp only [exTagFrames, List.mem_cons, List.not_mem_nil, or_false] at hf
    rcases hf with rfl | rfl <;> simp [FrameTags.At]
  exact C95_serial_partial (by simp [exTagFrames]) (by simp [exTagFrames]) 1 .f32 h h

/-- C93 and C94 apply to the serial chain of the example, moved to another device. -/
example : ∃ s, SerialTags.init exTagFrames 1 exTagFrames .f32 cpu = .ok s ∧
    (s.to none (some 1)).jacobian .data none = .ok (flTag .f32 1) ∧
    (s.to none (some 1)).jacobian .data (some .data) = .ok (flTag .f32 1) ∧
    (s.to none (some 1)).jacobian .data (some (.tensor (flTag .f32 1))) = .error .runtimeError := by
  obtain ⟨s, hs⟩ : ∃ s, SerialTags.init exTagFrames 1 exTagFrames .f32 cpu = .ok s := ⟨_, rfl⟩
  have h : (s.to none (some 1)).At .f32 1 := C93_moved_serial hs [(none, some 1)] (by simp)
  exact ⟨s, hs, (C93_jacobian h).1, C94_locations_partial h .data (fun _ h => nomatch h) .data (.inl rfl),
    C94_location_tensor_fails h (by decide) .data⟩

theorem foldlM_ew_ok : ∀ (l : List Tag) (t r : Tag), l.foldlM ew t = .ok r →
    r.dev = t.dev ∧ (t.dt = .fl .f64 → r.dt = .fl .f64) ∧ ∀ a ∈ l, a.dev = t.dev ∧ (a.dt = .fl .f64 → r.dt = .fl .f64)
  | [], t, r, h => by
    cases h
    exact ⟨rfl, id, fun _ h => nomatch h⟩
  | b :: l, t, r, h => by
    rw [List.foldlM_cons] at h
    by_cases hd : t.dev = b.dev
    · simp only [ew, hd, if_true, ok_bind] at h
      obtain ⟨h1, h2, h3⟩ := foldlM_ew_ok l _ r h
      refine ⟨h1.trans hd.symm, fun ht => h2 (by rw [ht]; rfl), fun a ha => ?_⟩
      rcases List.mem_cons.mp ha with rfl | ha
      · refine ⟨hd.symm, fun ha => h2 ?_⟩
        show t.dt.promote a.dt = _
        rw [ha]
        rcases t with ⟨_ | _ | d', _⟩ <;> (try cases d') <;> rfl
      · obtain ⟨h4, h5⟩ := h3 a ha
        exact ⟨h4.trans hd.symm, h5⟩
    · rw [ew_dev hd, error_bind] at h
      cases h

/-- C95 is false for serial chains: of a chain moved to another dtype or device, `SerialChain(chain, end)` cannot be used
at its own dtype: it raises, or the kinematics of a list of joint values raises `RuntimeError` (always when a frame after
the root frame has an offset). -/
theorem C95_serial_fails {sub fs : List FrameTags} (f0 : FrameTags) (n : ℕ) (d : DType) (v : Device)
    (hne : flTag d v ≠ flTag .f32 cpu) (h2 : ∀ f ∈ fs, f.At d v) (f : FrameTags) (hf : f ∈ fs)
    (ho : f.link ≠ none ∨ f.joint ≠ none) :
    (SerialTags.init sub n (f0 :: fs) .f32 cpu >>= fun s => s.forwardKinematics .data) = .error .runtimeError := by
  rcases e0 : ChainTags.init sub n .f32 cpu with e | c0
  · have := onlyRt_init sub n .f32 cpu e e0
    simp only [SerialTags.init, e0, error_bind, this]
  rcases e1 : ChainTags.init (serialFramesTag (f0 :: fs)) ((f0 :: fs).length - 1) .f32 cpu with e | c
  · have := onlyRt_init _ _ _ _ e e1
    simp only [SerialTags.init, e0, e1, error_bind, ok_bind, this]
  obtain ⟨⟨offs, hm, hst⟩, _, hax, hji, hjt⟩ := ChainTags.init_static e1
  obtain ⟨_, hdt, hdv, _⟩ := ChainTags.init_ok e1
  -- the frame with an offset
  obtain ⟨b, hb, hfb⟩ := mapM_ok_mem _ _ offs hm f (by simp [serialFramesTag, hf])
  have hat := (h2 f hf).2
  have hbt : b = flTag d v := by
    simp only [matmul] at hfb
    cases e2 : f.link with
    | some t =>
      have := hat.1 t e2
      subst this
      simp only [e2, Option.getD_some] at hfb
      split_ifs at hfb
      cases hfb
      rfl
    | none =>
      cases e3 : f.joint with
      | none => exact absurd ho (by simp [e2, e3])
      | some t =>
        have := hat.2 t e3
        subst this
        simp only [e2, e3, Option.getD_some, Option.getD_none] at hfb
        rw [if_neg fun e => hne e.symm] at hfb
        cases hfb
  subst hbt
  -- the root frame
  rw [serialFramesTag, List.mapM_cons] at hm
  have hroot : matmul ((f0.resetRoot).link.getD (flTag .f32 cpu)) ((f0.resetRoot).joint.getD (flTag .f32 cpu)) =
      .ok (flTag .f32 cpu) := by simp [FrameTags.resetRoot, matmul]
  rw [hroot, ok_bind] at hm
  rcases e4 : (fs.mapM fun f => matmul (f.link.getD (flTag .f32 cpu)) (f.joint.getD (flTag .f32 cpu))) with _ | offs'
  · rw [e4, error_bind] at hm; cases hm
  rw [e4, ok_bind] at hm
  cases hm
  have hfold := foldlM_ew_ok offs' (flTag .f32 cpu) c.staticOffsets hst
  have hb' : flTag d v ∈ offs' := by
    rcases List.mem_cons.mp hb with hb | hb
    · exact absurd hb hne
    · exact hb
  obtain ⟨h5, _, h6⟩ := hfold
  obtain ⟨h7, h8⟩ := h6 _ hb'
  have hv : v = cpu := h7
  subst hv
  have hd : d = .f64 := by
    cases d with
    | f32 => exact absurd rfl hne
    | f64 => rfl
  subst hd
  have hs64 : c.staticOffsets = flTag .f64 cpu := by
    have h9 := h8 rfl
    rcases e5 : c.staticOffsets with ⟨a, b⟩
    rw [e5] at h5 h9
    simp only [flTag] at h5 h9 ⊢
    rw [h5, h9]
  rcases e6 : serialAxesTag (serialFramesTag (f0 :: fs)) .f32 cpu with e | ax
  · have : OnlyRt (serialAxesTag (serialFramesTag (f0 :: fs)) .f32 cpu) := by
      unfold serialAxesTag
      split
      · exact onlyRt_ok _
      · exact (onlyRt_stackT _).bind fun _ => onlyRt_ok _
    have := this e e6
    simp only [SerialTags.init, e0, e1, e6, error_bind, ok_bind, this]
  simp only [SerialTags.init, e0, e1, e6, ok_bind, pure_ok, ChainTags.forwardKinematics, ChainTags.ensureTensor, hdt, hdv,
    ChainTags.fk]
  have hj := joint_at hax hji hjt (flTag .f32 cpu)
  have hj' : c.jointTransforms (flTag .f32 cpu) = .ok (flTag .f32 cpu) := by
    rw [hj, if_pos (show (flTag .f32 cpu).dev = cpu from rfl)]
    split_ifs <;> rfl
  simp only [hj', ok_bind, hs64, matmul]
  rw [if_neg (by decide), error_bind]

example : (SerialTags.init (exTagFrames.map (·.to .f64 cpu)) 1 (exTagFrames.map (·.to .f64 cpu)) .f32 cpu >>=
    fun s => s.forwardKinematics .data) = .error .runtimeError :=
  C95_serial_fails (fs := [⟨.revolute, flTag .f64 cpu, none, some (flTag .f64 cpu)⟩]) _ 1 .f64 cpu (by decide)
    (by simp [FrameTags.At]) _ (List.mem_cons_self ..) (.inr (by simp))

end PK
