import Verif.Props.Tree
import Verif.Lemmas.Cache

/-!
# C63, C73: results do not depend on what was called before
-/

namespace PK
open Spec

/-! ## What the cached methods return in a state reached by a program -/

theorem names_run {w : World} (hb : Basics w) {i : ℕ} {o : ChainObj} (ho : w.chains[i]? = some o) (a : NameArg) :
    ∃ w' r l, pyGetJointParameterNames i a w = (w', .ok r) ∧ w'.lists[r]? = some l ∧ w'.chains = w.chains ∧
      w'.tensors = w.tensors ∧ (Faithful w → l = o.chain.getJointParameterNames a.value) := by
  unfold pyGetJointParameterNames
  split
  · rename_i r hr
    obtain ⟨o', l, h1, h2⟩ := hb.nam _ (lruFind_mem hr)
    exact ⟨_, r, l, rfl, h2, rfl, rfl, fun hf => hf.nam _ (lruFind_mem hr) o ho l h2⟩
  · rw [ho]
    exact ⟨_, _, o.chain.getJointParameterNames a.value, rfl, by simp, rfl, rfl, fun _ => rfl⟩

theorem idx_run {w : World} (hb : Basics w) {i : ℕ} {o : ChainObj} (ho : w.chains[i]? = some o) (names : List Name) :
    (∃ w' r t, pyGetFrameIndices i names w = (w', .ok r) ∧ w'.tensors[r]? = some t ∧ w'.chains = w.chains ∧
      w'.lists = w.lists ∧ w'.nameCache = w.nameCache ∧
      (Faithful w → o.chain.getFrameIndices names = .ok t.vals) ∧
      ((∃ r, lruFind w.idxCache (i, names) = some r ∧ w.tensors[r]? = some t) ∨ t.dev = o.dev)) ∨
    (∃ e, pyGetFrameIndices i names w = (w, .error e) ∧ o.chain.getFrameIndices names = .error e) := by
  unfold pyGetFrameIndices
  split
  · rename_i r hr
    obtain ⟨o', t, h1, h2⟩ := hb.idx _ (lruFind_mem hr)
    exact .inl ⟨_, r, t, rfl, h2, rfl, rfl, rfl, fun hf => hf.idx _ (lruFind_mem hr) o ho t h2, .inl ⟨r, hr, h2⟩⟩
  · rw [ho]
    simp only
    cases hv : o.chain.getFrameIndices names with
    | error e => exact .inr ⟨e, rfl, rfl⟩
    | ok v =>
      exact .inl ⟨_, _, ⟨v, o.dev⟩, rfl, by simp, rfl, rfl, rfl, fun _ => rfl, .inr rfl⟩

/-- What a program observes when it asks for frame indices and looks at the tensor. -/
def Spec.seenIndices (w : World) (i : ℕ) (names : List Name) : Except Err (List ℕ) :=
  (((pyGetFrameIndices i names).bind pyTensor) w).2.map Tens.vals

/-- The device of that tensor. -/
def Spec.seenDevice (w : World) (i : ℕ) (names : List Name) : Except Err Dev :=
  (((pyGetFrameIndices i names).bind pyTensor) w).2.map Tens.dev

/-- What a program observes when it asks for the joint names and looks at the list. -/
def Spec.seenNames (w : World) (i : ℕ) (a : NameArg) : Except Err (List (Option Name)) :=
  (((pyGetJointParameterNames i a).bind pyList) w).2

theorem faithful_init : Faithful {} := by constructor <;> simp

/-- C73, for programs that never write to a list or tensor they were given: after every history of
constructions, moves, queries and forward kinematics on any number of chains, `get_frame_indices` and
`get_joint_parameter_names` return what a freshly built chain returns (evictions included). -/
theorem C73_queries_partial (ops : List ChainOp) (hr : ∀ op ∈ ops, op.Reads) (i : ℕ) (o : ChainObj)
    (ho : (runChainOps {} ops).chains[i]? = some o) :
    (∃ root, o.chain = Chain.init root) ∧
    (∀ names, seenIndices (runChainOps {} ops) i names = o.chain.getFrameIndices names) ∧
    (∀ a, seenNames (runChainOps {} ops) i a = .ok (o.chain.getJointParameterNames a.value)) := by
  have hb := basics_run ops {} basics_init
  have hf := faithful_run ops {} basics_init faithful_init hr
  refine ⟨hb.ini o (List.mem_of_getElem? ho), fun names => ?_, fun a => ?_⟩
  · unfold seenIndices PyM.bind
    rcases idx_run hb ho names with ⟨w', r, t, h1, h2, -, -, -, h3, -⟩ | ⟨e, h1, h2⟩
    · rw [h1]; simp only [pyTensor, h2]; exact (h3 hf).symm
    · rw [h1]; simp only; exact h2.symm
  · unfold seenNames PyM.bind
    obtain ⟨w', r, l, h1, h2, -, -, h3⟩ := names_run hb ho a
    rw [h1]; simp only [pyList, h2, h3 hf]

theorem ensureWith_eq (root : Frame) {B : ℕ} (d : Dict (Option Name) (Fin B → Option ℝ)) :
    ensureTensorWith (Chain.init root).nJoints ((Chain.init root).getJointParameterNames true) d =
      (Chain.init root).ensureTensorDict d := by
  unfold ensureTensorWith Chain.ensureTensorDict
  have hlen : (Chain.init root).nJoints = ((Chain.init root).getJointParameterNames true).length := by
    rw [init_paramNames, init_nJoints]; simp
  have : ∀ (th : List (Fin B → Option ℝ)) (kv : Option Name × (Fin B → Option ℝ)),
      (if kv.1 ∈ (Chain.init root).getJointParameterNames true then
        (if ((Chain.init root).getJointParameterNames true).idxOf kv.1 < (Chain.init root).nJoints then
          Except.ok (th.set (((Chain.init root).getJointParameterNames true).idxOf kv.1) kv.2)
          else .error Err.indexError) else .error Err.valueError) =
      (if kv.1 ∈ (Chain.init root).getJointParameterNames true then
          Except.ok (th.set (((Chain.init root).getJointParameterNames true).idxOf kv.1) kv.2)
        else .error Err.valueError) := by
    intro th kv
    by_cases h : kv.1 ∈ (Chain.init root).getJointParameterNames true
    · rw [if_pos h, if_pos h, if_pos (by rw [hlen]; exact List.idxOf_lt_length_of_mem h)]
    · rw [if_neg h, if_neg h]
  simp only [this]
  rfl

theorem ensure_run {w : World} (hb : Basics w) {i : ℕ} {o : ChainObj} (ho : w.chains[i]? = some o)
    (hf : Faithful w) {B : ℕ} (d : Dict (Option Name) (Fin B → Option ℝ)) :
    ∃ w', pyEnsureTensorDict i d w = (w', o.chain.ensureTensorDict d) ∧ w'.chains = w.chains ∧
      w'.tensors = w.tensors := by
  obtain ⟨root, hroot⟩ := hb.ini o (List.mem_of_getElem? ho)
  cases d with
  | nil => exact ⟨w, by rw [hroot]; rfl, rfl, rfl⟩
  | cons kv d =>
    obtain ⟨w', r, l, h1, h2, h3, h4, h5⟩ := names_run hb ho .default
    have h5 := h5 hf
    refine ⟨w', ?_, h3, h4⟩
    unfold pyEnsureTensorDict PyM.bind
    simp only [h1, pyList, h2, pySelf, h3, ho, pyLift]
    rw [h5, hroot]
    exact congrArg _ (ensureWith_eq root _)

/-- C73: neither do the results of forward kinematics, with tensor or dictionary input. -/
theorem C73_fk_partial (ops : List ChainOp) (hr : ∀ op ∈ ops, op.Reads) (i : ℕ) (o : ChainObj)
    (ho : (runChainOps {} ops).chains[i]? = some o) {B : ℕ} :
    (∀ th : List (Fin B → ℝ), (pyForwardKinematics i th none (runChainOps {} ops)).2 = o.chain.forwardKinematics th) ∧
    (∀ d : Dict (Option Name) (Fin B → Option ℝ),
      (pyForwardKinematicsDict i d none (runChainOps {} ops)).2 = o.chain.forwardKinematicsDict d) := by
  have hb := basics_run ops {} basics_init
  have hf := faithful_run ops {} basics_init faithful_init hr
  generalize runChainOps {} ops = w at ho hb hf
  have hsel : (∃ w' r t, pySelectIndices i none w = (w', .ok r) ∧ w'.tensors[r]? = some t ∧ w'.chains = w.chains ∧
      o.chain.getAllFrameIndices = .ok t.vals ∧ Basics w' ∧ Faithful w') ∨
      (∃ e, pySelectIndices i none w = (w, .error e) ∧ o.chain.getAllFrameIndices = .error e) := by
    have hs := steps_all (P := fun l => l ≠ Lab.write) i w (fun o _ => by simp)
    have hbf := hs.inv (fun w => Basics w ∧ Faithful w)
      (fun l _ _ hl s hI => ⟨basics_step s hI.1, faithful_step hl s hI.1 hI.2⟩) ⟨hb, hf⟩
    rcases idx_run hb ho (o.chain.getFrameNames false) with ⟨w', r, t, h1, h2, h3, -, -, h4, -⟩ | ⟨e, h1, h2⟩
    · have he : pySelectIndices i none w = (w', .ok r) := by
        simp only [pySelectIndices, pyGetAllFrameIndices, PyM.bind, pySelf, ho, h1]
      have hw : (pyGetAllFrameIndices i w).1 = w' := congrArg Prod.fst he
      rw [hw] at hbf
      exact .inl ⟨w', r, t, he, h2, h3, h4 hf, hbf⟩
    · exact .inr ⟨e, by simp only [pySelectIndices, pyGetAllFrameIndices, PyM.bind, pySelf, ho, h1], h2⟩
  constructor
  · intro th
    rcases hsel with ⟨w', r, t, h1, h2, h3, h4, -, -⟩ | ⟨e, h1, h2⟩
    · simp only [pyForwardKinematics, PyM.bind, h1, pySelf, h3, ho, pyTensor, h2, pyLift]
      unfold Chain.forwardKinematics
      rw [h4]
    · simp only [pyForwardKinematics, PyM.bind, h1]
      unfold Chain.forwardKinematics
      rw [h2]; rfl
  · intro d
    rcases hsel with ⟨w', r, t, h1, h2, h3, h4, hb', hf'⟩ | ⟨e, h1, h2⟩
    · obtain ⟨w'', e1, e2, e3⟩ := ensure_run hb' (h3 ▸ ho) hf' d
      simp only [pyForwardKinematicsDict, PyM.bind, h1, e1]
      unfold Chain.forwardKinematicsDict
      simp only [h4]
      cases hd : o.chain.ensureTensorDict d with
      | error e => rfl
      | ok th =>
        have ho'' : w''.chains[i]? = some o := by rw [e2, h3, ho]
        have ht'' : w''.tensors[r]? = some t := by rw [e3, h2]
        simp only [pySelf, ho'', pyTensor, ht'', pyLift]
        rfl
    · simp only [pyForwardKinematicsDict, PyM.bind, h1]
      unfold Chain.forwardKinematicsDict
      rw [h2]; rfl

example : ∀ op ∈ [ChainOp.new exTree 0, .jointNames 0 .default, .move 0 1, .frameIndices 0 [['a'], ['t']],
    .fk 0 1 [fun _ => 1, fun _ => 2, fun _ => 3] none], op.Reads := by simp [ChainOp.Reads]

/-! ## What goes wrong when a caller changes an object it was given -/

theorem chain_new (root : Frame) (dev : Dev) : runChainOps {} [.new root dev] =
    { chains := [⟨Chain.init root, dev⟩]
      lists := [(Chain.init root).getJointParameterNames true]
      nameCache := [((0, NameArg.default), 0)] } := rfl

theorem afterNames (root : Frame) (dev : Dev) (l : List (Option Name)) :
    runChainOps {} [.new root dev, .jointNames 0 .default, .writeList 0 l] =
    { chains := [⟨Chain.init root, dev⟩], lists := [l], nameCache := [((0, NameArg.default), 0)] } := rfl

/-- C73 fails: a caller that reorders the list returned by `get_joint_parameter_names()` (for example
`names.reverse()` for its own purposes) changes every later answer of that chain: the method returns the
reordered list, and joint dictionaries are silently written into the wrong columns. -/
theorem C73_fails_names (root : Frame) (h : WF root) (dev : Dev) (l : List (Option Name))
    (hl : l.Perm ((movingJoints root).map Joint.name)) {B : ℕ} (d : Dict (Option Name) (Fin B → Option ℝ))
    (hk : d.keys.Perm ((movingJoints root).map Joint.name)) (hne : movingJoints root ≠ [])
    (hv : ∀ kv ∈ d, ∀ b, kv.2 b ≠ none) :
    seenNames (runChainOps {} [.new root dev, .jointNames 0 .default, .writeList 0 l]) 0 .default = .ok l ∧
    (pyEnsureTensorDict 0 d (runChainOps {} [.new root dev, .jointNames 0 .default, .writeList 0 l])).2 =
      .ok (l.map fun k b => ((d.get? k).bind fun v => v b).getD 0) := by
  rw [afterNames]
  refine ⟨rfl, ?_⟩
  have hln : l.Nodup := hl.nodup_iff.2 h.joints_nodup
  have hdn : d.keys.Nodup := hk.nodup_iff.2 h.joints_nodup
  have hmem : ∀ kv ∈ d, kv.1 ∈ l := fun kv hkv =>
    hl.mem_iff.2 (hk.mem_iff.1 (List.mem_map.2 ⟨kv, hkv, rfl⟩))
  have hlen : (Chain.init root).nJoints = l.length := by
    rw [init_nJoints, hl.length_eq]; simp
  have hget : ∀ k ∈ l, ∃ v, d.get? k = some v ∧ ∀ b, v b ≠ none := by
    intro k hkl
    have : k ∈ d.keys := hk.mem_iff.2 (hl.mem_iff.1 hkl)
    cases hg : d.get? k with
    | none => exact absurd this ((Dict.get?_eq_none_iff _ _).1 hg)
    | some v => exact ⟨v, rfl, hv _ (Dict.mem_of_get? hg)⟩
  have hcols : d.foldl (fun th kv => th.set (l.idxOf kv.1) kv.2) (List.replicate l.length fun _ => none) =
      l.map fun k => (d.get? k).getD fun _ => none := by
    apply List.ext_getElem?
    intro i
    by_cases hi : i < l.length
    · have hidx : l.idxOf l[i] = i := hln.idxOf_getElem i hi
      have := foldl_set_get l d hmem hdn (List.replicate l.length fun _ => none) (by simp) l[i]
        (List.getElem_mem hi)
      rw [hidx] at this
      rw [this]
      simp only [List.getElem?_map, List.getElem?_eq_getElem hi, Option.map_some]
      cases d.get? l[i] <;> simp [hi]
    · rw [List.getElem?_eq_none (by rw [foldl_set_length]; simp; omega), List.getElem?_eq_none (by simp; omega)]
  cases d with
  | nil =>
    have := hk.length_eq
    simp [Dict.keys] at this
    exact absurd this.symm (by simpa using hne)
  | cons kv r =>
    show ensureTensorWith (Chain.init root).nJoints l (kv :: r) = _
    unfold ensureTensorWith
    rw [hlen]
    have hstep : (kv :: r).foldlM (fun (th : List (Fin B → Option ℝ)) kv =>
        if kv.1 ∈ l then (if l.idxOf kv.1 < l.length then Except.ok (th.set (l.idxOf kv.1) kv.2)
          else .error Err.indexError) else .error Err.valueError) (List.replicate l.length fun _ => none) =
        .ok (l.map fun k => (Dict.get? (kv :: r) k).getD fun _ => none) := by
      rw [← hcols, ← foldlM_ensure l (kv :: r) hmem]
      congr 1
      funext th kv
      by_cases hm : kv.1 ∈ l
      · rw [if_pos hm, if_pos hm, if_pos (List.idxOf_lt_length_of_mem hm)]
      · rw [if_neg hm, if_neg hm]
    have hno : ¬ ∃ col ∈ l.map (fun k => (Dict.get? (kv :: r) k).getD fun _ => none), ∃ b, col b = none := by
      rintro ⟨col, hcol, b, hb⟩
      obtain ⟨k, hk, rfl⟩ := List.mem_map.1 hcol
      obtain ⟨v, hv1, hv2⟩ := hget k hk
      rw [hv1] at hb
      exact hv2 b hb
    simp only [ok_bind, hstep]
    rw [if_neg hno]
    congr 1
    rw [List.map_map]
    apply List.map_congr_left
    intro k hk
    obtain ⟨v, hv1, hv2⟩ := hget k hk
    funext b
    simp [hv1]

/-- C73 fails: a caller that zeroes the tensor of frame indices it was given makes every later
`forward_kinematics()` of that chain return the root frame only. -/
theorem C73_fails_indices (root : Frame) (h : WF root) (dev : Dev) {B : ℕ} (th : List (Fin B → ℝ))
    (hth : th.length = (movingJoints root).length) :
    ∃ d, (pyForwardKinematics 0 th none (runChainOps {} [.new root dev, .allFrameIndices 0,
        .writeTensor 0 (List.replicate (preorder root).length 0)])).2 = .ok d ∧
      d.keys = [root.name] := by
  have hc : broadcastCols (movingJoints root).length th = .ok th := by simp [broadcastCols, hth]
  have hpos : movingJoints root ≠ [] → 0 < th.length := fun hne => by
    rw [hth]; exact List.length_pos_iff.2 hne
  have hall := getAllFrameIndices_ok h
  unfold Chain.getAllFrameIndices at hall
  have hw : (runChainOps {} [.new root dev, .allFrameIndices 0,
        .writeTensor 0 (List.replicate (preorder root).length 0)]) =
      { chains := [⟨Chain.init root, dev⟩]
        tensors := [⟨List.replicate (preorder root).length 0, dev⟩]
        lists := [(Chain.init root).getJointParameterNames true]
        idxCache := [((0, (Chain.init root).getFrameNames false), 0)]
        nameCache := [((0, NameArg.default), 0)] } := by
    have : ∀ a b, runChainOps {} [.new root dev, a, b] = (b.run (a.run (runChainOps {} [.new root dev]))) := fun _ _ => rfl
    rw [this, chain_new]
    simp [ChainOp.run, pyGetAllFrameIndices, PyM.bind, pySelf, pyGetFrameIndices, lruFind, hall, pyWriteTensor,
      lruMiss, lruMax]
  rw [hw]
  have hroot : posOf root root.name = 0 := h.posOf_eq (visit_zero root)
  have hrep : List.replicate (preorder root).length 0 =
      ((preorder root).map fun _ => root.name).map (posOf root) := by
    rw [List.map_map, ← hroot]
    exact replicate_eq_map _ _
  have hnames : ∀ k ∈ (preorder root).map fun _ => root.name, ∃ f ∈ preorder root, f.name = k := by
    intro k hk
    obtain ⟨f, -, rfl⟩ := List.mem_map.1 hk
    exact ⟨root, (by cases root; simp [preorder] : root ∈ preorder root), rfl⟩
  have hfk := forwardKinematics_some h th th hpos hc ((preorder root).map fun _ => root.name) hnames
  rw [← hrep] at hfk
  refine ⟨_, Eq.trans ?_ hfk, ?_⟩
  · simp [pyForwardKinematics, PyM.bind, pySelectIndices, pyGetAllFrameIndices, pySelf, pyGetFrameIndices, lruFind,
      lruHit, pyTensor, pyLift]
  · rw [keys_foldl_set _ (fun k => k)]
    apply List.perm_singleton.1
    rw [List.perm_ext_iff_of_nodup (pyUnique_nodup _) (by simp)]
    intro k
    rw [mem_pyUnique]
    simp only [List.map_map, List.mem_map, Function.comp, List.mem_singleton]
    exact ⟨fun ⟨_, _, hk⟩ => hk.symm, fun hk => ⟨root, (by cases root; simp [preorder] : root ∈ preorder root), hk.symm⟩⟩

example : ∃ l : List (Option Name), l.Perm ((movingJoints exTree).map Joint.name) ∧
    l ≠ (movingJoints exTree).map Joint.name := by
  refine ⟨((movingJoints exTree).map Joint.name).reverse, List.reverse_perm _, ?_⟩
  simp [exTree, movingJoints, preorder, preorderL, Frame.joint, Moving]

/-! ## C63 -/

/-- The step asks object `i`, a chain `c`, for the indices of exactly these frames, directly or through
`get_all_frame_indices` or `forward_kinematics`. -/
def Spec.Asks (c : Chain) (i : ℕ) (names : List Name) : ChainOp → Prop
  | .frameIndices j ns => j = i ∧ ns = names
  | .allFrameIndices j => j = i ∧ names = c.getFrameNames false
  | .fk j _ _ fi => j = i ∧ fi = none ∧ names = c.getFrameNames false
  | .fkDict j _ _ fi => j = i ∧ fi = none ∧ names = c.getFrameNames false
  | _ => False

/-- the step moves object `i` -/
def Spec.Moves (i : ℕ) : ChainOp → Prop
  | .move j _ => j = i
  | _ => False

theorem not_asked_step {l : Lab} {a b : World} (s : Step l a b) {i : ℕ} {names : List Name}
    (hl : l ≠ .idx i names) (h : ∀ e ∈ a.idxCache, e.1 ≠ (i, names)) : ∀ e ∈ b.idxCache, e.1 ≠ (i, names) := by
  cases s with
  | hitI _ j ns r hf => exact fun e he => h e (lruHit_mem hf he)
  | missI _ j ns o v hf ho hv =>
    intro e he
    rcases lruMiss_mem he with rfl | he
    · rintro heq
      simp only [Prod.mk.injEq] at heq
      exact hl (by rw [heq.1, heq.2])
    · exact h e he
  | _ => exact h

theorem not_asked_run (c : Chain) (i : ℕ) (names : List Name) (ops : List ChainOp) : ∀ (w : World),
    (∀ e ∈ w.idxCache, e.1 ≠ (i, names)) → (∀ op ∈ ops, ¬ Asks c i names op) →
    (∀ o, (runChainOps w ops).chains[i]? = some o → o.chain = c) → ∀ e ∈ (runChainOps w ops).idxCache, e.1 ≠ (i, names) := by
  induction ops with
  | nil => exact fun w h _ _ => h
  | cons op ops ih =>
    intro w h hna hc
    have hcw : ∀ o, w.chains[i]? = some o → o.chain = c := fun o ho => by
      obtain ⟨o', h1, h2⟩ := run_chains (op :: ops) w ho
      rw [← h2]; exact hc o' h1
    refine ih (op.run w) ?_ (fun op' h' => hna op' (by simp [h'])) hc
    refine (op_steps w op).inv (fun w => ∀ e ∈ w.idxCache, e.1 ≠ (i, names)) ?_ h
    intro l a b hl s hI
    refine not_asked_step s ?_ hI
    rintro rfl
    have hno := hna op (by simp)
    cases op with
    | frameIndices j ns => simp only [OpLab, Lab.idx.injEq] at hl; exact hno ⟨hl.1.symm, hl.2.symm⟩
    | allFrameIndices j =>
      obtain ⟨o, ho, hl⟩ := hl
      simp only [Lab.idx.injEq] at hl
      obtain ⟨rfl, rfl⟩ := hl
      exact hno ⟨rfl, by rw [hcw o ho]⟩
    | fk j B th fi =>
      obtain ⟨hfi, o, ho, hl⟩ := hl
      simp only [Lab.idx.injEq] at hl
      obtain ⟨rfl, rfl⟩ := hl
      exact hno ⟨rfl, hfi, by rw [hcw o ho]⟩
    | fkDict j B d fi =>
      rcases hl with hl | ⟨hfi, o, ho, hl⟩
      · simp at hl
      · simp only [Lab.idx.injEq] at hl
        obtain ⟨rfl, rfl⟩ := hl
        exact hno ⟨rfl, hfi, by rw [hcw o ho]⟩
    | _ => simp [OpLab] at hl

/-- entries for the key live on the device of their chain -/
def OnDevice (i : ℕ) (names : List Name) (w : World) : Prop :=
  ∀ e ∈ w.idxCache, e.1 = (i, names) → ∀ o, w.chains[i]? = some o → ∀ t, w.tensors[e.2]? = some t → t.dev = o.dev

theorem onDevice_step {l : Lab} {a b : World} (s : Step l a b) {i : ℕ} {names : List Name}
    (hl : l ≠ .move i) (hb : Basics a) (h : OnDevice i names a) : OnDevice i names b := by
  have hc : ∀ {o : ChainObj}, a.chains[i]? = some o → b.chains[i]? = some o := fun ho => by
    obtain ⟨o', h1, _, h3⟩ := step_chains s ho
    rw [h1, h3 hl]
  have hI : ∀ e ∈ a.idxCache, e.1 = (i, names) →
      (∀ t, a.tensors[e.2]? = some t → ∃ t', b.tensors[e.2]? = some t' ∧ t'.dev = t.dev) →
      ∀ o, b.chains[i]? = some o → ∀ t, b.tensors[e.2]? = some t → t.dev = o.dev := by
    intro e he hk hmono o ho t ht
    obtain ⟨o₀, t₀, h1, h2⟩ := hb.idx e he
    rw [hk] at h1
    obtain ⟨t', h3, h4⟩ := hmono t₀ h2
    rw [hc h1] at ho
    rw [h3] at ht
    cases ho; cases ht
    rw [h4]; exact h e he hk _ h1 _ h2
  cases s with
  | hitI _ j ns r hf => exact fun e he hk => hI e (lruHit_mem hf he) hk fun t ht => ⟨t, ht, rfl⟩
  | missI _ j ns o v hf ho hv =>
    intro e he hk
    rcases lruMiss_mem he with rfl | he
    · intro o' ho' t ht
      simp only [Prod.mk.injEq] at hk
      obtain ⟨rfl, rfl⟩ := hk
      simp only [ho, Option.some.injEq] at ho'
      subst ho'
      simp at ht
      subst ht
      rfl
    · exact hI e he hk fun t ht => ⟨t, getElem?_append_some ht, rfl⟩
  | hitN => exact fun e he hk => hI e he hk fun t ht => ⟨t, ht, rfl⟩
  | missN => exact fun e he hk => hI e he hk fun t ht => ⟨t, ht, rfl⟩
  | new => exact fun e he hk => hI e he hk fun t ht => ⟨t, ht, rfl⟩
  | move => exact fun e he hk => hI e he hk fun t ht => ⟨t, ht, rfl⟩
  | writeT _ r t vals ht =>
    intro e he hk
    refine hI e he hk fun t₀ ht₀ => ?_
    by_cases hre : r = e.2
    · subst hre
      have hlt : e.2 < a.tensors.length := by rw [List.getElem?_eq_some_iff] at ht; exact ht.1
      rw [ht] at ht₀
      cases ht₀
      exact ⟨{ t with vals := vals }, by simp [hlt], rfl⟩
    · exact ⟨t₀, by simpa [List.getElem?_set_ne hre] using ht₀, rfl⟩
  | writeL => exact fun e he hk => hI e he hk fun t ht => ⟨t, ht, rfl⟩

theorem onDevice_run (i : ℕ) (names : List Name) (ops : List ChainOp) : ∀ (w : World), Basics w →
    OnDevice i names w → (∀ op ∈ ops, ¬ Moves i op) → OnDevice i names (runChainOps w ops) := by
  induction ops with
  | nil => exact fun w _ h _ => h
  | cons op ops ih =>
    intro w hb h hm
    have := (op_steps w op).inv (fun w => Basics w ∧ OnDevice i names w) (fun l a b hl s hI =>
      ⟨basics_step s hI.1, onDevice_step s (by
        rintro rfl
        have := hm op (by simp)
        cases op <;> simp_all [OpLab, Moves]) hI.1 hI.2⟩) ⟨hb, h⟩
    exact ih _ this.1 this.2 fun op' h' => hm op' (by simp [h'])

/-- C63, as far as it holds: if the same frames were not asked for before the last move of the chain
(`pre` ends with it, or is empty), the tensor lives on the chain's device — whatever else is called, on
this chain and on others, and even if tensors are written to. -/
theorem C63_device_partial (pre post : List ChainOp) (i : ℕ) (names : List Name) (o : ChainObj)
    (ho : (runChainOps {} (pre ++ post)).chains[i]? = some o)
    (hpre : ∀ op ∈ pre, ¬ Asks o.chain i names op) (hpost : ∀ op ∈ post, ¬ Moves i op)
    (v : List ℕ) (hv : o.chain.getFrameIndices names = .ok v) :
    seenDevice (runChainOps {} (pre ++ post)) i names = .ok o.dev := by
  have hrun : runChainOps {} (pre ++ post) = runChainOps (runChainOps {} pre) post := List.foldl_append
  have hb := basics_run (pre ++ post) {} basics_init
  have h1 : ∀ e ∈ (runChainOps {} pre).idxCache, e.1 ≠ (i, names) := by
    refine not_asked_run o.chain i names pre {} (by simp) hpre ?_
    intro o' ho'
    obtain ⟨o'', h2, h3⟩ := run_chains post _ ho'
    rw [← hrun, ho] at h2
    cases h2
    exact h3.symm
  have h2 : OnDevice i names (runChainOps {} (pre ++ post)) := by
    rw [hrun]
    exact onDevice_run i names post _ (basics_run pre {} basics_init) (fun e he hk => absurd hk (h1 e he)) hpost
  unfold seenDevice PyM.bind
  rcases idx_run hb ho names with ⟨w', r, t, e1, e2, -, -, -, -, e3⟩ | ⟨e, -, e2⟩
  · rw [e1]
    simp only [pyTensor, e2]
    rcases e3 with ⟨r', e4, e5⟩ | e3
    · exact congrArg Except.ok (h2 _ (lruFind_mem e4) rfl o ho t e5)
    · exact congrArg Except.ok e3
  · rw [hv] at e2; cases e2

example : ∀ op ∈ [ChainOp.new exTree 0, .frameIndices 0 [['a']], .fk 0 1 [fun _ => 1, fun _ => 2, fun _ => 3] none,
    .move 0 1], ¬ Asks (Chain.init exTree) 0 [['t'], ['b']] op := by
  have : [['t'], ['b']] ≠ (Chain.init exTree).getFrameNames false := by
    simp [Chain.getFrameNames, Chain.init, exTree, Frame.getFrameNames, Frame.getFrameNamesL, pyUnique]
  simp [Asks, this]

/-- C63 fails: for every chain, frames and pair of devices, a request made before the move leaves the
later tensor on the old device. -/
theorem C63_fails (root : Frame) (names : List Name) (v : List ℕ)
    (hv : (Chain.init root).getFrameIndices names = .ok v) (d d' : Dev) :
    seenDevice (runChainOps {} [.new root d, .frameIndices 0 names, .move 0 d']) 0 names = .ok d ∧
    ((runChainOps {} [.new root d, .frameIndices 0 names, .move 0 d']).chains[0]?).map ChainObj.dev = some d' := by
  have : ∀ a b, runChainOps {} [.new root d, a, b] = (b.run (a.run (runChainOps {} [.new root d]))) := fun _ _ => rfl
  rw [this, chain_new]
  simp [ChainOp.run, PyM.bind, pyGetFrameIndices, lruFind, hv, pyTo, lruMiss, lruMax, seenDevice, pyTensor,
    Except.map]

example : ∃ v, (Chain.init exTree).getFrameIndices [['t'], ['b']] = .ok v :=
  ⟨_, exTree_wf.getFrameIndices _ (by simp [exTree, preorder, preorderL, Frame.name])⟩

end PK
