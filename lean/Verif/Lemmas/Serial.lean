import Verif.Props.Tree
import Verif.Props.Gradient
import Verif.Model.Serial
import Verif.Spec.Serial

/-!
# Structure of serial chains
-/

namespace PK
open Spec Matrix

mutual
theorem preorder_sub {g : Frame} : ∀ f : Frame, g ∈ preorder f → (preorder g).Sublist (preorder f)
  | .mk n l j cs => fun hg => by
    rw [preorder] at hg
    rcases List.mem_cons.1 hg with rfl | hg
    · exact List.Sublist.refl _
    · rw [preorder.eq_def (.mk n l j cs)]
      exact (preorderL_sub cs hg).cons _
theorem preorderL_sub {g : Frame} : ∀ fs : List Frame, g ∈ preorderL fs → (preorder g).Sublist (preorderL fs)
  | [] => fun hg => by simp [preorderL] at hg
  | c :: cs => fun hg => by
    rw [preorderL] at hg ⊢
    rcases List.mem_append.1 hg with hg | hg
    · exact (preorder_sub c hg).trans (List.sublist_append_left _ _)
    · exact (preorderL_sub cs hg).trans (List.sublist_append_right _ _)
end

/-- a subtree of a well-formed tree is well formed -/
theorem Spec.WF.sub {root f : Frame} (h : WF root) (hf : f ∈ preorder root) : WF f := by
  have hs := preorder_sub root hf
  refine ⟨(hs.map Frame.name).nodup h.names_nodup, fun g hg => h.no_newline g (hs.subset hg), ?_⟩
  exact (((hs.map Frame.joint).filter _).map Joint.name).nodup h.joints_nodup

theorem Spec.RigidTree.sub {root f : Frame} (h : RigidTree root) (hf : f ∈ preorder root) : RigidTree f := by
  have hs := (preorder_sub root hf).subset
  exact ⟨fun g hg => h.link g (hs hg), fun g hg => h.joint g (hs hg), fun g hg => h.axis g (hs hg)⟩

/-! ## shape of the copied frames -/

theorem serialNest_preorder : ∀ p : List Frame, preorderL ((serialNest p).take 1) = serialNest p
  | [] => rfl
  | .mk n l j cs :: rest => by
    simp only [serialNest, List.take_succ_cons, List.take_zero]
    rw [preorderL, preorder, serialNest_preorder rest]
    simp [preorderL]

/-- the copies keep names, links and joints -/
theorem serialNest_data : ∀ p : List Frame, (serialNest p).map (fun f => (f.name, f.link, f.joint)) =
    p.map fun f => (f.name, f.link, f.joint)
  | [] => rfl
  | .mk n l j cs :: rest => by
    simp only [serialNest, List.map_cons, serialNest_data rest]
    rfl

theorem serialNest_length (p : List Frame) : (serialNest p).length = p.length := by
  have := congrArg List.length (serialNest_data p)
  simpa using this

theorem serialNest_children : ∀ (p : List Frame) (i : ℕ) (f g : Frame), (serialNest p)[i]? = some f →
    (serialNest p)[i + 1]? = some g → g ∈ f.children
  | [], i, f, g, h, _ => by simp [serialNest] at h
  | .mk n l j cs :: rest, i, f, g, h, h' => by
    simp only [serialNest] at h h'
    cases i with
    | zero =>
      simp only [List.getElem?_cons_zero, Option.some.injEq] at h
      simp only [zero_add, List.getElem?_cons_succ] at h'
      subst h
      show g ∈ (serialNest rest).take 1
      cases hr : serialNest rest with
      | nil => rw [hr] at h'; simp at h'
      | cons a r => rw [hr] at h'; simp at h'; simp [h']
    | succ i =>
      simp only [List.getElem?_cons_succ] at h h'
      exact serialNest_children rest i f g h h'

/-- the root of the serial tree over the path `rf :: rest` -/
noncomputable def serialRoot (rf : Frame) (rest : List Frame) : Frame :=
  .mk rf.name { rf.link with offset := none } Joint.init ((serialNest rest).take 1)

theorem serialFramesOf_cons (rf : Frame) (rest : List Frame) :
    serialFramesOf (rf :: rest) = serialRoot rf rest :: serialNest rest := by
  cases rf; rfl

theorem serialRoot_preorder (rf : Frame) (rest : List Frame) :
    preorder (serialRoot rf rest) = serialRoot rf rest :: serialNest rest := by
  rw [serialRoot, preorder, serialNest_preorder]

theorem joint_init_fixed : ¬ Moving (Joint.init) := by simp [Moving, Joint.init]

theorem serialNest_names (p : List Frame) : (serialNest p).map Frame.name = p.map Frame.name := by
  have := congrArg (List.map Prod.fst) (serialNest_data p)
  simpa [List.map_map, Function.comp_def] using this

theorem serialNest_joints (p : List Frame) : (serialNest p).map Frame.joint = p.map Frame.joint := by
  have := congrArg (List.map fun x => x.2.2) (serialNest_data p)
  simpa [List.map_map, Function.comp_def] using this

theorem serialNest_links (p : List Frame) : (serialNest p).map Frame.link = p.map Frame.link := by
  have := congrArg (List.map fun x => x.2.1) (serialNest_data p)
  simpa [List.map_map, Function.comp_def] using this

theorem serialRoot_moving (rf : Frame) (rest : List Frame) :
    movingJoints (serialRoot rf rest) = (rest.map Frame.joint).filter fun j => decide (Moving j) := by
  rw [movingJoints, serialRoot_preorder, List.map_cons, List.filter_cons_of_neg, serialNest_joints]
  rw [decide_eq_true_eq]; exact joint_init_fixed

/-- a path starts at its root -/
theorem isPath_head {root : Frame} {p : List Frame} (hp : IsPath root p) : ∃ rest, p = root :: rest := by
  induction hp with
  | single => exact ⟨[], rfl⟩
  | snoc p f c _ _ ih =>
    obtain ⟨r, hr⟩ := ih
    exact ⟨r ++ [c], by rw [hr]; rfl⟩

theorem serialRoot_wf {rf : Frame} (h : WF rf) {rest : List Frame} (hp : IsPath rf (rf :: rest)) :
    WF (serialRoot rf rest) := by
  have hnd := isPath_nodup h hp
  have hmem := isPath_mem hp
  have hnames : (preorder (serialRoot rf rest)).map Frame.name = (rf :: rest).map Frame.name := by
    rw [serialRoot_preorder, List.map_cons, serialNest_names]; rfl
  refine ⟨?_, ?_, ?_⟩
  · rw [hnames]
    exact List.Nodup.map_on (fun a ha b hb hab => List.inj_on_of_nodup_map h.names_nodup (hmem a ha) (hmem b hb) hab) hnd
  · intro f hf
    have : f.name ∈ (rf :: rest).map Frame.name := hnames ▸ List.mem_map.2 ⟨f, hf, rfl⟩
    obtain ⟨g, hg, hgn⟩ := List.mem_map.1 this
    rw [← hgn]; exact h.no_newline g (hmem g hg)
  · rw [serialRoot_moving, List.filter_map, List.map_map]
    apply List.Nodup.map_on _ (List.Nodup.filter _ (List.nodup_cons.1 hnd).2)
    intro a ha b hb hab
    obtain ⟨ha1, ha2⟩ := List.mem_filter.1 ha
    obtain ⟨hb1, hb2⟩ := List.mem_filter.1 hb
    simp only [Function.comp_apply, decide_eq_true_eq] at ha2 hb2 hab
    refine h.column_inj (hmem a (by simp [ha1])) (hmem b (by simp [hb1])) ha2 hb2 ?_
    rw [column, column, hab]

theorem serialNest_mem {p : List Frame} {f : Frame} (hf : f ∈ serialNest p) :
    ∃ g ∈ p, f.name = g.name ∧ f.link = g.link ∧ f.joint = g.joint := by
  have : (f.name, f.link, f.joint) ∈ p.map fun f => (f.name, f.link, f.joint) :=
    serialNest_data p ▸ List.mem_map.2 ⟨f, hf, rfl⟩
  obtain ⟨g, hg, hgf⟩ := List.mem_map.1 this
  simp only [Prod.mk.injEq] at hgf
  exact ⟨g, hg, hgf.1.symm, hgf.2.1.symm, hgf.2.2.symm⟩

theorem serialRoot_rigid {rf : Frame} (h : RigidTree rf) {rest : List Frame} (hp : IsPath rf (rf :: rest)) :
    RigidTree (serialRoot rf rest) := by
  have hmem := isPath_mem hp
  refine ⟨?_, ?_, ?_⟩ <;> intro f hf <;> rw [serialRoot_preorder] at hf <;> rcases List.mem_cons.1 hf with rfl | hf
  · intro o ho; simp [serialRoot, Frame.link] at ho
  · obtain ⟨g, hg, -, hl, -⟩ := serialNest_mem hf
    rw [hl]; exact h.link g (hmem g (by simp [hg]))
  · intro o ho; simp [serialRoot, Frame.joint, Joint.init] at ho
  · obtain ⟨g, hg, -, -, hj⟩ := serialNest_mem hf
    rw [hj]; exact h.joint g (hmem g (by simp [hg]))
  · intro hm; exact absurd hm joint_init_fixed
  · obtain ⟨g, hg, -, -, hj⟩ := serialNest_mem hf
    rw [hj]; exact h.axis g (hmem g (by simp [hg]))

/-- every initial part of the serial frames is a path of the serial tree -/
theorem serial_isPath (rf : Frame) (rest : List Frame) (i : ℕ) (hi : i ≤ rest.length) :
    IsPath (serialRoot rf rest) (serialRoot rf rest :: (serialNest rest).take i) := by
  induction i with
  | zero => simpa using IsPath.single
  | succ i ih =>
    have hlt : i < (serialNest rest).length := by rw [serialNest_length]; omega
    have hprev := ih (by omega)
    rw [List.take_succ_eq_append_getElem hlt]
    have hsnoc : ∃ q f, serialRoot rf rest :: (serialNest rest).take i = q ++ [f] ∧ (serialNest rest)[i] ∈ f.children := by
      cases i with
      | zero =>
        refine ⟨[], serialRoot rf rest, by simp, ?_⟩
        show (serialNest rest)[0] ∈ (serialNest rest).take 1
        rw [List.take_one, List.head?_eq_getElem?, List.getElem?_eq_getElem hlt]; simp
      | succ i =>
        have hlt' : i < (serialNest rest).length := by omega
        refine ⟨serialRoot rf rest :: (serialNest rest).take i, (serialNest rest)[i], ?_, ?_⟩
        · rw [List.take_succ_eq_append_getElem hlt']; simp
        · exact serialNest_children rest i _ _ (List.getElem?_eq_getElem hlt') (List.getElem?_eq_getElem hlt)
    obtain ⟨q, f, hq, hc⟩ := hsnoc
    rw [hq] at hprev
    have := IsPath.snoc q f _ hprev hc
    rw [← hq] at this
    simpa using this

/-! ## the constructor -/

theorem mapM_congr_ok {α β : Type} (l : List α) (f : α → Except Err β) (l' : List β)
    (h : List.Forall₂ (fun a b => f a = .ok b) l l') : l.mapM f = .ok l' := by
  induction h with
  | nil => rfl
  | cons hab _ ih => rw [List.mapM_cons, hab, ih]; rfl

theorem forall₂_of_maps {α β γ : Type} {f : α → γ} {g : β → γ} : ∀ {l : List α} {l' : List β},
    l.map f = l'.map g → List.Forall₂ (fun a b => f a = g b) l l'
  | [], [], _ => .nil
  | a :: l, b :: l', h => by
    simp only [List.map_cons, List.cons.injEq] at h
    exact .cons h.1 (forall₂_of_maps h.2)
  | [], _ :: _, h => by simp at h
  | _ :: _, [], h => by simp at h

/-- the serial chain over the path `rf :: rest` -/
noncomputable def serialOf (rf : Frame) (rest : List Frame) : SerialChain :=
  { chain := Chain.init (serialRoot rf rest)
    serialFrames := serialRoot rf rest :: serialNest rest
    dofFrameIndices := ((serialRoot rf rest :: serialNest rest).filter fun f => f.joint.jtype ≠ .fixed).map
      fun f => posOf (serialRoot rf rest) f.name
    dofAxes := ((serialRoot rf rest :: serialNest rest).filter fun f => f.joint.jtype ≠ .fixed).map
      fun f => f.joint.axis
    dofTypes := ((serialRoot rf rest :: serialNest rest).filter fun f => f.joint.jtype ≠ .fixed).map
      fun f => if f.joint.jtype = .revolute then 1 else 2
    eefIdx := posOf (serialRoot rf rest) ((rf :: rest).getLast (by simp)).name }

theorem item_posOf {root : Frame} (h : WF root) {f : Frame} (hf : f ∈ preorder root) :
    (Chain.init root).frameToIdx.item f.name = .ok (posOf root f.name) := by
  obtain ⟨j, e, he, rfl⟩ := exists_pos hf
  rw [Dict.item, h.frameToIdx he, h.posOf_eq he]

theorem serialInit_ok {root rf fe : Frame} (h : WF root) {rootName endName : Name} (hs : StartsAt root rf rootName)
    {rest : List Frame} (hp : IsPath rf (rf :: rest)) (hl : (rf :: rest).getLast? = some fe) (he : fe.name = endName) :
    SerialChain.init root endName rootName = .ok (serialOf rf rest) := by
  have hw := h.sub hs.1
  have hroot : serialStart root rootName = .ok rf := by
    unfold serialStart
    rcases hs.2 with ⟨h1, h2⟩ | ⟨h1, h2⟩
    · rw [if_pos h1, h2]
    · rw [if_neg h1, ← h2, C12_find_frame root rf h hs.1]
  obtain ⟨j, e, pi, g1, g2, g3, g4⟩ := isPath_ancestors rf hp
  rw [hl, Option.some.injEq] at g4
  subst g4
  have hidx : (Chain.init rf).frameToIdx.item endName = .ok j := by
    rw [← he, Dict.item, hw.frameToIdx g1]
  have hanc : ancestorsAt (Chain.init rf) j = .ok pi := by
    have : (Chain.init rf).parentsIndices[j]? = some pi := g2
    rw [ancestorsAt, this]
  have hmem := isPath_mem hp
  have hcop : pi.mapM (serialFrameAt rf (Chain.init rf)) = .ok (rf :: rest) := by
    apply mapM_congr_ok
    have := forall₂_of_maps g3
    have h2 : List.Forall₂ (fun a b => frameAt rf a = some b ∧ b ∈ rf :: rest) pi (rf :: rest) := by
      rw [List.forall₂_iff_get] at this ⊢
      refine ⟨this.1, fun i h1 h2 => ⟨this.2 i h1 h2, List.getElem_mem _⟩⟩
    refine h2.imp ?_
    rintro i f ⟨hif, hfm⟩
    obtain ⟨e', he', rfl⟩ := Option.map_eq_some_iff.1 hif
    rw [serialFrameAt, Dict.item, hw.idxToFrame he']
    show (match rf.findFrame e'.1.name with | some f => Except.ok f | none => .error Err.attributeError) = _
    rw [C12_find_frame rf e'.1 hw (hmem _ hfm)]
  have hws := serialRoot_wf hw hp
  have hlastn : ∃ fl, (serialRoot rf rest :: serialNest rest).getLast? = some fl ∧
      fl.name = ((rf :: rest).getLast (by simp)).name := by
    refine ⟨(serialRoot rf rest :: serialNest rest).getLast (by simp), List.getLast?_eq_some_getLast _, ?_⟩
    have hn : (serialRoot rf rest :: serialNest rest).map Frame.name = (rf :: rest).map Frame.name := by
      rw [List.map_cons, serialNest_names]; rfl
    rw [← List.getLast_map (f := Frame.name) (by simp), ← List.getLast_map (f := Frame.name) (by simp)]
    simp only [hn]
  obtain ⟨fl, hfl, hfln⟩ := hlastn
  have hflm : fl ∈ preorder (serialRoot rf rest) := by
    rw [serialRoot_preorder]; exact List.mem_of_getLast? hfl
  have hdof : ((serialRoot rf rest :: serialNest rest).filter fun f => decide (f.joint.jtype ≠ .fixed)).mapM
      (fun f => (Chain.init (serialRoot rf rest)).frameToIdx.item f.name) =
      .ok (((serialRoot rf rest :: serialNest rest).filter fun f => decide (f.joint.jtype ≠ .fixed)).map
        fun f => posOf (serialRoot rf rest) f.name) := by
    apply mapM_ok
    intro f hf
    apply item_posOf hws
    rw [serialRoot_preorder]; exact (List.mem_filter.1 hf).1
  unfold SerialChain.init
  rw [hroot]
  simp only [ok_bind, hidx, hanc, hcop, serialFramesOf_cons, List.head?_cons, hfl, hdof, item_posOf hws hflm]
  rw [hfln]
  rfl

theorem serialInit_bad_root {root : Frame} {rootName endName : Name} (h0 : rootName ≠ [])
    (hn : ∀ f ∈ preorder root, f.name ≠ rootName) : SerialChain.init root endName rootName = .error .valueError := by
  have : root.findFrame rootName = none := by
    rw [(C12_lookups root rootName none).1, List.find?_eq_none]
    intro f hf; simpa using hn f hf
  unfold SerialChain.init serialStart
  rw [if_neg h0, this]
  rfl

theorem serialInit_bad_end {root rf : Frame} (h : WF root) {rootName endName : Name} (hs : StartsAt root rf rootName)
    (hn : ∀ f ∈ preorder rf, f.name ≠ endName) : SerialChain.init root endName rootName = .error .keyError := by
  have hw := h.sub hs.1
  have hroot : serialStart root rootName = .ok rf := by
    unfold serialStart
    rcases hs.2 with ⟨h1, h2⟩ | ⟨h1, h2⟩
    · rw [if_pos h1, h2]
    · rw [if_neg h1, ← h2, C12_find_frame root rf h hs.1]
  unfold SerialChain.init
  rw [hroot]
  simp only [ok_bind, Dict.item, hw.frameToIdx_none hn]
  rfl

end PK
