import Verif.Spec.Defaults
import Verif.Lemmas.Good
import Verif.Props.Urdf2
import Verif.Props.Sdf2
import Verif.Props.Mjcf2

/-!
# C104: omitted parts of a description mean their defaults
-/

namespace PK
open Spec

section filled
variable {S : Schema} {a b : Xml}

theorem Spec.Filled.tag (h : Filled S a b) : b.tag = a.tag := by cases h <;> rfl
theorem Spec.Filled.text (h : Filled S a b) : b.text = a.text := by cases h <;> rfl

theorem Spec.Filled.attr (h : Filled S a b) (k : Name) :
    b.attr k = a.attr k ∨ a.attr k = none ∧ ∃ d, (k, d) ∈ S.attrs a.tag ∧ b.attr k = some d := by
  cases h with
  | comment => exact .inl rfl
  | elem tag as bs text cs l r extra h1 h2 h3 => exact h1 k

theorem Spec.Filled.attr_eq (h : Filled S a b) (k : Name) (hk : ∀ d, (k, d) ∉ S.attrs a.tag) : b.attr k = a.attr k :=
  (h.attr k).resolve_right fun ⟨_, d, hd, _⟩ => hk d hd

/-- the children that are not comments correspond, up to the added one -/
theorem Spec.Filled.children (h : Filled S a b) (hc : S.child ≠ .comment) : ∃ l r extra, b.children = l ++ (extra ++ r) ∧
    List.Forall₂ (Filled S) a.children (l ++ r) ∧
    (extra = [] ∨ extra = [S.child] ∧ a.tag ∈ S.parents ∧ ∀ c ∈ a.children, c.tag ≠ S.child.tag) := by
  have key : ∀ {cs ds : List Xml}, List.Forall₂ (Filled S) cs ds → List.Forall₂ (Filled S)
      (cs.filter fun | .comment => false | .elem .. => true) (ds.filter fun | .comment => false | .elem .. => true) := by
    intro cs ds h
    induction h with
    | nil => exact .nil
    | cons h _ ih =>
      cases h with
      | comment => exact ih
      | elem tag as bs text cs l r extra h1 h2 h3 => exact .cons (.elem tag as bs text cs l r extra h1 h2 h3) ih
  cases h with
  | comment => exact ⟨[], [], [], rfl, .nil, .inl rfl⟩
  | elem tag as bs text cs l r extra h1 h2 h3 =>
    refine ⟨_, _, extra, ?_, by have := key h2; rwa [List.filter_append] at this, ?_⟩
    · simp only [Xml.children, List.filter_append]
      rcases h3 with rfl | ⟨rfl, -⟩
      · rfl
      · cases hx : S.child with
        | comment => exact absurd hx hc
        | elem => rfl
    · rcases h3 with rfl | ⟨rfl, h3, h4⟩
      · exact .inl rfl
      · exact .inr ⟨rfl, h3, fun c hc => h4 c (List.mem_of_mem_filter hc)⟩

theorem filled_filter {cs ds : List Xml} (h : List.Forall₂ (Filled S) cs ds) (t : Name) :
    List.Forall₂ (Filled S) (cs.filter fun c => c.tag == t) (ds.filter fun c => c.tag == t) := by
  induction h with
  | nil => exact .nil
  | cons h _ ih =>
    rw [List.filter_cons, List.filter_cons, h.tag]
    split
    · exact .cons h ih
    · exact ih

theorem Spec.Filled.aggregate (h : Filled S a b) (hc : S.child ≠ .comment) (t : Name) (ht : t ≠ S.child.tag) :
    List.Forall₂ (Filled S) (a.aggregate t) (b.aggregate t) := by
  obtain ⟨l, r, extra, e, h1, h2⟩ := h.children hc
  have : b.aggregate t = (l ++ r).filter fun c => c.tag == t := by
    rw [Xml.aggregate, e]
    rcases h2 with rfl | ⟨rfl, -⟩
    · rfl
    · simp [List.filter_append, List.filter_cons, Ne.symm ht]
  rw [this]
  exact filled_filter h1 t

theorem scalar_eq_head (n : Xml) (t : Name) : n.scalar t = (n.aggregate t).head? := by
  rw [Xml.scalar, Xml.aggregate, List.head?_filter]

/-- a child element other than the optional one: both documents have it, or neither -/
theorem Spec.Filled.scalar (h : Filled S a b) (hc : S.child ≠ .comment) (t : Name) (ht : t ≠ S.child.tag) :
    (a.scalar t = none ∧ b.scalar t = none) ∨ ∃ x y, a.scalar t = some x ∧ b.scalar t = some y ∧ x.tag = t ∧ Filled S x y := by
  have := h.aggregate hc t ht
  rw [scalar_eq_head, scalar_eq_head]
  cases hx : a.aggregate t with
  | nil => rw [hx] at this; cases hy : b.aggregate t with
    | nil => exact .inl ⟨rfl, rfl⟩
    | cons => rw [hy] at this; cases this
  | cons x l =>
    have hm : x ∈ a.aggregate t := by rw [hx]; simp
    rw [hx] at this
    cases hy : b.aggregate t with
    | nil => rw [hy] at this; cases this
    | cons y l' =>
      rw [hy] at this
      cases this with
      | cons h1 _ => exact .inr ⟨x, y, rfl, rfl, by simpa using List.of_mem_filter hm, h1⟩

/-- the optional child element: written out, or as for the others -/
theorem Spec.Filled.scalar_child (h : Filled S a b) (hc : S.child ≠ .comment) :
    (a.scalar S.child.tag = none ∧ b.scalar S.child.tag = none) ∨
    (a.scalar S.child.tag = none ∧ b.scalar S.child.tag = some S.child) ∨
    ∃ x y, a.scalar S.child.tag = some x ∧ b.scalar S.child.tag = some y ∧ x.tag = S.child.tag ∧ Filled S x y := by
  obtain ⟨l, r, extra, e, h1, h2⟩ := h.children hc
  rcases h2 with rfl | ⟨rfl, -, h2⟩
  · have := filled_filter h1 S.child.tag
    rw [scalar_eq_head, scalar_eq_head, Xml.aggregate, Xml.aggregate, e, List.nil_append]
    cases hx : a.children.filter fun c => c.tag == S.child.tag with
    | nil =>
      rw [hx] at this
      cases hy : (l ++ r).filter fun c => c.tag == S.child.tag with
      | nil => exact .inl ⟨rfl, rfl⟩
      | cons => rw [hy] at this; cases this
    | cons x q =>
      have hm : x ∈ a.children.filter fun c => c.tag == S.child.tag := by rw [hx]; simp
      rw [hx] at this
      cases hy : (l ++ r).filter fun c => c.tag == S.child.tag with
      | nil => rw [hy] at this; cases this
      | cons y l' =>
        rw [hy] at this
        cases this with
        | cons h1 _ => exact .inr (.inr ⟨x, y, rfl, rfl, by simpa using List.of_mem_filter hm, h1⟩)
  · refine .inr (.inl ⟨?_, ?_⟩)
    · rw [Xml.scalar, List.find?_eq_none]
      intro c hc
      simpa using h2 c hc
    · have hl : ∀ c ∈ l, c.tag ≠ S.child.tag := by
        intro c hc
        obtain ⟨x, hx, hxc⟩ := Mjcf.forall₂_mem' h1 (List.mem_append_left _ hc)
        rw [hxc.tag]; exact h2 x hx
      rw [Xml.scalar, e, List.find?_append, List.find?_eq_none.2 fun c hc => by simpa using hl c hc]
      simp

/-- an element that has no optional child: the children correspond -/
theorem Spec.Filled.children_eq (h : Filled S a b) (hc : S.child ≠ .comment) (ht : a.tag ∉ S.parents) :
    List.Forall₂ (Filled S) a.children b.children := by
  obtain ⟨l, r, extra, e, h1, h2⟩ := h.children hc
  rcases h2 with rfl | ⟨-, h2, -⟩
  · rw [e]; exact h1
  · exact absurd h2 ht

theorem mapM_filled {α β : Type} {f : Xml → Except Err α} {g : α → β} {cs ds : List Xml} (h : List.Forall₂ (Filled S) cs ds)
    (hf : ∀ x ∈ cs, ∀ y, Filled S x y → g <$> f x = g <$> f y) : List.map g <$> cs.mapM f = List.map g <$> ds.mapM f := by
  induction h with
  | nil => rfl
  | cons h _ ih =>
    rename_i x y cs ds hh
    have e1 := hf x (by simp) y h
    have e2 := ih fun x hx => hf x (by simp [hx])
    rw [List.mapM_cons, List.mapM_cons]
    cases hx : f x with
    | error e =>
      rw [hx] at e1
      cases hy : f y with
      | error e' => rw [hy] at e1; cases e1; rfl
      | ok v => rw [hy] at e1; cases e1
    | ok u =>
      rw [hx] at e1
      cases hy : f y with
      | error e' => rw [hy] at e1; cases e1
      | ok v =>
        rw [hy] at e1
        have e1 : g u = g v := by injection e1
        rw [ok_bind, ok_bind]
        cases hx' : cs.mapM f with
        | error e =>
          rw [hx'] at e2
          cases hy' : ds.mapM f with
          | error e' => rw [hy'] at e2; cases e2; rfl
          | ok v => rw [hy'] at e2; cases e2
        | ok us =>
          rw [hx'] at e2
          cases hy' : ds.mapM f with
          | error e' => rw [hy'] at e2; cases e2
          | ok vs =>
            rw [hy'] at e2
            have e2 : us.map g = vs.map g := by injection e2
            show Except.ok _ = Except.ok _
            simp [e1, e2]

end filled

theorem filled_refl (S : Schema) : (x : Xml) → Filled S x x
  | .comment => .comment
  | .elem tag as text cs => by
    have h : List.Forall₂ (Filled S) cs ([] ++ cs) := List.forall₂_same.2 fun c _ => filled_refl S c
    exact .elem tag as as text cs [] cs [] (fun _ => .inl rfl) h (.inl rfl)

namespace Urdf
variable {num : NumParser} {a b : Xml}

theorem udc : urdfDefaults.child ≠ .comment := by simp [urdfDefaults]
theorem udt : urdfDefaults.child.tag = n!"origin" := rfl

/-- the defaults are read as the numbers they stand for -/
structure ReadsDefaults (num : NumParser) : Prop where
  zero : num n!"0" = some (.fin 0)
  one : num n!"1" = some (.fin 1)

theorem readV3_zero (h : ReadsDefaults num) : readV3 num (some n!"0 0 0") = .ok 0 := by
  have e : pySplit n!"0 0 0" = [n!"0", n!"0", n!"0"] := by decide
  have z : readReal num n!"0" = .ok 0 := by simp [readReal, h.zero]
  simp only [readV3, readVec, e, List.length_cons, List.length_nil, List.mapM_cons, List.mapM_nil, z, ok_bind, pure_ok]
  simp only [if_true, ok_bind]
  congr 1
  funext i; fin_cases i <;> rfl

theorem readFloat_zero (h : ReadsDefaults num) : readFloat num (some n!"0") = .ok (.fin 0) := by simp [readFloat, h.zero]
theorem readFloat_one (h : ReadsDefaults num) : readFloat num (some n!"1") = .ok (.fin 1) := by simp [readFloat, h.one]

/-- reading an optional attribute with a default -/
theorem opt_attr {α : Type} {f : Name → Except Err α} {d : α} {k v : Name} (h : Filled urdfDefaults a b)
    (hv : ∀ v', (k, v') ∈ urdfDefaults.attrs a.tag → v' = v) (hd : f v = .ok d) :
    (fun o : Option α => o.getD d) <$> optional (a.attr k) f = (fun o : Option α => o.getD d) <$> optional (b.attr k) f := by
  rcases h.attr k with h | ⟨h1, v', h2, h3⟩
  · rw [h]
  · rw [h1, h3, hv v' h2]
    simp only [optional, hd, ok_bind, pure_ok]
    rfl

theorem readPose_filled (hn : ReadsDefaults num) (h : Filled urdfDefaults a b) (ht : a.tag = n!"origin") :
    readPose num a = readPose num b := by
  have e : ∀ n : Xml, readPose num n = (do
      let x ← (fun o : Option V3 => o.getD 0) <$> optional (n.attr n!"xyz") fun s => readV3 num (some s)
      let y ← (fun o : Option V3 => o.getD 0) <$> optional (n.attr n!"rpy") fun s => readV3 num (some s)
      pure ⟨x, y⟩) := by
    intro n; simp only [readPose, bind_map_left]
  rw [e, e, opt_attr h (v := n!"0 0 0") (by rw [ht]; simp [urdfDefaults]) (readV3_zero hn),
    opt_attr h (v := n!"0 0 0") (by rw [ht]; simp [urdfDefaults]) (readV3_zero hn)]

/-- an origin with the default written out -/
def nrmO (o : Option Pose) : Option Pose := some (o.getD ⟨0, 0⟩)

theorem optOrigin_filled (hn : ReadsDefaults num) (h : Filled urdfDefaults a b) :
    nrmO <$> optional (a.scalar n!"origin") (readPose num) = nrmO <$> optional (b.scalar n!"origin") (readPose num) := by
  have := h.scalar_child udc
  rw [udt] at this
  rcases this with ⟨h1, h2⟩ | ⟨h1, h2⟩ | ⟨x, y, h1, h2, h3, h4⟩
  · rw [h1, h2]
  · rw [h1, h2]
    have e : readPose num urdfDefaults.child = .ok ⟨0, 0⟩ := by
      simp [readPose, urdfDefaults, Xml.attr, Xml.attrs, List.lookup, optional, readV3_zero hn, ok_bind, pure_ok]
    simp only [optional, e, ok_bind, pure_ok]
    rfl
  · rw [h1, h2]
    simp only [optional, readPose_filled hn h4 h3]

/-- a child element that is read the same -/
theorem opt_child {α β : Type} {f : Xml → Except Err α} {g : α → β} {t : Name} (h : Filled urdfDefaults a b) (ht : t ≠ n!"origin")
    (hf : ∀ x y, x.tag = t → Filled urdfDefaults x y → g <$> f x = g <$> f y) :
    Option.map g <$> optional (a.scalar t) f = Option.map g <$> optional (b.scalar t) f := by
  rcases h.scalar udc t ht with ⟨h1, h2⟩ | ⟨x, y, h1, h2, h3, h4⟩
  · rw [h1, h2]
  · rw [h1, h2]
    have := hf x y h3 h4
    have e : ∀ z : Xml, Option.map g <$> optional (some z) f = some <$> (g <$> f z) := by
      intro z; simp only [optional]; cases f z <;> rfl
    rw [e, e, this]

theorem req_child {β : Type} {f : Xml → Except Err β} {t : Name} (h : Filled urdfDefaults a b) (ht : t ≠ n!"origin")
    (hf : ∀ x y, x.tag = t → Filled urdfDefaults x y → f x = f y) :
    required (a.scalar t) >>= f = required (b.scalar t) >>= f := by
  rcases h.scalar udc t ht with ⟨h1, h2⟩ | ⟨x, y, h1, h2, h3, h4⟩
  · rw [h1, h2]
  · rw [h1, h2]
    simpa only [required, ok_bind] using hf x y h3 h4

theorem attr_same (h : Filled urdfDefaults a b) (k : Name) (hk : k = n!"name" ∨ k = n!"type" ∨ k = n!"link" ∨ k = n!"value") :
    b.attr k = a.attr k := by
  refine h.attr_eq k fun d hd => ?_
  simp only [urdfDefaults] at hd
  rcases hk with rfl | rfl | rfl | rfl <;> (repeat' split at hd) <;> simp at hd

theorem attrs_none {t : Name} (ht : t ∉ [n!"origin", n!"limit", n!"dynamics", n!"safety_controller", n!"mimic"]) :
    urdfDefaults.attrs t = [] := by
  simp only [List.mem_cons, List.not_mem_nil, or_false, not_or] at ht
  simp [urdfDefaults, ht]

/-- an element without optional attributes -/
theorem attr_plain (h : Filled urdfDefaults a b)
    (ht : a.tag ∉ [n!"origin", n!"limit", n!"dynamics", n!"safety_controller", n!"mimic"]) (k : Name) : b.attr k = a.attr k :=
  h.attr_eq k fun d hd => by rw [attrs_none ht] at hd; simp at hd

theorem readGeom_filled (h : Filled urdfDefaults a b) (ht : a.tag = n!"geometry") : readGeom num a = readGeom num b := by
  have hc := h.children_eq udc (by rw [ht]; simp [urdfDefaults])
  unfold readGeom
  match ha : a.children, hb : b.children with
  | [], [] => rfl
  | [], _ :: _ => rw [ha, hb] at hc; cases hc
  | _ :: _, [] => rw [ha, hb] at hc; cases hc
  | [_], _ :: _ :: _ => rw [ha, hb] at hc; cases hc with | cons _ h => cases h
  | _ :: _ :: _, [_] => rw [ha, hb] at hc; cases hc with | cons _ h => cases h
  | _ :: _ :: _, _ :: _ :: _ => rfl
  | [x], [y] =>
    rw [ha, hb] at hc
    cases hc with
    | cons hxy _ =>
      simp only
      rw [hxy.tag]
      have e : ∀ t, x.tag = t → t ∉ [n!"origin", n!"limit", n!"dynamics", n!"safety_controller", n!"mimic"] →
          ∀ k, y.attr k = x.attr k := fun t h1 h2 k => attr_plain hxy (by rw [h1]; exact h2) k
      split
      · next h1 => simp only [e _ h1 (by simp)]
      split
      · next h1 => simp only [floatAttr, e _ h1 (by simp)]
      split
      · next h1 => simp only [floatAttr, e _ h1 (by simp)]
      split
      · next h1 => simp only [e _ h1 (by simp)]
      split
      · next h1 => simp only [floatAttr, e _ h1 (by simp)]
      · rfl

theorem readMaterial_filled (h : Filled urdfDefaults a b) : readMaterial num a = readMaterial num b := by
  have e1 : ∀ {A : Type} (F : Option Name → Except Err A), optional (a.scalar n!"color") (fun c => F (c.attr n!"rgba")) =
      optional (b.scalar n!"color") fun c => F (c.attr n!"rgba") := by
    intro A F
    have := opt_child (g := id) (f := fun c => F (c.attr n!"rgba")) h (t := n!"color") (by simp) fun x y h1 h2 => by
        rw [attr_plain h2 (by rw [h1]; simp)]
    simpa using this
  have e2 : optional (a.scalar n!"texture") (fun c => required (c.attr n!"filename")) =
      optional (b.scalar n!"texture") fun c => required (c.attr n!"filename") := by
    have := opt_child (g := id) (f := fun c => required (c.attr n!"filename")) h (t := n!"texture") (by simp) fun x y h1 h2 => by
        rw [attr_plain h2 (by rw [h1]; simp)]
    simpa using this
  unfold readMaterial
  rw [attr_same h _ (.inl rfl), e2]
  have := e1 fun o => do
    let s ← required o
    let l ← readVec num 4 (some s)
    pure fun i : Fin 4 => l.getD i 0
  rw [this]

/-- with the defaults written out -/
def Vis.nrm (v : Vis) : Vis := { v with origin := nrmO v.origin }
/-- with the defaults written out -/
def Coll.nrm (v : Coll) : Coll := { v with origin := nrmO v.origin }
/-- with the defaults written out -/
def Inertial.nrm (v : Inertial) : Inertial := { v with origin := nrmO v.origin }
/-- with the defaults written out -/
def Lnk.nrm (l : Lnk) : Lnk := ⟨l.name, nrmO l.origin, l.visuals.map Vis.nrm, l.collisions.map Coll.nrm, l.inertial.map Inertial.nrm⟩
/-- with the defaults written out -/
def Mimic.nrm (m : Mimic) : Mimic := ⟨m.joint, some (m.multiplier.getD (.fin 1)), some (m.offset.getD (.fin 0))⟩
/-- with the defaults written out -/
def Dynamics.nrm (m : Dynamics) : Dynamics := ⟨some (m.damping.getD (.fin 0)), some (m.friction.getD (.fin 0))⟩
/-- with the defaults written out -/
def Jnt.nrm (j : Jnt) : Jnt := { j with origin := nrmO j.origin, mimic := j.mimic.map Mimic.nrm, dynamics := j.dynamics.map Dynamics.nrm }
/-- with the defaults written out -/
def Robot.nrm (r : Robot) : Robot := ⟨r.links.map Lnk.nrm, r.joints.map Jnt.nrm, r.materials⟩

theorem readVisual_filled (hn : ReadsDefaults num) (h : Filled urdfDefaults a b) :
    Vis.nrm <$> readVisual num a = Vis.nrm <$> readVisual num b := by
  have e : ∀ n : Xml, Vis.nrm <$> readVisual num n = (do
      let o ← nrmO <$> optional (n.scalar n!"origin") (readPose num)
      let g ← required (n.scalar n!"geometry") >>= readGeom num
      let m ← Option.map id <$> optional (n.scalar n!"material") (readMaterial num)
      pure ⟨o, g, m⟩) := by
    intro n
    simp only [readVisual, map_bind, bind_map_left, bind_assoc, map_pure, Option.map_id, id_eq]
    rfl
  rw [e, e, optOrigin_filled hn h, req_child h (by simp) fun x y h1 h2 => readGeom_filled h2 h1,
    opt_child h (by simp) fun x y h1 h2 => by rw [readMaterial_filled h2]]

theorem readCollision_filled (hn : ReadsDefaults num) (h : Filled urdfDefaults a b) :
    Coll.nrm <$> readCollision num a = Coll.nrm <$> readCollision num b := by
  have e : ∀ n : Xml, Coll.nrm <$> readCollision num n = (do
      let o ← nrmO <$> optional (n.scalar n!"origin") (readPose num)
      let g ← required (n.scalar n!"geometry") >>= readGeom num
      pure ⟨o, g⟩) := by
    intro n
    simp only [readCollision, map_bind, bind_map_left, bind_assoc, map_pure]
    rfl
  rw [e, e, optOrigin_filled hn h, req_child h (by simp) fun x y h1 h2 => readGeom_filled h2 h1]

theorem readInertial_filled (hn : ReadsDefaults num) (h : Filled urdfDefaults a b) :
    Inertial.nrm <$> readInertial num a = Inertial.nrm <$> readInertial num b := by
  have e : ∀ n : Xml, Inertial.nrm <$> readInertial num n = (do
      let o ← nrmO <$> optional (n.scalar n!"origin") (readPose num)
      let g ← required (n.scalar n!"mass") >>= fun m => readFloat num (m.attr n!"value")
      let m ← Option.map id <$> optional (n.scalar n!"inertia") (readInertia num)
      pure ⟨o, g, m⟩) := by
    intro n
    simp only [readInertial, map_bind, bind_map_left, bind_assoc, map_pure, Option.map_id, id_eq]
    rfl
  rw [e, e, optOrigin_filled hn h, req_child h (by simp) fun x y h1 h2 => by rw [attr_same h2 _ (by simp)],
    opt_child h (by simp) fun x y h1 h2 => by
      simp only [readInertia, floatAttr, attr_plain h2 (show x.tag ∉ _ by rw [h1]; simp)]]

theorem readLink_filled (hn : ReadsDefaults num) (h : Filled urdfDefaults a b) :
    Lnk.nrm <$> readLink num a = Lnk.nrm <$> readLink num b := by
  have e : ∀ n : Xml, Lnk.nrm <$> readLink num n = (do
      let name ← required (n.attr n!"name")
      let o ← nrmO <$> optional (n.scalar n!"origin") (readPose num)
      let v ← List.map Vis.nrm <$> (n.aggregate n!"visual").mapM (readVisual num)
      let c ← List.map Coll.nrm <$> (n.aggregate n!"collision").mapM (readCollision num)
      let m ← Option.map Inertial.nrm <$> optional (n.scalar n!"inertial") (readInertial num)
      pure ⟨name, o, v, c, m⟩) := by
    intro n
    simp only [readLink, map_bind, bind_map_left, map_pure]
    rfl
  rw [e, e, attr_same h _ (.inl rfl), optOrigin_filled hn h,
    mapM_filled (h.aggregate udc n!"visual" (by simp [urdfDefaults, Xml.tag])) fun x _ y h2 => readVisual_filled hn h2,
    mapM_filled (h.aggregate udc n!"collision" (by simp [urdfDefaults, Xml.tag])) fun x _ y h2 => readCollision_filled hn h2,
    opt_child h (by simp) fun x y h1 h2 => readInertial_filled hn h2]

theorem readLimit_filled (hn : ReadsDefaults num) (h : Filled urdfDefaults a b) (ht : a.tag = n!"limit") :
    readLimit num a = readLimit num b := by
  have e : ∀ n : Xml, readLimit num n = (do
      let effort ← floatAttr num n n!"effort"
      let l ← (fun o : Option Fl => o.getD (.fin 0)) <$> optional (n.attr n!"lower") fun s => readFloat num (some s)
      let u ← (fun o : Option Fl => o.getD (.fin 0)) <$> optional (n.attr n!"upper") fun s => readFloat num (some s)
      let velocity ← floatAttr num n n!"velocity"
      pure ⟨effort, velocity, l, u⟩) := by
    intro n; simp only [readLimit, bind_map_left]
  rw [e, e, opt_attr h (v := n!"0") (by rw [ht]; simp [urdfDefaults]) (readFloat_zero hn),
    opt_attr h (v := n!"0") (by rw [ht]; simp [urdfDefaults]) (readFloat_zero hn), floatAttr, floatAttr, floatAttr, floatAttr,
    h.attr_eq n!"effort" (by rw [ht]; simp [urdfDefaults]), h.attr_eq n!"velocity" (by rw [ht]; simp [urdfDefaults])]

theorem readSafety_filled (hn : ReadsDefaults num) (h : Filled urdfDefaults a b) (ht : a.tag = n!"safety_controller") :
    readSafety num a = readSafety num b := by
  have e : ∀ n : Xml, readSafety num n = (do
      let v ← floatAttr num n n!"k_velocity"
      let p ← (fun o : Option Fl => o.getD (.fin 0)) <$> optional (n.attr n!"k_position") fun s => readFloat num (some s)
      let l ← (fun o : Option Fl => o.getD (.fin 0)) <$> optional (n.attr n!"soft_lower_limit") fun s => readFloat num (some s)
      let u ← (fun o : Option Fl => o.getD (.fin 0)) <$> optional (n.attr n!"soft_upper_limit") fun s => readFloat num (some s)
      pure ⟨v, p, l, u⟩) := by
    intro n; simp only [readSafety, optFloat, bind_map_left]
  rw [e, e, opt_attr h (v := n!"0") (by rw [ht]; simp [urdfDefaults]) (readFloat_zero hn),
    opt_attr h (v := n!"0") (by rw [ht]; simp [urdfDefaults]) (readFloat_zero hn),
    opt_attr h (v := n!"0") (by rw [ht]; simp [urdfDefaults]) (readFloat_zero hn), floatAttr, floatAttr,
    h.attr_eq n!"k_velocity" (by rw [ht]; simp [urdfDefaults])]

theorem readMimic_filled (hn : ReadsDefaults num) (h : Filled urdfDefaults a b) (ht : a.tag = n!"mimic") :
    Mimic.nrm <$> readMimic num a = Mimic.nrm <$> readMimic num b := by
  have e : ∀ n : Xml, Mimic.nrm <$> readMimic num n = (do
      let j ← required (n.attr n!"joint")
      let l ← (fun o : Option Fl => o.getD (.fin 1)) <$> optional (n.attr n!"multiplier") fun s => readFloat num (some s)
      let u ← (fun o : Option Fl => o.getD (.fin 0)) <$> optional (n.attr n!"offset") fun s => readFloat num (some s)
      pure ⟨j, some l, some u⟩) := by
    intro n; simp only [readMimic, map_bind, bind_map_left, map_pure]; rfl
  rw [e, e, opt_attr h (v := n!"1") (by rw [ht]; simp [urdfDefaults]) (readFloat_one hn),
    opt_attr h (v := n!"0") (by rw [ht]; simp [urdfDefaults]) (readFloat_zero hn),
    h.attr_eq n!"joint" (by rw [ht]; simp [urdfDefaults])]

theorem readDynamics_filled (hn : ReadsDefaults num) (h : Filled urdfDefaults a b) (ht : a.tag = n!"dynamics") :
    Dynamics.nrm <$> readDynamics num a = Dynamics.nrm <$> readDynamics num b := by
  have e : ∀ n : Xml, Dynamics.nrm <$> readDynamics num n = (do
      let l ← (fun o : Option Fl => o.getD (.fin 0)) <$> optional (n.attr n!"damping") fun s => readFloat num (some s)
      let u ← (fun o : Option Fl => o.getD (.fin 0)) <$> optional (n.attr n!"friction") fun s => readFloat num (some s)
      pure ⟨some l, some u⟩) := by
    intro n; simp only [readDynamics, optFloat, map_bind, bind_map_left, map_pure]; rfl
  rw [e, e, opt_attr h (v := n!"0") (by rw [ht]; simp [urdfDefaults]) (readFloat_zero hn),
    opt_attr h (v := n!"0") (by rw [ht]; simp [urdfDefaults]) (readFloat_zero hn)]

theorem readJoint_filled (hn : ReadsDefaults num) (h : Filled urdfDefaults a b) :
    Jnt.nrm <$> readJoint num a = Jnt.nrm <$> readJoint num b := by
  have e : ∀ n : Xml, Jnt.nrm <$> readJoint num n = (do
      let name ← required (n.attr n!"name")
      let type ← required (n.attr n!"type")
      let origin ← nrmO <$> optional (n.scalar n!"origin") (readPose num)
      let axis ← Option.map id <$> optional (n.scalar n!"axis") fun a => readV3 num (a.attr n!"xyz")
      let parent ← required (n.scalar n!"parent") >>= fun p => pure (readStr (p.attr n!"link"))
      let child ← required (n.scalar n!"child") >>= fun p => pure (readStr (p.attr n!"link"))
      let limit ← Option.map id <$> optional (n.scalar n!"limit") (readLimit num)
      let dynamics ← Option.map Dynamics.nrm <$> optional (n.scalar n!"dynamics") (readDynamics num)
      let safety ← Option.map id <$> optional (n.scalar n!"safety_controller") (readSafety num)
      let calibration ← Option.map id <$> optional (n.scalar n!"calibration") (readCalibration num)
      let mimic ← Option.map Mimic.nrm <$> optional (n.scalar n!"mimic") (readMimic num)
      if type ∈ jointTypes then pure ⟨name, type, parent, child, axis, origin, limit, mimic, dynamics, safety, calibration⟩
      else .error .parseError) := by
    intro n
    simp only [readJoint, map_bind, bind_map_left, bind_assoc, pure_bind, Option.map_id, id_eq]
    have : ∀ (P : Prop) [Decidable P] (j : Jnt), Jnt.nrm <$> (if P then pure j else .error .parseError : Except Err Jnt) =
        if P then pure j.nrm else .error .parseError := by
      intro P _ j; split <;> rfl
    simp only [this]
    rfl
  rw [e, e, attr_same h n!"name" (by simp), attr_same h n!"type" (by simp), optOrigin_filled hn h,
    opt_child (g := id) (t := n!"axis") h (by simp) fun x y h1 h2 => by rw [attr_plain h2 (by rw [h1]; simp)],
    req_child (t := n!"parent") h (by simp) fun x y h1 h2 => by rw [attr_same h2 n!"link" (by simp)],
    req_child (t := n!"child") h (by simp) fun x y h1 h2 => by rw [attr_same h2 n!"link" (by simp)],
    opt_child (g := id) (t := n!"limit") h (by simp) fun x y h1 h2 => by rw [readLimit_filled hn h2 h1],
    opt_child (t := n!"dynamics") h (by simp) fun x y h1 h2 => readDynamics_filled hn h2 h1,
    opt_child (g := id) (t := n!"safety_controller") h (by simp) fun x y h1 h2 => by rw [readSafety_filled hn h2 h1],
    opt_child (g := id) (t := n!"calibration") h (by simp) fun x y h1 h2 => by
      simp only [readCalibration, optFloat, attr_plain h2 (show x.tag ∉ _ by rw [h1]; simp)],
    opt_child (t := n!"mimic") h (by simp) fun x y h1 h2 => readMimic_filled hn h2 h1]

theorem forM_filled {S : Schema} {f : Xml → Except Err Unit} {cs ds : List Xml} (h : List.Forall₂ (Filled S) cs ds)
    (hf : ∀ x ∈ cs, ∀ y, Filled S x y → f x = f y) : cs.forM f = ds.forM f := by
  induction h with
  | nil => rfl
  | cons h _ ih =>
    rename_i x y cs ds hh
    have e2 := ih fun x hx => hf x (by simp [hx])
    simp only [List.forM] at e2 ⊢
    rw [hf x (by simp) y h, e2]

theorem forall₂_isEmpty {A B : Type} {R : A → B → Prop} {l : List A} {m : List B} (h : List.Forall₂ R l m) : l.isEmpty = m.isEmpty := by
  cases h <;> rfl

theorem mem_aggregate {n x : Xml} {t : Name} (h : x ∈ n.aggregate t) : x.tag = t := by simpa using List.of_mem_filter h

theorem checkTransmission_filled (h : Filled urdfDefaults a b) : checkTransmission num a = checkTransmission num b := by
  have ag : ∀ {a b : Xml}, Filled urdfDefaults a b → ∀ t, t ≠ n!"origin" →
      List.Forall₂ (Filled urdfDefaults) (a.aggregate t) (b.aggregate t) := fun h t ht => h.aggregate udc t ht
  have e1 : checkTransmissionNew num a = checkTransmissionNew num b := by
    have hs : ∀ {A : Type} (F : Except Err A), (required (a.scalar n!"type") >>= fun _ => F) =
        required (b.scalar n!"type") >>= fun _ => F := fun F => req_child h (by simp) fun _ _ _ _ => rfl
    simp only [checkTransmissionNew]
    rw [attr_same h n!"name" (by simp), hs, forM_filled (ag h n!"joint" (by simp)) fun x _ y hxy => ?_,
      forM_filled (ag h n!"actuator" (by simp)) fun x _ y hxy => ?_, forall₂_isEmpty (ag h n!"joint" (by simp)),
      forall₂_isEmpty (ag h n!"actuator" (by simp))]
    · have := opt_child (g := id) (f := fun m => readFloat num m.text) hxy (t := n!"mechanicalReduction") (by simp) fun x y h1 h2 => by
        rw [h2.text]
      simp only [Option.map_id, id_map] at this
      rw [attr_same hxy n!"name" (by simp), this]
    · rw [attr_same hxy n!"name" (by simp), forall₂_isEmpty (ag hxy n!"hardwareInterface" (by simp))]
  have e2 : checkTransmissionPR2 num a = checkTransmissionPR2 num b := by
    have hs : ∀ {A : Type} (F : Except Err A) (t : Name), t ≠ n!"origin" → (required (a.scalar t) >>= fun _ => F) =
        required (b.scalar t) >>= fun _ => F := fun F t ht => req_child h ht fun _ _ _ _ => rfl
    simp only [checkTransmissionPR2, floatElem]
    rw [attr_same h n!"name" (by simp), attr_same h n!"type" (by simp), hs _ n!"joint" (by simp), hs _ n!"actuator" (by simp),
      req_child h (by simp) fun x y h1 h2 => by rw [h2.text]]
  rw [checkTransmission, e1, e2]; rfl

theorem readRobot_filled (hn : ReadsDefaults num) (h : Filled urdfDefaults a b) :
    Robot.nrm <$> readRobot num a = Robot.nrm <$> readRobot num b := by
  have e : ∀ n : Xml, Robot.nrm <$> readRobot num n = (do
      let l ← List.map Lnk.nrm <$> (n.aggregate n!"link").mapM (readLink num)
      let j ← List.map Jnt.nrm <$> (n.aggregate n!"joint").mapM (readJoint num)
      let _ ← List.map id <$> (n.aggregate n!"transmission").mapM (checkTransmission num)
      let m ← List.map id <$> (n.aggregate n!"material").mapM (readMaterial num)
      pure ⟨l, j, m⟩) := by
    intro n
    simp only [readRobot, map_bind, bind_map_left, map_pure, List.map_id]
    rfl
  rw [e, e,
    mapM_filled (h.aggregate udc n!"link" (by simp [urdfDefaults, Xml.tag])) fun x _ y h2 => readLink_filled hn h2,
    mapM_filled (h.aggregate udc n!"joint" (by simp [urdfDefaults, Xml.tag])) fun x _ y h2 => readJoint_filled hn h2,
    mapM_filled (g := id) (h.aggregate udc n!"transmission" (by simp [urdfDefaults, Xml.tag])) fun x _ y h2 => by
      rw [checkTransmission_filled h2],
    mapM_filled (g := id) (h.aggregate udc n!"material" (by simp [urdfDefaults, Xml.tag])) fun x _ y h2 => by
      rw [readMaterial_filled h2]]

end Urdf

/-! ### the loader depends on the records with the defaults written out -/

theorem hasRoot_map {J K : Type} (f : J → K) (par chi : K → Name) (js : List J) :
    hasRoot par chi (js.map f) = hasRoot (par ∘ f) (chi ∘ f) js := by
  have : ∀ i j hr, markPair par chi (js.map f).toArray i j hr = markPair (par ∘ f) (chi ∘ f) js.toArray i j hr := by
    intro i j hr
    simp only [markPair, List.getElem?_toArray, List.getElem?_map]
    cases js[i]? <;> cases js[j]? <;> rfl
  simp only [hasRoot, List.length_map, this]

theorem rootName_map {J K : Type} (f : J → K) (par chi : K → Name) (js : List J) :
    rootName par chi (js.map f) = rootName (par ∘ f) (chi ∘ f) js := by
  simp only [rootName, hasRoot_map, List.zip_map_right, List.find?_map, Option.map_map]
  rfl

theorem buildRecurse_map {J K : Type} (f : J → K) (par chi : K → Name) (mk : K → Except Err (Joint × Link)) (js : List J) (fuel : ℕ)
    (n : Name) : buildRecurse par chi mk (js.map f) fuel n = buildRecurse (par ∘ f) (chi ∘ f) (mk ∘ f) js fuel n := by
  induction fuel generalizing n with
  | zero => rfl
  | succ fuel ih =>
    simp only [buildRecurse, List.filter_map, List.mapM_map]
    simp only [Function.comp_def] at ih ⊢
    simp only [ih]

theorem dict_set_map {K V W : Type} [DecidableEq K] (g : V → W) (d : Dict K V) (k : K) (v : V) :
    Dict.set (d.map fun p => (p.1, g p.2)) k (g v) = (Dict.set d k v).map fun p => (p.1, g p.2) := by
  induction d with
  | nil => rfl
  | cons p d ih =>
    obtain ⟨k', v'⟩ := p
    simp only [List.map_cons, Dict.set]
    split
    · rfl
    · rw [List.map_cons, ← ih]

theorem dict_get_map {K V W : Type} [DecidableEq K] (g : V → W) (d : Dict K V) (k : K) :
    Dict.get? (d.map fun p => (p.1, g p.2)) k = (Dict.get? d k).map g := by
  induction d with
  | nil => rfl
  | cons p d ih =>
    obtain ⟨k', v'⟩ := p
    simp only [List.map_cons, Dict.get?]
    split
    · rfl
    · exact ih

theorem dict_foldl_map {K V W : Type} [DecidableEq K] (g : V → W) (key : V → K) (key' : W → K) (hk : ∀ v, key' (g v) = key v)
    (l : List V) (d : Dict K V) :
    (l.map g).foldl (fun d v => Dict.set d (key' v) v) (d.map fun p => (p.1, g p.2) : Dict K W) =
    (l.foldl (fun d v => Dict.set d (key v) v) d).map fun p => (p.1, g p.2) := by
  induction l generalizing d with
  | nil => rfl
  | cons v l ih => rw [List.map_cons, List.foldl_cons, List.foldl_cons, hk, dict_set_map, ih]

theorem elem_zero (a : XYZ) : elem a 0 = 1 := by
  show rotAbout a.vec 0 = 1
  rw [← axisAndAngleToMatrix33_eq_rotAbout, axisAndAngle_zero]

namespace Urdf
variable {num : NumParser} {a b : Xml}

theorem originT_nrm (o : Option Pose) : originT (nrmO o) = originT o := by
  cases o with
  | some p => rfl
  | none =>
    simp only [nrmO, Option.getD, originT, rpyPose, Pi.zero_apply, elem_zero, Matrix.mul_one, mkHom_one]

theorem convertTransform_nrm (o : Option Pose) : convertTransform (nrmO o) = convertTransform o := by
  rw [C23_origin, C23_origin, originT_nrm]

theorem convertLink_nrm (l : Lnk) : convertLink l.nrm = convertLink l := by
  simp only [convertLink, Lnk.nrm, convertTransform_nrm, List.head?_map]
  cases l.visuals.head? with
  | none => rfl
  | some v => simp only [Option.map_some, convertVisual, Vis.nrm, convertTransform_nrm]

theorem linkMap_nrm (r : Robot) (n : Name) : r.nrm.linkMap.get? n = (r.linkMap.get? n).map Lnk.nrm := by
  rw [← dict_get_map]
  exact congrArg (Dict.get? · n) (dict_foldl_map Lnk.nrm Lnk.name Lnk.name (fun _ => rfl) r.links [])

theorem convertJoint_nrm (r : Robot) (j : Jnt) : convertJoint r.nrm.linkMap j.nrm = convertJoint r.linkMap j := by
  simp only [convertJoint, Jnt.nrm, convertTransform_nrm, linkMap_nrm]
  cases r.linkMap.get? j.child with
  | none => rfl
  | some l => simp only [Option.map_some, ok_bind, convertLink_nrm]

theorem buildRoot_nrm (fuel : ℕ) (r : Robot) : buildRoot fuel r.nrm = buildRoot fuel r := by
  have e1 : Jnt.parent ∘ Jnt.nrm = Jnt.parent := rfl
  have e2 : Jnt.child ∘ Jnt.nrm = Jnt.child := rfl
  have e3 : convertJoint r.nrm.linkMap ∘ Jnt.nrm = convertJoint r.linkMap := funext (convertJoint_nrm r)
  have ej : r.nrm.joints = r.joints.map Jnt.nrm := rfl
  simp only [buildRoot, ej, rootName_map, buildRecurse_map, e1, e2, e3, linkMap_nrm]
  cases rootName Jnt.parent Jnt.child r.joints with
  | none => rfl
  | some n =>
    simp only [ok_bind]
    cases r.linkMap.get? n with
    | none => rfl
    | some l => simp only [Option.map_some, ok_bind, convertLink_nrm]; rfl

/-- C104: writing out omitted parts of a URDF document with their default values does not change the chain (or the exception). -/
theorem C104_urdf_defaults (num : NumParser) (hn : ReadsDefaults num) (a b : Xml) (h : Filled urdfDefaults a b) (fuel : ℕ) :
    buildChain num fuel a = buildChain num fuel b ∧
    ∀ endLink rootLink, buildSerialChain num fuel a endLink rootLink = buildSerialChain num fuel b endLink rootLink := by
  have e : ∀ n : Xml, buildChain num fuel n = (Robot.nrm <$> readRobot num n) >>= fun r => buildRoot fuel r >>= fun f => pure (Chain.init f) := by
    intro n
    rw [buildChain, bind_map_left]
    simp only [buildRoot_nrm]
  have e' : buildChain num fuel a = buildChain num fuel b := by rw [e, e, readRobot_filled hn h]
  exact ⟨e', fun _ _ => by rw [buildSerialChain, e']; rfl⟩

/-- two links and a revolute joint: without a joint origin and bounds -/
def exShort : Xml :=
  .elem n!"robot" [] none [.elem n!"link" [(n!"name", n!"a")] none [], .elem n!"link" [(n!"name", n!"b")] none [],
    .elem n!"joint" [(n!"name", n!"j"), (n!"type", n!"revolute")] none [
      .elem n!"parent" [(n!"link", n!"a")] none [], .elem n!"child" [(n!"link", n!"b")] none [],
      .elem n!"limit" [(n!"effort", n!"1"), (n!"velocity", n!"1")] none []]]

/-- the same with the joint origin and bounds -/
def exLong : Xml :=
  .elem n!"robot" [] none [.elem n!"link" [(n!"name", n!"a")] none [], .elem n!"link" [(n!"name", n!"b")] none [],
    .elem n!"joint" [(n!"name", n!"j"), (n!"type", n!"revolute")] none [
      .elem n!"origin" [(n!"xyz", n!"0 0 0"), (n!"rpy", n!"0 0 0")] none [],
      .elem n!"parent" [(n!"link", n!"a")] none [], .elem n!"child" [(n!"link", n!"b")] none [],
      .elem n!"limit" [(n!"lower", n!"0"), (n!"upper", n!"0"), (n!"effort", n!"1"), (n!"velocity", n!"1")] none []]]

theorem exShort_filled : Filled urdfDefaults exShort exLong := by
  refine .elem _ _ _ _ _ [] _ [] (fun _ => .inl rfl) ?_ (.inl rfl)
  refine .cons (filled_refl _ _) (.cons (filled_refl _ _) (.cons ?_ .nil))
  refine .elem _ _ _ _ _ [] [_, _, _] [urdfDefaults.child] (fun _ => .inl rfl) ?_
    (.inr ⟨rfl, by simp [urdfDefaults], by simp [urdfDefaults, Xml.tag]⟩)
  refine .cons (filled_refl _ _) (.cons (filled_refl _ _) (.cons ?_ .nil))
  refine .elem _ _ _ _ _ [] [] [] (fun k => ?_) .nil (.inl rfl)
  by_cases h1 : k = n!"lower"
  · subst h1; exact .inr ⟨by decide, n!"0", by simp [urdfDefaults], by decide⟩
  by_cases h2 : k = n!"upper"
  · subst h2; exact .inr ⟨by decide, n!"0", by simp [urdfDefaults], by decide⟩
  · left
    have b1 : (k == n!"lower") = false := by simpa using h1
    have b2 : (k == n!"upper") = false := by simpa using h2
    simp only [List.lookup, b1, b2]

/-- they give the same chain -/
example (num : NumParser) (hn : ReadsDefaults num) (fuel : ℕ) : buildChain num fuel exShort = buildChain num fuel exLong :=
  (C104_urdf_defaults num hn _ _ exShort_filled fuel).1

/-- the numbers of the example are read -/
example : ReadsDefaults exNum := ⟨by simp [exNum], by simp [exNum]⟩

end Urdf

namespace Sdf
variable {num : NumParser} {a b : Xml}

theorem sdc : sdfDefaults.child ≠ .comment := by simp [sdfDefaults]
theorem sdt : sdfDefaults.child.tag = n!"pose" := rfl

theorem attr_same_sdf (h : Filled sdfDefaults a b) (k : Name) : b.attr k = a.attr k :=
  h.attr_eq k fun d hd => by simp [sdfDefaults] at hd

theorem readPose_zero (h : num n!"0" = some (.fin 0)) : readPose num sdfDefaults.child = .ok ⟨0, 0⟩ := by
  have e : pySplit n!"0 0 0 0 0 0" = [n!"0", n!"0", n!"0", n!"0", n!"0", n!"0"] := by decide
  have z : readReal num n!"0" = .ok 0 := by simp [readReal, h]
  simp only [readPose, sdfDefaults, Xml.text, readVec, e, List.length_cons, List.length_nil, List.mapM_cons, List.mapM_nil, z, ok_bind,
    pure_ok]
  simp only [if_true, ok_bind]
  congr 2 <;> (funext i; fin_cases i <;> rfl)

/-- a pose with the default written out -/
def nrmO (o : Option Pose) : Option Pose := some (o.getD ⟨0, 0⟩)

theorem optPose_filled (hn : num n!"0" = some (.fin 0)) (h : Filled sdfDefaults a b) :
    nrmO <$> optional (a.scalar n!"pose") (readPose num) = nrmO <$> optional (b.scalar n!"pose") (readPose num) := by
  have := h.scalar_child sdc
  rw [sdt] at this
  rcases this with ⟨h1, h2⟩ | ⟨h1, h2⟩ | ⟨x, y, h1, h2, h3, h4⟩
  · rw [h1, h2]
  · rw [h1, h2]
    simp only [optional, readPose_zero hn, ok_bind, pure_ok]
    rfl
  · rw [h1, h2]
    simp only [optional, readPose, h4.text]

theorem opt_child_sdf {α β : Type} {f : Xml → Except Err α} {g : α → β} {t : Name} (h : Filled sdfDefaults a b) (ht : t ≠ n!"pose")
    (hf : ∀ x y, x.tag = t → Filled sdfDefaults x y → g <$> f x = g <$> f y) :
    Option.map g <$> optional (a.scalar t) f = Option.map g <$> optional (b.scalar t) f := by
  rcases h.scalar sdc t ht with ⟨h1, h2⟩ | ⟨x, y, h1, h2, h3, h4⟩
  · rw [h1, h2]
  · rw [h1, h2]
    have := hf x y h3 h4
    have e : ∀ z : Xml, Option.map g <$> optional (some z) f = some <$> (g <$> f z) := by
      intro z; simp only [optional]; cases f z <;> rfl
    rw [e, e, this]

theorem opt_child_sdf' {α : Type} {f : Xml → Except Err α} {t : Name} (h : Filled sdfDefaults a b) (ht : t ≠ n!"pose")
    (hf : ∀ x y, x.tag = t → Filled sdfDefaults x y → f x = f y) : optional (a.scalar t) f = optional (b.scalar t) f := by
  have := opt_child_sdf (g := id) (f := f) h ht fun x y h1 h2 => by rw [hf x y h1 h2]
  simpa using this

theorem req_child_sdf {β : Type} {f : Xml → Except Err β} {t : Name} (h : Filled sdfDefaults a b) (ht : t ≠ n!"pose")
    (hf : ∀ x y, x.tag = t → Filled sdfDefaults x y → f x = f y) :
    required (a.scalar t) >>= f = required (b.scalar t) >>= f := by
  rcases h.scalar sdc t ht with ⟨h1, h2⟩ | ⟨x, y, h1, h2, h3, h4⟩
  · rw [h1, h2]
  · rw [h1, h2]
    simpa only [required, ok_bind] using hf x y h3 h4

theorem floatElem_filled (h : Filled sdfDefaults a b) {t : Name} (ht : t ≠ n!"pose") : floatElem num a t = floatElem num b t :=
  req_child_sdf h ht fun x y _ h2 => by rw [h2.text]

theorem readInertia_filled (h : Filled sdfDefaults a b) : readInertia num a = readInertia num b := by
  simp only [readInertia]
  rw [floatElem_filled (t := n!"ixx") h (by simp), floatElem_filled (t := n!"ixy") h (by simp),
    floatElem_filled (t := n!"ixz") h (by simp), floatElem_filled (t := n!"iyy") h (by simp),
    floatElem_filled (t := n!"iyz") h (by simp), floatElem_filled (t := n!"izz") h (by simp)]

theorem readGeom_filled (h : Filled sdfDefaults a b) (ht : a.tag = n!"geometry") : readGeom num a = readGeom num b := by
  have hc := h.children_eq sdc (by rw [ht]; simp [sdfDefaults])
  unfold readGeom
  match ha : a.children, hb : b.children with
  | [], [] => rfl
  | [], _ :: _ => rw [ha, hb] at hc; cases hc
  | _ :: _, [] => rw [ha, hb] at hc; cases hc
  | [_], _ :: _ :: _ => rw [ha, hb] at hc; cases hc with | cons _ h => cases h
  | _ :: _ :: _, [_] => rw [ha, hb] at hc; cases hc with | cons _ h => cases h
  | _ :: _ :: _, _ :: _ :: _ => rfl
  | [x], [y] =>
    rw [ha, hb] at hc
    cases hc with
    | cons hxy _ =>
      simp only
      rw [hxy.tag]
      have e1 : (required (x.scalar n!"size") >>= fun s => readV3 num s.text >>= fun v => pure (Geom.box v)) =
          required (y.scalar n!"size") >>= fun s => readV3 num s.text >>= fun v => pure (Geom.box v) :=
        req_child_sdf hxy (by simp) fun u v _ h2 => by rw [h2.text]
      have e2 : optional (x.scalar n!"scale") (fun s => readV3 num s.text) = optional (y.scalar n!"scale") fun s => readV3 num s.text :=
        opt_child_sdf' hxy (by simp) fun u v _ h2 => by rw [h2.text]
      have e3 : ∀ {A : Type} (F : Name → Except Err A), (required (x.scalar n!"filename") >>= fun f => F (readStr f.text)) =
          required (y.scalar n!"filename") >>= fun f => F (readStr f.text) := fun F =>
        req_child_sdf hxy (by simp) fun u v _ h2 => by rw [h2.text]
      have e3' := e3 fun f => do
        let s ← optional (y.scalar n!"scale") fun s => readV3 num s.text
        pure (Geom.mesh f s)
      rw [e1, e2, e3', floatElem_filled (t := n!"radius") hxy (by simp), floatElem_filled (t := n!"length") hxy (by simp)]

/-- with the defaults written out -/
def Vis.nrm (v : Vis) : Vis := { v with pose := nrmO v.pose }
/-- with the defaults written out -/
def Inertial.nrm (v : Inertial) : Inertial := { v with pose := nrmO v.pose }
/-- with the defaults written out -/
def Lnk.nrm (l : Lnk) : Lnk := ⟨l.name, nrmO l.pose, l.visuals.map Vis.nrm, l.collisions.map Vis.nrm, l.inertial.nrm⟩
/-- with the defaults written out -/
def Jnt.nrm (j : Jnt) : Jnt := { j with pose := nrmO j.pose }
/-- with the defaults written out -/
def Model.nrm (r : Model) : Model := ⟨r.links.map Lnk.nrm, r.joints.map Jnt.nrm⟩

theorem readInertial_filled (hn : num n!"0" = some (.fin 0)) (h : Filled sdfDefaults a b) :
    Inertial.nrm <$> readInertial num a = Inertial.nrm <$> readInertial num b := by
  have e : ∀ n : Xml, Inertial.nrm <$> readInertial num n = (do
      let m ← floatElem num n n!"mass"
      let i ← required (n.scalar n!"inertia") >>= readInertia num
      let o ← nrmO <$> optional (n.scalar n!"pose") (readPose num)
      pure ⟨m, i, o⟩) := by
    intro n
    simp only [readInertial, map_bind, bind_map_left, bind_assoc, map_pure]
    rfl
  rw [e, e, floatElem_filled (t := n!"mass") h (by simp), req_child_sdf h (by simp) fun x y _ h2 => readInertia_filled h2,
    optPose_filled hn h]

theorem readVisual_filled (hn : num n!"0" = some (.fin 0)) (h : Filled sdfDefaults a b) :
    Vis.nrm <$> readVisual num a = Vis.nrm <$> readVisual num b := by
  have e : ∀ n : Xml, Vis.nrm <$> readVisual num n = (do
      let g ← required (n.scalar n!"geometry") >>= readGeom num
      let o ← nrmO <$> optional (n.scalar n!"pose") (readPose num)
      pure ⟨o, g⟩) := by
    intro n
    simp only [readVisual, map_bind, bind_map_left, bind_assoc, map_pure]
    rfl
  rw [e, e, req_child_sdf h (by simp) fun x y h1 h2 => readGeom_filled h2 h1, optPose_filled hn h]

theorem readLink_filled (hn : num n!"0" = some (.fin 0)) (h : Filled sdfDefaults a b) :
    Lnk.nrm <$> readLink num a = Lnk.nrm <$> readLink num b := by
  have e : ∀ n : Xml, Lnk.nrm <$> readLink num n = (do
      let i ← required (n.scalar n!"inertial") >>= fun i => Inertial.nrm <$> readInertial num i
      let v ← List.map Vis.nrm <$> (n.aggregate n!"visual").mapM (readVisual num)
      let c ← List.map Vis.nrm <$> (n.aggregate n!"collision").mapM (readVisual num)
      let o ← nrmO <$> optional (n.scalar n!"pose") (readPose num)
      pure ⟨n.attr n!"name", o, v, c, i⟩) := by
    intro n
    simp only [readLink, map_bind, bind_map_left, bind_assoc, map_pure]
    rfl
  rw [e, e, attr_same_sdf h, req_child_sdf h (by simp) fun x y h1 h2 => readInertial_filled hn h2,
    mapM_filled (h.aggregate sdc n!"visual" (by simp [sdfDefaults, Xml.tag])) fun x _ y h2 => readVisual_filled hn h2,
    mapM_filled (h.aggregate sdc n!"collision" (by simp [sdfDefaults, Xml.tag])) fun x _ y h2 => readVisual_filled hn h2,
    optPose_filled hn h]

theorem readAxis_filled (h : Filled sdfDefaults a b) : readAxis num a = readAxis num b := by
  have el : ∀ {x y : Xml}, Filled sdfDefaults x y → readLimit num x = readLimit num y := by
    intro x y h
    rw [readLimit, opt_child_sdf' (t := n!"lower") h (by simp) fun u v _ h2 => by rw [h2.text],
      opt_child_sdf' (t := n!"upper") h (by simp) fun u v _ h2 => by rw [h2.text]]
    rfl
  have ed : ∀ {x y : Xml}, Filled sdfDefaults x y → readDynamics num x = readDynamics num y := by
    intro x y h
    rw [readDynamics, opt_child_sdf' (t := n!"damping") h (by simp) fun u v _ h2 => by rw [h2.text],
      opt_child_sdf' (t := n!"friction") h (by simp) fun u v _ h2 => by rw [h2.text]]
    rfl
  simp only [readAxis]
  rw [opt_child_sdf' (t := n!"limit") h (by simp) fun u v _ h2 => el h2,
    opt_child_sdf' (t := n!"dynamics") h (by simp) fun u v _ h2 => ed h2,
    req_child_sdf (t := n!"xyz") h (by simp) fun u v _ h2 => by rw [h2.text]]

theorem readJoint_filled (hn : num n!"0" = some (.fin 0)) (h : Filled sdfDefaults a b) :
    Jnt.nrm <$> readJoint num a = Jnt.nrm <$> readJoint num b := by
  have e : ∀ n : Xml, Jnt.nrm <$> readJoint num n = (do
      let ax ← required (n.scalar n!"axis") >>= readAxis num
      let p ← required (n.scalar n!"parent") >>= fun p => pure (readStr p.text)
      let c ← required (n.scalar n!"child") >>= fun p => pure (readStr p.text)
      let o ← nrmO <$> optional (n.scalar n!"pose") (readPose num)
      pure ⟨n.attr n!"name", n.attr n!"type", p, c, ax.1, ax.2.1, o, ax.2.2⟩) := by
    intro n
    simp only [readJoint, map_bind, bind_map_left, bind_assoc, map_pure, pure_bind]
    rfl
  rw [e, e, attr_same_sdf h, attr_same_sdf h, req_child_sdf (t := n!"axis") h (by simp) fun x y h1 h2 => readAxis_filled h2,
    req_child_sdf (t := n!"parent") h (by simp) fun x y h1 h2 => by rw [h2.text],
    req_child_sdf (t := n!"child") h (by simp) fun x y h1 h2 => by rw [h2.text], optPose_filled hn h]

theorem readSdf_filled (hn : num n!"0" = some (.fin 0)) (h : Filled sdfDefaults a b) :
    Model.nrm <$> readSdf num a = Model.nrm <$> readSdf num b := by
  have em : ∀ {x y : Xml}, Filled sdfDefaults x y → Model.nrm <$> readModel num x = Model.nrm <$> readModel num y := by
    intro x y h
    have e : ∀ n : Xml, Model.nrm <$> readModel num n = (do
        let l ← List.map Lnk.nrm <$> (n.aggregate n!"link").mapM (readLink num)
        let j ← List.map Jnt.nrm <$> (n.aggregate n!"joint").mapM (readJoint num)
        let _ ← nrmO <$> optional (n.scalar n!"pose") (readPose num)
        pure ⟨l, j⟩) := by
      intro n
      simp only [readModel, map_bind, bind_map_left, map_pure]
      rfl
    rw [e, e,
      mapM_filled (h.aggregate sdc n!"link" (by simp [sdfDefaults, Xml.tag])) fun x _ y h2 => readLink_filled hn h2,
      mapM_filled (h.aggregate sdc n!"joint" (by simp [sdfDefaults, Xml.tag])) fun x _ y h2 => readJoint_filled hn h2,
      optPose_filled hn h]
  have e : ∀ n : Xml, Model.nrm <$> readSdf num n = (Option.map Model.nrm <$> optional (n.scalar n!"model") (readModel num)) >>= fun m =>
      match m with
      | none => .error .attributeError
      | some m => .ok m := by
    intro n
    rw [readSdf, map_bind, bind_map_left]
    refine bind_congr fun m => ?_
    cases m <;> rfl
  rw [e, e, opt_child_sdf h (by simp) fun x y _ h2 => em h2]

theorem convertTransform_nrm (o : Option Pose) : convertTransform (nrmO o) = convertTransform o := by
  cases o with
  | some p => rfl
  | none =>
    rw [C28_conversion, C28_conversion]
    simp only [nrmO, Option.getD, sdfPoseZYX, Pi.zero_apply, elem_zero, Matrix.mul_one, mkHom_one]

theorem convertLink_nrm (l : Lnk) : convertLink l.nrm = convertLink l := by
  have e : convertVisual ∘ Vis.nrm = convertVisual := by
    funext v
    simp only [Function.comp_apply, convertVisual, Vis.nrm, convertTransform_nrm]
  simp only [convertLink, Lnk.nrm, List.mapM_map, e]

theorem linkMap_nrm (r : Model) (n : Option Name) : r.nrm.linkMap.get? n = (r.linkMap.get? n).map Lnk.nrm := by
  rw [← dict_get_map]
  exact congrArg (Dict.get? · n) (dict_foldl_map Lnk.nrm Lnk.name Lnk.name (fun _ => rfl) r.links [])

theorem lookupLink_nrm (r : Model) (n : Name) : lookupLink r.nrm.linkMap n = Lnk.nrm <$> lookupLink r.linkMap n := by
  rw [lookupLink, linkMap_nrm, lookupLink]
  cases r.linkMap.get? (some n) <;> rfl

theorem convertJoint_nrm (r : Model) (j : Jnt) : convertJoint r.nrm.linkMap j.nrm = convertJoint r.linkMap j := by
  have e1 : ∀ l : Lnk, l.nrm.pose = nrmO l.pose := fun _ => rfl
  simp only [convertJoint, Jnt.nrm, lookupLink_nrm, bind_map_left, e1, convertTransform_nrm, convertLink_nrm]

theorem buildRoot_nrm (fuel : ℕ) (r : Model) : buildRoot fuel r.nrm = buildRoot fuel r := by
  have e1 : Jnt.parent ∘ Jnt.nrm = Jnt.parent := rfl
  have e2 : Jnt.child ∘ Jnt.nrm = Jnt.child := rfl
  have e3 : convertJoint r.nrm.linkMap ∘ Jnt.nrm = convertJoint r.linkMap := funext (convertJoint_nrm r)
  have ej : r.nrm.joints = r.joints.map Jnt.nrm := rfl
  have e4 : ∀ l : Lnk, l.nrm.pose = nrmO l.pose := fun _ => rfl
  simp only [buildRoot, ej, rootName_map, buildRecurse_map, e1, e2, e3, lookupLink_nrm, bind_map_left, e4, convertTransform_nrm,
    convertLink_nrm]

/-- C104: writing out omitted poses of an SDF document as zeros does not change the chain (or the exception). -/
theorem C104_sdf_defaults (num : NumParser) (hn : num n!"0" = some (.fin 0)) (a b : Xml) (h : Filled sdfDefaults a b) (fuel : ℕ) :
    buildChain num fuel a = buildChain num fuel b ∧
    ∀ endLink rootLink, buildSerialChain num fuel a endLink rootLink = buildSerialChain num fuel b endLink rootLink := by
  have e : ∀ n : Xml, buildChain num fuel n = (Model.nrm <$> readSdf num n) >>= fun r => buildRoot fuel r >>= fun f => pure (Chain.init f) := by
    intro n
    rw [buildChain, bind_map_left]
    simp only [buildRoot_nrm]
  have e' : buildChain num fuel a = buildChain num fuel b := by rw [e, e, readSdf_filled hn h]
  exact ⟨e', fun _ _ => by rw [buildSerialChain, e']; rfl⟩

/-- a link with a pose of zeros, or without -/
example (num : NumParser) (hn : num n!"0" = some (.fin 0)) (fuel : ℕ) (name : Name) (rest others : List Xml)
    (hr : ∀ c ∈ rest, c.tag ≠ n!"pose") :
    buildChain num fuel (.elem n!"sdf" [] none [.elem n!"model" [] none (.elem n!"link" [(n!"name", name)] none rest :: others)]) =
    buildChain num fuel (.elem n!"sdf" [] none [.elem n!"model" [] none (.elem n!"link" [(n!"name", name)] none
      (rest ++ [.elem n!"pose" [] (some n!"0 0 0 0 0 0") []]) :: others)]) := by
  refine (C104_sdf_defaults num hn _ _ ?_ fuel).1
  refine .elem _ _ _ _ _ [] _ [] (fun _ => .inl rfl) (.cons ?_ .nil) (.inl rfl)
  refine .elem _ _ _ _ _ [] _ [] (fun _ => .inl rfl) (.cons ?_ (List.forall₂_same.2 fun c _ => filled_refl _ c)) (.inl rfl)
  exact .elem _ _ _ _ _ rest [] [sdfDefaults.child] (fun _ => .inl rfl)
    (by rw [List.append_nil]; exact List.forall₂_same.2 fun c _ => filled_refl _ c) (.inr ⟨rfl, by simp [sdfDefaults], hr⟩)

end Sdf

end PK
