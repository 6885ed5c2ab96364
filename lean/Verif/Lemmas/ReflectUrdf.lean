import Verif.Lemmas.ReflectTables
import Verif.Props.Valid
import Verif.Model.Urdf

/-!
# The engine reads URDF as the readers of `Model/Urdf.lean` do

Each record of `Model/Urdf.lean` is written as an object of the engine (`enc…`); the reader of the record succeeds with a
record exactly if the engine reads the object.
-/

namespace PK.Reflect
open PK

/-- an optional value, `None` if absent -/
def encO {α : Type} (enc : α → PVal) : Option α → PVal
  | none => .none
  | some a => enc a

theorem required_ok {α : Type} {o : Option α} {a : α} : required o = .ok a ↔ o = some a := by
  cases o <;> simp [required]

theorem optional_none {α β : Type} {o : Option α} {f : α → Except Err β} : optional o f = .ok none ↔ o = none := by
  cases o with
  | none => simp [optional]
  | some a =>
    simp only [optional, reduceCtorEq, iff_false]
    intro h
    obtain ⟨b, _, hb⟩ := bind_eq_ok.1 h
    simp [pure_ok] at hb

theorem optional_some {α β : Type} {o : Option α} {f : α → Except Err β} {b : β} :
    optional o f = .ok (some b) ↔ ∃ a, o = some a ∧ f a = .ok b := by
  cases o with
  | none => simp [optional]
  | some a => simp [optional, bind_eq_ok, pure_ok]

section
variable {α : Type} {vt : VType} {enc : α → PVal} {k : Name} {n : Xml}

theorem attr_req {read : Name → Except Err α} (h : ∀ s x, vt.fromString (some s) = some (enc x) ↔ read s = .ok x) {x : α} :
    attrVal { xmlVar := k, vt := vt } n = some (enc x) ↔ ∃ s, n.attr k = some s ∧ read s = .ok x := by
  simp only [attrVal]
  cases n.attr k with
  | none => simp
  | some s => simp [h]

theorem attr_opt {read : Name → Except Err α} (hne : ∀ x, enc x ≠ .none)
    (hnn : ∀ s, vt.fromString (some s) ≠ some .none)
    (h : ∀ s x, vt.fromString (some s) = some (enc x) ↔ read s = .ok x) {o : Option α} :
    attrVal { xmlVar := k, vt := vt, required := false } n = some (encO enc o) ↔ optional (n.attr k) read = .ok o := by
  simp only [attrVal]
  cases o with
  | none =>
    rw [optional_none]
    cases n.attr k with
    | none => simp [encO]
    | some s => simp [encO, hnn]
  | some x =>
    rw [optional_some]
    cases n.attr k with
    | none => simp [encO, (hne x).symm]
    | some s => simp [encO, h]

theorem attr_dflt {read : Name → Except Err α} (hi : Function.Injective enc) {d : α}
    (h : ∀ s x, vt.fromString (some s) = some (enc x) ↔ read s = .ok x) {x : α} :
    attrVal { xmlVar := k, vt := vt, required := false, dflt := enc d } n = some (enc x) ↔
      ∃ o, optional (n.attr k) read = .ok o ∧ o.getD d = x := by
  simp only [attrVal]
  constructor
  · intro hx
    cases e : n.attr k with
    | none =>
      simp only [e, Bool.false_eq_true, if_false, Option.some.injEq] at hx
      exact ⟨none, by simp [optional], by simpa using hi hx⟩
    | some s =>
      simp only [e] at hx
      exact ⟨some x, optional_some.2 ⟨s, rfl, (h s x).1 hx⟩, rfl⟩
  · rintro ⟨o, ho, rfl⟩
    cases o with
    | none =>
      rw [optional_none.1 ho]
      simp
    | some x =>
      obtain ⟨s, hs, hr⟩ := optional_some.1 ho
      simp [hs, (h s x).2 hr]

theorem scal_req {read : Xml → Except Err α} (h : ∀ c x, vt.fromXml c = some (enc x) ↔ read c = .ok x) {x : α} :
    scalVal { xmlVar := k, vt := vt } n = some (enc x) ↔ ∃ c, n.scalar k = some c ∧ read c = .ok x := by
  simp only [scalVal]
  cases n.scalar k with
  | none => simp
  | some s => simp [h]

theorem scal_opt {read : Xml → Except Err α} (hne : ∀ x, enc x ≠ .none)
    (hnn : ∀ c, vt.fromXml c ≠ some .none)
    (h : ∀ c x, vt.fromXml c = some (enc x) ↔ read c = .ok x) {o : Option α} :
    scalVal { xmlVar := k, vt := vt, required := false } n = some (encO enc o) ↔ optional (n.scalar k) read = .ok o := by
  simp only [scalVal]
  cases o with
  | none =>
    rw [optional_none]
    cases n.scalar k with
    | none => simp [encO]
    | some s => simp [encO, hnn]
  | some x =>
    rw [optional_some]
    cases n.scalar k with
    | none => simp [encO, (hne x).symm]
    | some s => simp [encO, h]
end

variable {F : Fmt}

theorem float_iff {t : Option Name} {x : Fl} : (floatT F).fromString t = some (.num x) ↔ readFloat F.parse t = .ok x := by
  cases t with
  | none => simp [floatT, VType.ofString, readFloat]
  | some s => cases e : F.parse s <;> simp [floatT, VType.ofString, readFloat, e]

theorem float_ne {s : Name} : (floatT F).fromString (some s) ≠ some .none := by
  cases e : F.parse s <;> simp [floatT, VType.ofString, e]

theorem str_iff {t : Option Name} {x : Name} : (strT F).fromString t = some (.str x) ↔ readStr t = x := by
  simp [strT, VType.ofString]

/-- a vector of finite numbers -/
def encVec (l : List ℝ) : PVal := .vec (l.map Fl.fin)

theorem mapM_real {num : NumParser} : ∀ {ws : List Name} {l : List ℝ},
    ws.mapM num = some (l.map Fl.fin) ↔ ws.mapM (readReal num) = .ok l := by
  intro ws
  induction ws with
  | nil =>
    intro l
    cases l <;> simp [pure_ok]
  | cons w ws ih =>
    intro l
    rw [List.mapM_cons, List.mapM_cons, bind_eq_ok]
    simp only [bind_eq_ok, pure_ok, Option.bind_eq_bind, Option.bind_eq_some_iff, Option.pure_def, Option.some.injEq]
    cases l with
    | nil => simp
    | cons y l =>
      simp only [List.map_cons, List.cons.injEq, Except.ok.injEq]
      constructor
      · rintro ⟨a, ha, b, hb, rfl, rfl⟩
        exact ⟨y, by simp [readReal, ha], l, ih.1 hb, rfl, rfl⟩
      · rintro ⟨a, ha, b, hb, rfl, rfl⟩
        refine ⟨_, ?_, _, ih.2 hb, rfl, rfl⟩
        rw [readReal] at ha
        cases e : num w with
        | none => simp [e] at ha
        | some z => cases z <;> simp_all

theorem vec_iff {count : ℕ} {t : Option Name} {l : List ℝ} :
    (vecT F count).fromString t = some (encVec l) ↔ readVec F.parse count t = .ok l := by
  cases t with
  | none => simp [vecT, VType.ofString, readVec]
  | some s =>
    simp only [vecT, VType.ofString, Option.bind_some, readVec]
    split
    · rw [← mapM_real]
      simp [encVec, Option.map_eq_some_iff]
    · simp

theorem vec_ne {count : ℕ} {s : Name} : (vecT F count).fromString (some s) ≠ some .none := by
  simp only [vecT, VType.ofString, Option.bind_some]
  split
  · simp [Option.map_eq_some_iff]
  · simp

theorem readVec_length {num : NumParser} {count : ℕ} {t : Option Name} {l : List ℝ} (h : readVec num count t = .ok l) :
    l.length = count := by
  cases t with
  | none => simp [readVec] at h
  | some s =>
    simp only [readVec] at h
    split at h
    · next hl =>
      have := (mapM_some_mem (mapM_real.2 h)).1
      simpa [hl] using this
    · cases h

/-- three numbers -/
def encV3 (v : V3) : PVal := encVec [v 0, v 1, v 2]

theorem encV3_ne (v : V3) : encV3 v ≠ .none := by simp [encV3, encVec]
theorem encV3_inj : Function.Injective encV3 := by
  intro v w h
  simp only [encV3, encVec, List.map_cons, List.map_nil, PVal.vec.injEq, List.cons.injEq, Fl.fin.injEq, and_true] at h
  funext i
  fin_cases i
  · exact h.1
  · exact h.2.1
  · exact h.2.2

theorem v3_iff {t : Option Name} {v : V3} : (vecT F 3).fromString t = some (encV3 v) ↔ readV3 F.parse t = .ok v := by
  rw [encV3, vec_iff, readV3, bind_eq_ok]
  constructor
  · intro h
    refine ⟨_, h, ?_⟩
    rw [pure_ok]
    congr 1
    funext i
    fin_cases i <;> rfl
  · rintro ⟨l, hl, h⟩
    have hlen := readVec_length hl
    rw [pure_ok, Except.ok.injEq] at h
    obtain ⟨a, b, c, rfl⟩ := List.length_eq_three.1 hlen
    rw [hl, ← h]
    rfl

namespace Cls
variable {C : Cls}

theorem read_obj_iff (hC : C.Proper) (l : List (Name × PVal)) (hl : l.map Prod.fst = (C.attributes ++ C.scalars).map Param.var)
    (hi : ∀ a ∈ C.init, a.1 ∈ l.map Prod.fst) {n : Xml} {ord : List (Name × PVal)} :
    C.read n = some (.obj C.name (fun k => l.lookup k) ord) ↔
      (∀ p ∈ C.attributes, attrVal p n = l.lookup p.var) ∧ (∀ p ∈ C.scalars, scalVal p n = l.lookup p.var) ∧
      aggVals C.aggregates n.children = some ord ∧ C.check (.obj C.name (fun k => l.lookup k) ord) = true := by
  have hnone : ∀ {m : List (Name × PVal)} {k}, k ∉ m.map Prod.fst → m.lookup k = none := by
    intro m k hk
    rw [List.lookup_eq_none_iff]
    intro a ha
    simp only [bne_iff_ne, ne_eq]
    intro r
    exact hk (r ▸ List.mem_map_of_mem ha)
  have hsome : ∀ {k}, k ∈ l.map Prod.fst → ∃ x, l.lookup k = some x := by
    intro k hk
    cases e : l.lookup k with
    | some x => exact ⟨x, rfl⟩
    | none =>
      obtain ⟨a, ha, rfl⟩ := List.mem_map.1 hk
      rw [List.lookup_eq_none_iff] at e
      have := e a ha
      simp at this
  rw [read_iff hC]
  constructor
  · rintro ⟨o, ho, hv, hc⟩
    simp only [PVal.obj.injEq, true_and] at hv
    obtain ⟨h1, h2⟩ := hv
    refine ⟨fun p hp => ?_, fun p hp => ?_, by rw [h2]; exact ho.order, hc⟩
    · obtain ⟨x, h3, h4⟩ := ho.attr p hp
      rw [h3, ← h4, ← h1]
    · obtain ⟨x, h3, h4⟩ := ho.scal p hp
      rw [h3, ← h4, ← h1]
  · rintro ⟨h1, h2, h3, h4⟩
    refine ⟨⟨_, _⟩, ⟨fun p hp => ?_, fun p hp => ?_, fun k hk => ?_, h3⟩, rfl, h4⟩
    · obtain ⟨x, hx⟩ := hsome (k := p.var) (by rw [hl]; exact List.mem_map_of_mem (List.mem_append_left _ hp))
      exact ⟨x, by rw [h1 p hp, hx], hx⟩
    · obtain ⟨x, hx⟩ := hsome (k := p.var) (by rw [hl]; exact List.mem_map_of_mem (List.mem_append_right _ hp))
      exact ⟨x, by rw [h2 p hp, hx], hx⟩
    · rw [← hl] at hk
      show l.lookup k = _
      rw [hnone hk, hnone]
      intro r
      obtain ⟨a, ha, rfl⟩ := List.mem_map.1 r
      exact hk (hi a ha)

/-- the object with these values of its attributes and scalar elements, in the order of the table -/
def inst (C : Cls) (xs : List PVal) (ord : List (Name × PVal) := []) : PVal :=
  .obj C.name (fun k => (((C.attributes ++ C.scalars).map Param.var).zip xs).lookup k) ord

theorem lookup_zip {ps : List Param} (hp : (ps.map Param.var).Nodup) : ∀ {xs : List PVal}, xs.length = ps.length →
    ∀ {f : Param → Option PVal}, (∀ p ∈ ps, f p = ((ps.map Param.var).zip xs).lookup p.var) ↔
      List.Forall₂ (fun p x => f p = some x) ps xs := by
  induction ps with
  | nil =>
    intro xs hx f
    have : xs = [] := by simpa using hx
    simp [this]
  | cons p ps ih =>
    intro xs hx f
    cases xs with
    | nil => simp at hx
    | cons x xs =>
      rw [List.map_cons, List.nodup_cons] at hp
      rw [List.forall_mem_cons, List.forall₂_cons, ← ih hp.2 (by simpa using hx)]
      simp only [List.map_cons, List.zip_cons_cons, List.lookup_cons_self]
      refine and_congr Iff.rfl (forall₂_congr fun q hq => ?_)
      have : (q.var == p.var) = false := by
        simp only [beq_eq_false_iff_ne, ne_eq]
        intro r
        exact hp.1 (r ▸ List.mem_map_of_mem hq)
      simp [List.lookup, this]

theorem read_rows (hC : C.Proper) {xs ys : List PVal} (hx : xs.length = C.attributes.length) (hy : ys.length = C.scalars.length)
    (hi : ∀ a ∈ C.init, a.1 ∈ (C.attributes ++ C.scalars).map Param.var) {n : Xml} {ord : List (Name × PVal)} :
    C.read n = some (C.inst (xs ++ ys) ord) ↔
      List.Forall₂ (fun p x => attrVal p n = some x) C.attributes xs ∧
      List.Forall₂ (fun p x => scalVal p n = some x) C.scalars ys ∧
      aggVals C.aggregates n.children = some ord ∧ C.check (C.inst (xs ++ ys) ord) = true := by
  have hlen : (xs ++ ys).length = (C.attributes ++ C.scalars).length := by simp [hx, hy]
  have hz : (((C.attributes ++ C.scalars).map Param.var).zip (xs ++ ys)).map Prod.fst = (C.attributes ++ C.scalars).map Param.var := by
    rw [List.map_fst_zip]
    rw [List.length_map, hlen]
  have hv := hC.vars
  rw [List.map_append, List.nodup_append] at hv
  have hnone : ∀ {m : List (Name × PVal)} {k}, k ∉ m.map Prod.fst → m.lookup k = none := by
    intro m k hk
    rw [List.lookup_eq_none_iff]
    intro a ha
    simp only [bne_iff_ne, ne_eq]
    intro r
    exact hk (r ▸ List.mem_map_of_mem ha)
  have hzip : ((C.attributes ++ C.scalars).map Param.var).zip (xs ++ ys) =
      (C.attributes.map Param.var).zip xs ++ (C.scalars.map Param.var).zip ys := by
    rw [List.map_append, List.zip_append (by simp [hx])]
  have hA : ∀ p ∈ C.attributes, (((C.attributes ++ C.scalars).map Param.var).zip (xs ++ ys)).lookup p.var =
      ((C.attributes.map Param.var).zip xs).lookup p.var := by
    intro p hp
    rw [hzip, lookup_append]
    have : ((C.scalars.map Param.var).zip ys).lookup p.var = none := by
      refine hnone ?_
      rw [List.map_fst_zip (by simp [hy])]
      exact fun r => hv.2.2 _ (List.mem_map_of_mem hp) _ r rfl
    rw [this, Option.or_none]
  have hS : ∀ p ∈ C.scalars, (((C.attributes ++ C.scalars).map Param.var).zip (xs ++ ys)).lookup p.var =
      ((C.scalars.map Param.var).zip ys).lookup p.var := by
    intro p hp
    rw [hzip, lookup_append]
    have : ((C.attributes.map Param.var).zip xs).lookup p.var = none := by
      refine hnone ?_
      rw [List.map_fst_zip (by simp [hx])]
      exact fun r => hv.2.2 _ r _ (List.mem_map_of_mem hp) rfl
    rw [this, Option.none_or]
  rw [inst, read_obj_iff hC _ hz (by rw [hz]; exact hi), ← lookup_zip hv.1 hx, ← lookup_zip hv.2.1 hy]
  refine and_congr (forall₂_congr fun p hp => by rw [hA p hp]) (and_congr (forall₂_congr fun p hp => by rw [hS p hp]) Iff.rfl)

theorem aggVals_nil : ∀ cs : List Xml, aggVals [] cs = some []
  | [] => rfl
  | _ :: cs => aggVals_nil cs

/-- for a class without aggregates -/
theorem read_leaf (hC : C.Proper) {xs ys : List PVal} (hx : xs.length = C.attributes.length) (hy : ys.length = C.scalars.length)
    (hi : ∀ a ∈ C.init, a.1 ∈ (C.attributes ++ C.scalars).map Param.var) (hg : C.aggregates = []) {n : Xml} {P Q : Prop}
    (hA : List.Forall₂ (fun p x => attrVal p n = some x) C.attributes xs ↔ P)
    (hS : List.Forall₂ (fun p x => scalVal p n = some x) C.scalars ys ↔ Q)
    (hc : C.check (C.inst (xs ++ ys)) = true) :
    C.read n = some (C.inst (xs ++ ys)) ↔ P ∧ Q := by
  rw [read_rows hC hx hy hi, hA, hS, hg, aggVals_nil]
  simp [hc]

/-- … with a validity check -/
theorem read_leaf_check (hC : C.Proper) {xs ys : List PVal} (hx : xs.length = C.attributes.length)
    (hy : ys.length = C.scalars.length)
    (hi : ∀ a ∈ C.init, a.1 ∈ (C.attributes ++ C.scalars).map Param.var) (hg : C.aggregates = []) {n : Xml} {P Q : Prop}
    {b : Bool} (hA : List.Forall₂ (fun p x => attrVal p n = some x) C.attributes xs ↔ P)
    (hS : List.Forall₂ (fun p x => scalVal p n = some x) C.scalars ys ↔ Q)
    (hc : C.check (C.inst (xs ++ ys)) = b) :
    C.read n = some (C.inst (xs ++ ys)) ↔ P ∧ Q ∧ b = true := by
  rw [read_rows hC hx hy hi, hA, hS, hg, aggVals_nil]
  simp [hc]

end Cls

theorem f2cons {α β : Type} {R : α → β → Prop} {a : α} {b : β} {l : List α} {l' : List β} {P Q : Prop} (h : R a b ↔ P)
    (h' : List.Forall₂ R l l' ↔ Q) : List.Forall₂ R (a :: l) (b :: l') ↔ P ∧ Q := by
  rw [List.forall₂_cons, h, h']

theorem f2nil {α β : Type} {R : α → β → Prop} : List.Forall₂ R [] [] ↔ True := by simp

/-- `rows![h, h']`: a statement about two lists of length two from equivalences for each row -/
syntax "rows![" term,* "]" : term
macro_rules
  | `(rows![]) => `(f2nil)
  | `(rows![$x]) => `(f2cons $x f2nil)
  | `(rows![$x, $xs,*]) => `(f2cons $x rows![$xs,*])

theorem num_inj : Function.Injective PVal.num := fun _ _ h => by simpa using h

namespace U
variable {n : Xml}

theorem num_ne (x : Fl) : PVal.num x ≠ .none := by simp

/-- `Pose` -/
def encPose (F : Fmt) (p : Urdf.Pose) : PVal := (pose F).inst [encV3 p.xyz, encV3 p.rpy]

theorem pose_iff {p : Urdf.Pose} : (pose F).read n = some (encPose F p) ↔ Urdf.readPose F.parse n = .ok p := by
  refine (Cls.read_leaf pose_proper (xs := [_, _]) (ys := []) rfl rfl (of_decide_eq_true rfl) rfl
    rows![attr_dflt (enc := encV3) (d := 0) encV3_inj fun s _ => v3_iff (t := some s),
      attr_dflt (enc := encV3) (d := 0) encV3_inj fun s _ => v3_iff (t := some s)] rows![] rfl).trans ?_
  simp only [Urdf.readPose, bind_eq_ok, pure_ok, Except.ok.injEq, and_true]
  constructor
  · rintro ⟨⟨a, ha, h1⟩, b, hb, h2⟩
    exact ⟨a, ha, b, hb, by rw [h1, h2]⟩
  · rintro ⟨a, ha, b, hb, rfl⟩
    exact ⟨⟨a, ha, rfl⟩, b, hb, rfl⟩

theorem inst_ne {C : Cls} {xs : List PVal} {ord : List (Name × PVal)} : C.inst xs ord ≠ .none := by simp [Cls.inst]
theorem read_nn {C : Cls} (c : Xml) : C.type.fromXml c ≠ some .none := fun h => Cls.read_ne_none h rfl

/-- a float attribute, required -/
theorem rowF {k : Name} {x : Fl} : attrVal { xmlVar := k, vt := floatT F } n = some (.num x) ↔ floatAttr F.parse n k = .ok x := by
  rw [attr_req (enc := PVal.num) (read := fun s => readFloat F.parse (some s)) fun s _ => float_iff (t := some s)]
  simp only [floatAttr, bind_eq_ok, required_ok]

/-- a float attribute with default 0 -/
theorem rowZ {k : Name} {x : Fl} : attrVal { xmlVar := k, vt := floatT F, required := false, dflt := zero } n = some (.num x) ↔
    ∃ o, Urdf.optFloat F.parse n k = .ok o ∧ o.getD (.fin 0) = x :=
  attr_dflt (enc := PVal.num) (d := .fin 0) num_inj fun s _ => float_iff (t := some s)

/-- an optional float attribute -/
theorem rowO {k : Name} {o : Option Fl} : attrVal { xmlVar := k, vt := floatT F, required := false } n = some (encO .num o) ↔
    Urdf.optFloat F.parse n k = .ok o :=
  attr_opt (enc := PVal.num) num_ne (fun _ => float_ne) fun s _ => float_iff (t := some s)

/-- a text attribute, required -/
theorem rowS {k : Name} {x : Name} : attrVal { xmlVar := k, vt := strT F } n = some (.str x) ↔ required (n.attr k) = .ok x := by
  rw [attr_req (enc := PVal.str) (read := fun s => Except.ok s) fun s x => by simp [str_iff, readStr], required_ok]
  simp

/-- `JointLimit` -/
def encLimit (F : Fmt) (m : Urdf.Limit) : PVal := (limit F).inst [.num m.effort, .num m.lower, .num m.upper, .num m.velocity]

theorem limit_iff {m : Urdf.Limit} : (limit F).read n = some (encLimit F m) ↔ Urdf.readLimit F.parse n = .ok m := by
  refine (Cls.read_leaf limit_proper (xs := [_, _, _, _]) (ys := []) rfl rfl (of_decide_eq_true rfl) rfl
    rows![rowF, rowZ, rowZ, rowF] rows![] rfl).trans ?_
  simp only [Urdf.readLimit, bind_eq_ok, pure_ok, Except.ok.injEq, and_true]
  constructor
  · rintro ⟨h1, ⟨a, ha, h2⟩, ⟨b, hb, h3⟩, h4⟩
    exact ⟨_, h1, a, ha, b, hb, _, h4, by rw [h2, h3]⟩
  · rintro ⟨_, h1, a, ha, b, hb, _, h4, rfl⟩
    exact ⟨h1, ⟨a, ha, rfl⟩, ⟨b, hb, rfl⟩, h4⟩

/-- `JointMimic` -/
def encMimic (F : Fmt) (m : Urdf.Mimic) : PVal := (mimic F).inst [.str m.joint, encO .num m.multiplier, encO .num m.offset]

theorem mimic_iff {m : Urdf.Mimic} : (mimic F).read n = some (encMimic F m) ↔ Urdf.readMimic F.parse n = .ok m := by
  refine (Cls.read_leaf mimic_proper (xs := [_, _, _]) (ys := []) rfl rfl (of_decide_eq_true rfl) rfl
    rows![rowS, rowO, rowO] rows![] rfl).trans ?_
  simp only [Urdf.readMimic, bind_eq_ok, pure_ok, Except.ok.injEq, and_true]
  constructor
  · rintro ⟨h1, h2, h3⟩
    exact ⟨_, h1, _, h2, _, h3, rfl⟩
  · rintro ⟨_, h1, _, h2, _, h3, rfl⟩
    exact ⟨h1, h2, h3⟩

/-- `JointDynamics` -/
def encDynamics (F : Fmt) (m : Urdf.Dynamics) : PVal := (dynamics F).inst [encO .num m.damping, encO .num m.friction]

theorem dynamics_iff {m : Urdf.Dynamics} : (dynamics F).read n = some (encDynamics F m) ↔ Urdf.readDynamics F.parse n = .ok m := by
  refine (Cls.read_leaf dynamics_proper (xs := [_, _]) (ys := []) rfl rfl (of_decide_eq_true rfl) rfl
    rows![rowO, rowO] rows![] rfl).trans ?_
  simp only [Urdf.readDynamics, bind_eq_ok, pure_ok, Except.ok.injEq, and_true]
  constructor
  · rintro ⟨h1, h2⟩
    exact ⟨_, h1, _, h2, rfl⟩
  · rintro ⟨_, h1, _, h2, rfl⟩
    exact ⟨h1, h2⟩

/-- `SafetyController` -/
def encSafety (F : Fmt) (m : Urdf.Safety) : PVal :=
  (safety F).inst [.num m.kVelocity, .num m.kPosition, .num m.lower, .num m.upper]

theorem safety_iff {m : Urdf.Safety} : (safety F).read n = some (encSafety F m) ↔ Urdf.readSafety F.parse n = .ok m := by
  refine (Cls.read_leaf safety_proper (xs := [_, _, _, _]) (ys := []) rfl rfl (of_decide_eq_true rfl) rfl
    rows![rowF, rowZ, rowZ, rowZ] rows![] rfl).trans ?_
  simp only [Urdf.readSafety, bind_eq_ok, pure_ok, Except.ok.injEq, and_true]
  constructor
  · rintro ⟨h1, ⟨a, ha, h2⟩, ⟨b, hb, h3⟩, ⟨c, hc, h4⟩⟩
    exact ⟨_, h1, a, ha, b, hb, c, hc, by rw [h2, h3, h4]⟩
  · rintro ⟨_, h1, a, ha, b, hb, c, hc, rfl⟩
    exact ⟨h1, ⟨a, ha, rfl⟩, ⟨b, hb, rfl⟩, ⟨c, hc, rfl⟩⟩

/-- `JointCalibration` -/
def encCalibration (F : Fmt) (m : Urdf.Calibration) : PVal := (calibration F).inst [.num m.rising, .num m.falling]

theorem calibration_iff {m : Urdf.Calibration} :
    (calibration F).read n = some (encCalibration F m) ↔ Urdf.readCalibration F.parse n = .ok m := by
  refine (Cls.read_leaf calibration_proper (xs := [_, _]) (ys := []) rfl rfl (of_decide_eq_true rfl) rfl
    rows![rowZ, rowZ] rows![] rfl).trans ?_
  simp only [Urdf.readCalibration, bind_eq_ok, pure_ok, Except.ok.injEq, and_true]
  constructor
  · rintro ⟨⟨a, ha, h2⟩, ⟨b, hb, h3⟩⟩
    exact ⟨a, ha, b, hb, by rw [h2, h3]⟩
  · rintro ⟨a, ha, b, hb, rfl⟩
    exact ⟨⟨a, ha, rfl⟩, ⟨b, hb, rfl⟩⟩

/-- an optional `<origin>` -/
theorem rowOrigin {o : Option Urdf.Pose} :
    scalVal (originElem F) n = some (encO (encPose F) o) ↔ optional (n.scalar n!"origin") (Urdf.readPose F.parse) = .ok o :=
  scal_opt (enc := encPose F) (fun _ => inst_ne) read_nn fun _ _ => pose_iff

/-- `Joint` -/
def encJoint (F : Fmt) (j : Urdf.Jnt) : PVal :=
  (joint F).inst [.str j.name, .str j.type, encO (encPose F) j.origin, encO encV3 j.axis, .str j.parent, .str j.child,
    encO (encLimit F) j.limit, encO (encDynamics F) j.dynamics, encO (encSafety F) j.safety,
    encO (encCalibration F) j.calibration, encO (encMimic F) j.mimic]

theorem rowAxis {o : Option V3} :
    scalVal { xmlVar := n!"axis", vt := simpleT n!"xyz" (vecT F 3), required := false } n = some (encO encV3 o) ↔
      optional (n.scalar n!"axis") (fun a => readV3 F.parse (a.attr n!"xyz")) = .ok o := by
  refine scal_opt (enc := encV3) encV3_ne (fun c h => ?_) fun c _ => v3_iff
  simp only [simpleT] at h
  cases e : c.attr n!"xyz" with
  | none => simp [e, vecT, VType.ofString] at h
  | some s => exact vec_ne (e ▸ h)

theorem rowRef {k a x : Name} :
    scalVal { xmlVar := k, vt := simpleT a (strT F) } n = some (.str x) ↔ ∃ c, n.scalar k = some c ∧ readStr (c.attr a) = x := by
  have := scal_req (vt := simpleT a (strT F)) (k := k) (n := n) (x := x) (enc := PVal.str)
    (read := fun c => Except.ok (readStr (c.attr a))) fun c x => by simp [simpleT, str_iff]
  simpa using this

theorem joint_iff {j : Urdf.Jnt} : (joint F).read n = some (encJoint F j) ↔ Urdf.readJoint F.parse n = .ok j := by
  refine (Cls.read_leaf_check joint_proper (xs := [_, _]) (ys := [_, _, _, _, _, _, _, _, _]) rfl rfl (of_decide_eq_true rfl)
    rfl (b := jointTypes.contains j.type) rows![rowS, rowS] rows![rowOrigin, rowAxis, rowRef, rowRef,
    scal_opt (enc := encLimit F) (fun _ => inst_ne) read_nn fun _ _ => limit_iff,
    scal_opt (enc := encDynamics F) (fun _ => inst_ne) read_nn fun _ _ => dynamics_iff,
    scal_opt (enc := encSafety F) (fun _ => inst_ne) read_nn fun _ _ => safety_iff,
    scal_opt (enc := encCalibration F) (fun _ => inst_ne) read_nn fun _ _ => calibration_iff,
    scal_opt (enc := encMimic F) (fun _ => inst_ne) read_nn fun _ _ => mimic_iff] rfl).trans ?_
  simp only [Urdf.readJoint, bind_eq_ok, required_ok, and_true, List.contains_eq_mem, decide_eq_true_eq]
  constructor
  · rintro ⟨⟨h1, h2⟩, ⟨h3, h4, ⟨c1, h5, h5'⟩, ⟨c2, h6, h6'⟩, h7, h8, h9, h10, h11⟩, h12⟩
    refine ⟨_, h1, _, h2, _, h3, _, h4, _, h5, _, h6, _, h7, _, h8, _, h9, _, h10, _, h11, ?_⟩
    rw [if_pos (show j.type ∈ Urdf.jointTypes from h12), h5', h6', pure_ok]
  · rintro ⟨_, h1, _, h2, _, h3, _, h4, _, h5, _, h6, _, h7, _, h8, _, h9, _, h10, _, h11, h⟩
    split at h
    · next ht =>
      rw [pure_ok, Except.ok.injEq] at h
      subst h
      exact ⟨⟨h1, h2⟩, ⟨h3, h4, ⟨_, h5, rfl⟩, ⟨_, h6, rfl⟩, h7, h8, h9, h10, h11⟩, ht⟩
    · cases h

/-- the alternatives of a geometry -/
def encGeom (F : Fmt) : Urdf.Geom → PVal
  | .box s => (box F).inst [encV3 s]
  | .cylinder r l => (cylinder F).inst [.num r, .num l]
  | .sphere r => (sphere F).inst [.num r]
  | .mesh f s => (mesh F).inst [.str f, encO encV3 s]
  | .capsule r l => (capsule F).inst [.num r, .num l]

theorem box_iff {v : V3} : (box F).read n = some (encGeom F (.box v)) ↔
    ∃ s, required (n.attr n!"size") = .ok s ∧ readV3 F.parse (some s) = .ok v := by
  refine (Cls.read_leaf box_proper (xs := [_]) (ys := []) rfl rfl (of_decide_eq_true rfl) rfl
    rows![attr_req (enc := encV3) (read := fun s => readV3 F.parse (some s)) fun s _ => v3_iff (t := some s)] rows![] rfl).trans ?_
  simp only [required_ok, and_true]

theorem cylinder_iff {r l : Fl} : (cylinder F).read n = some (encGeom F (.cylinder r l)) ↔
    floatAttr F.parse n n!"radius" = .ok r ∧ floatAttr F.parse n n!"length" = .ok l := by
  refine (Cls.read_leaf cylinder_proper (xs := [_, _]) (ys := []) rfl rfl (of_decide_eq_true rfl) rfl
    rows![rowF, rowF] rows![] rfl).trans ?_
  simp only [and_true]

theorem capsule_iff {r l : Fl} : (capsule F).read n = some (encGeom F (.capsule r l)) ↔
    floatAttr F.parse n n!"radius" = .ok r ∧ floatAttr F.parse n n!"length" = .ok l := by
  refine (Cls.read_leaf capsule_proper (xs := [_, _]) (ys := []) rfl rfl (of_decide_eq_true rfl) rfl
    rows![rowF, rowF] rows![] rfl).trans ?_
  simp only [and_true]

theorem sphere_iff {r : Fl} : (sphere F).read n = some (encGeom F (.sphere r)) ↔ floatAttr F.parse n n!"radius" = .ok r := by
  refine (Cls.read_leaf sphere_proper (xs := [_]) (ys := []) rfl rfl (of_decide_eq_true rfl) rfl
    rows![rowF] rows![] rfl).trans ?_
  simp only [and_true]

theorem mesh_iff {f : Name} {o : Option V3} : (mesh F).read n = some (encGeom F (.mesh f o)) ↔
    required (n.attr n!"filename") = .ok f ∧ optional (n.attr n!"scale") (fun s => readV3 F.parse (some s)) = .ok o := by
  refine (Cls.read_leaf mesh_proper (xs := [_, _]) (ys := []) rfl rfl (of_decide_eq_true rfl) rfl
    rows![rowS, attr_opt (enc := encV3) encV3_ne (fun _ => vec_ne) fun s _ => v3_iff (t := some s)] rows![] rfl).trans ?_
  simp only [and_true]

theorem read_other {C D : Cls} (h : C.name ≠ D.name) {xs : List PVal} : C.read n ≠ some (D.inst xs) := by
  intro r
  have := read_cls r
  simp only [Cls.inst, PVal.cls, Option.some.injEq] at this
  exact h this.symm

theorem geometries_lookup {t : Name} : (geometries F).lookup t = if t = n!"box" then some (box F) else
    if t = n!"cylinder" then some (cylinder F) else if t = n!"sphere" then some (sphere F) else
    if t = n!"mesh" then some (mesh F) else if t = n!"capsule" then some (capsule F) else none := by
  simp only [geometries, List.lookup]
  repeat' split
  all_goals simp_all

theorem geom_iff {g : Urdf.Geom} : (geometricT (geometries F)).fromXml n = some (encGeom F g) ↔ Urdf.readGeom F.parse n = .ok g := by
  simp only [geometricT, Urdf.readGeom, geometries_lookup]
  generalize n.children = cs
  match cs with
  | [] => simp
  | _ :: _ :: _ => simp
  | [c] =>
    simp only
    split_ifs
    · simp only [Option.bind_some, bind_eq_ok, pure_ok, Except.ok.injEq]
      cases g with
      | box v => simp only [box_iff, Urdf.Geom.box.injEq, exists_eq_right]
      | _ => simpa [encGeom] using read_other (of_decide_eq_true rfl)
    · simp only [Option.bind_some, bind_eq_ok, pure_ok, Except.ok.injEq]
      cases g with
      | cylinder r l => simp [cylinder_iff]
      | _ => simpa [encGeom] using read_other (of_decide_eq_true rfl)
    · simp only [Option.bind_some, bind_eq_ok, pure_ok, Except.ok.injEq]
      cases g with
      | sphere r => simp [sphere_iff]
      | _ => simpa [encGeom] using read_other (of_decide_eq_true rfl)
    · simp only [Option.bind_some, bind_eq_ok, pure_ok, Except.ok.injEq]
      cases g with
      | mesh f o => simp [mesh_iff]
      | _ => simpa [encGeom] using read_other (of_decide_eq_true rfl)
    · simp only [Option.bind_some, bind_eq_ok, pure_ok, Except.ok.injEq]
      cases g with
      | capsule r l => simp [capsule_iff]
      | _ => simpa [encGeom] using read_other (of_decide_eq_true rfl)
    · simp

/-- `Color` -/
def encColor (F : Fmt) (c : Fin 4 → ℝ) : PVal := (color F).inst [encVec [c 0, c 1, c 2, c 3]]

theorem color_iff {c : Fin 4 → ℝ} : (color F).read n = some (encColor F c) ↔
    (do let s ← required (n.attr n!"rgba")
        let l ← readVec F.parse 4 (some s)
        pure fun i : Fin 4 => l.getD i 0 : Except Err (Fin 4 → ℝ)) = .ok c := by
  refine (Cls.read_leaf color_proper (xs := [_]) (ys := []) rfl rfl (of_decide_eq_true rfl) rfl
    rows![attr_req (enc := encVec) (read := fun s => readVec F.parse 4 (some s)) fun s _ => vec_iff (t := some s)] rows![] rfl).trans ?_
  simp only [bind_eq_ok, required_ok, and_true, pure_ok, Except.ok.injEq]
  refine exists_congr fun s => and_congr Iff.rfl ⟨fun h => ⟨_, h, ?_⟩, ?_⟩
  · funext i
    fin_cases i <;> rfl
  · rintro ⟨l, hl, rfl⟩
    have hlen := readVec_length hl
    match l, hlen with
    | [a, b, c, d], _ => exact hl

/-- `Texture` -/
def encTexture (F : Fmt) (s : Name) : PVal := (texture F).inst [.str s]

theorem texture_iff {s : Name} : (texture F).read n = some (encTexture F s) ↔ required (n.attr n!"filename") = .ok s := by
  refine (Cls.read_leaf texture_proper (xs := [_]) (ys := []) rfl rfl (of_decide_eq_true rfl) rfl
    rows![rowS] rows![] rfl).trans ?_
  simp only [and_true]

/-- `Material` -/
def encMaterial (F : Fmt) (m : Urdf.Material) : PVal :=
  (material F).inst [.str m.name, encO (encColor F) m.color, encO (encTexture F) m.texture]
/-- `LinkMaterial` -/
def encLinkMaterial (F : Fmt) (m : Urdf.Material) : PVal :=
  (linkMaterial F).inst [.str m.name, encO (encColor F) m.color, encO (encTexture F) m.texture]

theorem material_iff {m : Urdf.Material} : (material F).read n = some (encMaterial F m) ↔ Urdf.readMaterial F.parse n = .ok m := by
  refine (Cls.read_leaf material_proper (xs := [_]) (ys := [_, _]) rfl rfl (of_decide_eq_true rfl) rfl
    rows![rowS] rows![scal_opt (enc := encColor F) (fun _ => inst_ne) read_nn fun _ _ => color_iff,
      scal_opt (enc := encTexture F) (fun _ => inst_ne) read_nn fun _ _ => texture_iff] rfl).trans ?_
  simp only [Urdf.readMaterial]
  rw [bind_eq_ok]
  simp only [bind_eq_ok (x := optional _ _), pure_ok, Except.ok.injEq, and_true]
  constructor
  · rintro ⟨h1, h2, h3⟩
    exact ⟨_, h1, _, h2, _, h3, rfl⟩
  · rintro ⟨_, h1, _, h2, _, h3, rfl⟩
    exact ⟨h1, h2, h3⟩

theorem linkMaterial_iff {m : Urdf.Material} :
    (linkMaterial F).read n = some (encLinkMaterial F m) ↔ Urdf.readMaterial F.parse n = .ok m := by
  refine (Cls.read_leaf linkMaterial_proper (xs := [_]) (ys := [_, _]) rfl rfl (of_decide_eq_true rfl) rfl
    rows![rowS] rows![scal_opt (enc := encColor F) (fun _ => inst_ne) read_nn fun _ _ => color_iff,
      scal_opt (enc := encTexture F) (fun _ => inst_ne) read_nn fun _ _ => texture_iff] rfl).trans ?_
  rw [← material_iff]
  exact (Cls.read_leaf material_proper (xs := [_]) (ys := [_, _]) rfl rfl (of_decide_eq_true rfl) rfl
    rows![rowS] rows![scal_opt (enc := encColor F) (fun _ => inst_ne) read_nn fun _ _ => color_iff,
      scal_opt (enc := encTexture F) (fun _ => inst_ne) read_nn fun _ _ => texture_iff] rfl).symm

/-- a `<geometry>`, required -/
theorem rowGeom {g : Urdf.Geom} :
    scalVal { xmlVar := n!"geometry", vt := geometricT (geometries F) } n = some (encGeom F g) ↔
      ∃ c, n.scalar n!"geometry" = some c ∧ Urdf.readGeom F.parse c = .ok g :=
  scal_req (enc := encGeom F) fun _ _ => geom_iff

/-- `Visual` -/
def encVisual (F : Fmt) (v : Urdf.Vis) : PVal :=
  (visual F).inst [encO (encPose F) v.origin, encGeom F v.geometry, encO (encLinkMaterial F) v.material]

theorem visual_iff {v : Urdf.Vis} : (visual F).read n = some (encVisual F v) ↔ Urdf.readVisual F.parse n = .ok v := by
  refine (Cls.read_leaf visual_proper (xs := []) (ys := [_, _, _]) rfl rfl (of_decide_eq_true rfl) rfl
    rows![] rows![rowOrigin, rowGeom,
      scal_opt (enc := encLinkMaterial F) (fun _ => inst_ne) read_nn fun _ _ => linkMaterial_iff] rfl).trans ?_
  simp only [Urdf.readVisual, bind_eq_ok, required_ok, pure_ok, Except.ok.injEq, and_true, true_and]
  constructor
  · rintro ⟨h1, ⟨c, h2, h3⟩, h4⟩
    exact ⟨_, h1, _, h2, _, h3, _, h4, rfl⟩
  · rintro ⟨_, h1, _, h2, _, h3, _, h4, rfl⟩
    exact ⟨h1, ⟨_, h2, h3⟩, h4⟩

/-- `Collision` -/
def encCollision (F : Fmt) (v : Urdf.Coll) : PVal := (collision F).inst [encO (encPose F) v.origin, encGeom F v.geometry]

theorem collision_iff {v : Urdf.Coll} : (collision F).read n = some (encCollision F v) ↔ Urdf.readCollision F.parse n = .ok v := by
  refine (Cls.read_leaf collision_proper (xs := []) (ys := [_, _]) rfl rfl (of_decide_eq_true rfl) rfl
    rows![] rows![rowOrigin, rowGeom] rfl).trans ?_
  simp only [Urdf.readCollision, bind_eq_ok, required_ok, pure_ok, Except.ok.injEq, and_true, true_and]
  constructor
  · rintro ⟨h1, ⟨c, h2, h3⟩⟩
    exact ⟨_, h1, _, h2, _, h3, rfl⟩
  · rintro ⟨_, h1, _, h2, _, h3, rfl⟩
    exact ⟨h1, ⟨_, h2, h3⟩⟩

/-- `Inertia` -/
def encInertia (F : Fmt) (i : Fin 6 → Fl) : PVal :=
  (inertia F).inst [.num (i 0), .num (i 1), .num (i 2), .num (i 3), .num (i 4), .num (i 5)]

theorem inertia_iff {i : Fin 6 → Fl} : (inertia F).read n = some (encInertia F i) ↔ Urdf.readInertia F.parse n = .ok i := by
  refine (Cls.read_leaf inertia_proper (xs := [_, _, _, _, _, _]) (ys := []) rfl rfl (of_decide_eq_true rfl) rfl
    rows![rowF, rowF, rowF, rowF, rowF, rowF] rows![] rfl).trans ?_
  simp only [Urdf.readInertia, bind_eq_ok, pure_ok, Except.ok.injEq, and_true]
  constructor
  · rintro ⟨h1, h2, h3, h4, h5, h6⟩
    refine ⟨_, h1, _, h2, _, h3, _, h4, _, h5, _, h6, ?_⟩
    funext j
    fin_cases j <;> rfl
  · rintro ⟨_, h1, _, h2, _, h3, _, h4, _, h5, _, h6, rfl⟩
    exact ⟨h1, h2, h3, h4, h5, h6⟩

/-- `Inertial` -/
def encInertial (F : Fmt) (i : Urdf.Inertial) : PVal :=
  (inertial F).inst [encO (encPose F) i.origin, .num i.mass, encO (encInertia F) i.inertia]

theorem inertial_iff {i : Urdf.Inertial} : (inertial F).read n = some (encInertial F i) ↔ Urdf.readInertial F.parse n = .ok i := by
  refine (Cls.read_leaf inertial_proper (xs := []) (ys := [_, _, _]) rfl rfl (of_decide_eq_true rfl) rfl
    rows![] rows![rowOrigin,
      scal_req (enc := PVal.num) (read := fun c => readFloat F.parse (c.attr n!"value")) fun c _ => float_iff,
      scal_opt (enc := encInertia F) (fun _ => inst_ne) read_nn fun _ _ => inertia_iff] rfl).trans ?_
  simp only [Urdf.readInertial, bind_eq_ok, required_ok, pure_ok, Except.ok.injEq, and_true, true_and]
  constructor
  · rintro ⟨h1, ⟨c, h2, h3⟩, h4⟩
    exact ⟨_, h1, _, h2, _, h3, _, h4, rfl⟩
  · rintro ⟨_, h1, _, h2, _, h3, _, h4, rfl⟩
    exact ⟨h1, ⟨_, h2, h3⟩, h4⟩

end U

/-- the values of the aggregates with this tag -/
def vals (k : Name) (ord : List (Name × PVal)) : List PVal := (ord.filter fun a => a.1 == k).map Prod.snd

theorem agg_vals {ps : List Param} (hn : (ps.map Param.xmlVar).Nodup) {p : Param} (hp : p ∈ ps) :
    ∀ {cs : List Xml} {ord : List (Name × PVal)}, aggVals ps cs = some ord →
      (cs.filter fun c => c.tag == p.xmlVar).mapM p.vt.fromXml = some (vals p.xmlVar ord) := by
  intro cs
  induction cs with
  | nil =>
    intro ord h
    simp only [aggVals, Option.some.injEq] at h
    simp [← h, vals]
  | cons c cs ih =>
    intro ord h
    simp only [aggVals] at h
    split at h
    · next e =>
      have : (c.tag == p.xmlVar) = false := by
        simp only [beq_eq_false_iff_ne, ne_eq]
        intro r
        exact paramOf_none.1 e (r ▸ List.mem_map_of_mem hp)
      rw [List.filter_cons_of_neg (by simp [this])]
      exact ih h
    · next q e =>
      simp only [Option.bind_eq_bind, Option.bind_eq_some_iff, Option.some.injEq] at h
      obtain ⟨v, hv, l, hl, rfl⟩ := h
      obtain ⟨hq, hqt⟩ := paramOf_mem e
      by_cases hcp : c.tag = p.xmlVar
      · have : q = p := by
          rw [hcp, paramOf_eq hn hp] at e
          exact (Option.some.inj e).symm
        subst this
        rw [List.filter_cons_of_pos (by simp [hcp]), List.mapM_cons, hv, ih hl]
        simp [vals, hcp]
      · rw [List.filter_cons_of_neg (by simp [hcp]), ih hl]
        simp [vals, hcp]

theorem agg_some {ps : List Param} : ∀ {cs : List Xml},
    (∀ p ∈ ps, ∀ c ∈ cs, c.tag = p.xmlVar → (p.vt.fromXml c).isSome) → ∃ ord, aggVals ps cs = some ord := by
  intro cs
  induction cs with
  | nil => exact fun _ => ⟨_, rfl⟩
  | cons c cs ih =>
    intro h
    obtain ⟨ord, ho⟩ := ih fun p hp d hd => h p hp d (List.mem_cons_of_mem _ hd)
    simp only [aggVals]
    split
    · exact ⟨_, ho⟩
    · next q e =>
      obtain ⟨hq, hqt⟩ := paramOf_mem e
      obtain ⟨v, hv⟩ := Option.isSome_iff_exists.1 (h q hq c (List.mem_cons_self ..) hqt.symm)
      exact ⟨(c.tag, v) :: ord, by simp [hv, ho]⟩

theorem mapM_rel {α : Type} {read : Xml → Except Err α} {rd : Xml → Option PVal} {R : PVal → α → Prop}
    (h : ∀ c x, read c = .ok x ↔ ∃ v, rd c = some v ∧ R v x) {l : List Xml} : ∀ {xs : List α},
    l.mapM read = .ok xs ↔ ∃ vs, l.mapM rd = some vs ∧ List.Forall₂ R vs xs := by
  induction l with
  | nil =>
    intro xs
    cases xs <;> simp [pure_ok]
  | cons c l ih =>
    intro xs
    rw [List.mapM_cons, bind_eq_ok]
    simp only [List.mapM_cons, bind_eq_ok, pure_ok, Except.ok.injEq, Option.bind_eq_bind, Option.bind_eq_some_iff,
      Option.pure_def, Option.some.injEq, h, ih]
    constructor
    · rintro ⟨x, ⟨v, h1, h2⟩, ys, ⟨vs, h3, h4⟩, rfl⟩
      exact ⟨_, ⟨v, h1, vs, h3, rfl⟩, .cons h2 h4⟩
    · rintro ⟨_, ⟨v, h1, vs, h3, rfl⟩, h4⟩
      cases h4 with
      | cons h5 h6 => exact ⟨_, ⟨v, h1, h5⟩, _, ⟨vs, h3, h6⟩, rfl⟩

theorem forall₂_map {α : Type} {enc : α → PVal} : ∀ {vs : List PVal} {xs : List α},
    List.Forall₂ (fun v x => v = enc x) vs xs ↔ vs = xs.map enc := by
  intro vs
  induction vs with
  | nil => intro xs; cases xs <;> simp
  | cons v vs ih => intro xs; cases xs <;> simp [ih]

theorem mapM_enc {α : Type} {read : Xml → Except Err α} {rd : Xml → Option PVal} {enc : α → PVal}
    (h : ∀ c x, rd c = some (enc x) ↔ read c = .ok x) {l : List Xml} {xs : List α} :
    l.mapM read = .ok xs ↔ l.mapM rd = some (xs.map enc) := by
  rw [mapM_rel (R := fun v x => v = enc x) (rd := rd) fun c x => by rw [← h]; simp]
  simp [forall₂_map]

theorem mapM_isSome {rd : Xml → Option PVal} {l : List Xml} {vs : List PVal} (h : l.mapM rd = some vs) :
    ∀ c ∈ l, (rd c).isSome := by
  induction l generalizing vs with
  | nil => simp
  | cons a l ih =>
    simp only [List.mapM_cons, Option.bind_eq_bind, Option.bind_eq_some_iff] at h
    obtain ⟨v, hv, ws, hw, _⟩ := h
    intro c hc
    rcases List.mem_cons.1 hc with rfl | hc
    · simp [hv]
    · exact ih hw c hc

/-- if the check depends on the aggregates only -/
theorem Cls.read_isSome {C : Cls} (hC : C.Proper) {chk : List (Name × PVal) → Bool}
    (hc : ∀ f ord, C.check (.obj C.name f ord) = chk ord) {n : Xml} :
    (C.read n).isSome ↔ (∀ p ∈ C.attributes, (attrVal p n).isSome) ∧ (∀ p ∈ C.scalars, (scalVal p n).isSome) ∧
      ∃ ord, aggVals C.aggregates n.children = some ord ∧ chk ord = true := by
  rw [Option.isSome_iff_exists]
  constructor
  · rintro ⟨v, hv⟩
    obtain ⟨o, ho, rfl, hk⟩ := (read_iff hC).1 hv
    refine ⟨fun p hp => ?_, fun p hp => ?_, o.order, ho.order, by rw [← hk, hc]⟩
    · obtain ⟨x, hx, _⟩ := ho.attr p hp
      simp [hx]
    · obtain ⟨x, hx, _⟩ := ho.scal p hp
      simp [hx]
  · rintro ⟨h1, h2, ord, h3, h4⟩
    have hv := hC.vars
    rw [List.map_append, List.nodup_append] at hv
    have find : ∀ {ps : List Param}, (ps.map Param.var).Nodup → ∀ {p}, p ∈ ps → (ps.find? fun q => q.var == p.var) = some p := by
      intro ps
      induction ps with
      | nil => intro _ p hp; cases hp
      | cons a ps ih =>
        intro hn p hp
        rw [List.map_cons, List.nodup_cons] at hn
        rcases List.mem_cons.1 hp with rfl | hp
        · simp
        · rw [List.find?_cons_of_neg, ih hn.2 hp]
          simp only [beq_iff_eq]
          exact fun r => hn.1 (r ▸ List.mem_map_of_mem hp)
    have miss : ∀ {ps : List Param} {k}, k ∉ ps.map Param.var → (ps.find? fun q => q.var == k) = none := by
      intro ps k hk
      simp only [List.find?_eq_none, beq_iff_eq]
      exact fun q hq r => hk (r ▸ List.mem_map_of_mem hq)
    let f : Name → Option PVal := fun k => ((C.attributes.find? fun q => q.var == k).bind fun p => attrVal p n).or
      (((C.scalars.find? fun q => q.var == k).bind fun p => scalVal p n).or (C.init.lookup k))
    refine ⟨_, (read_iff hC).2 ⟨⟨f, ord⟩, ⟨fun p hp => ?_, fun p hp => ?_, fun k hk => ?_, h3⟩, rfl, by rw [hc, h4]⟩⟩
    · obtain ⟨x, hx⟩ := Option.isSome_iff_exists.1 (h1 p hp)
      exact ⟨x, hx, by simp [f, find hv.1 hp, hx]⟩
    · obtain ⟨x, hx⟩ := Option.isSome_iff_exists.1 (h2 p hp)
      refine ⟨x, hx, ?_⟩
      have : p.var ∉ C.attributes.map Param.var := fun r => hv.2.2 _ r _ (List.mem_map_of_mem hp) rfl
      simp [f, miss this, find hv.2.1 hp, hx]
    · rw [List.map_append, List.mem_append, not_or] at hk
      simp [f, miss hk.1, miss hk.2]

theorem attrVal_req {k : Name} {vt : VType} {n : Xml} : (attrVal { xmlVar := k, vt := vt } n).isSome ↔
    ∃ s, n.attr k = some s ∧ (vt.fromString (some s)).isSome := by
  simp only [attrVal]
  cases n.attr k <;> simp

theorem scalVal_req {k : Name} {vt : VType} {n : Xml} : (scalVal { xmlVar := k, vt := vt } n).isSome ↔
    ∃ c, n.scalar k = some c ∧ (vt.fromXml c).isSome := by
  simp only [scalVal]
  cases n.scalar k <;> simp

theorem scalVal_opt {k : Name} {vt : VType} {n : Xml} : (scalVal { xmlVar := k, vt := vt, required := false } n).isSome ↔
    ∀ c, n.scalar k = some c → (vt.fromXml c).isSome := by
  simp only [scalVal]
  cases n.scalar k <;> simp

theorem float_isSome {t : Option Name} : ((floatT F).fromString t).isSome ↔ ∃ s, t = some s ∧ Spec.IsNum F.parse s := by
  cases t with
  | none => simp [floatT, VType.ofString]
  | some s => cases e : F.parse s <;> simp [floatT, VType.ofString, Spec.IsNum, e]

theorem some?_iff {ps : List Param} (hn : (ps.map Param.xmlVar).Nodup) {p : Param} (hp : p ∈ ps) {n : Xml}
    {ord : List (Name × PVal)} (h : aggVals ps n.children = some ord) :
    (ord.any fun a => a.1 == p.xmlVar) = true ↔ n.aggregate p.xmlVar ≠ [] := by
  have := (mapM_some_mem (agg_vals hn hp h)).1
  have e : n.aggregate p.xmlVar = [] ↔ vals p.xmlVar ord = [] := by
    rw [← List.length_eq_zero_iff, ← List.length_eq_zero_iff, this]
    rfl
  rw [ne_eq, e, vals, List.map_eq_nil_iff, List.filter_eq_nil_iff, List.any_eq_true]
  simp

namespace U
variable {n : Xml}

/-- the object is this link -/
def LinkIs (F : Fmt) (v : PVal) (l : Urdf.Lnk) : Prop :=
  ∃ ord, v = (link F).inst [.str l.name, encO (encPose F) l.origin, encO (encInertial F) l.inertial] ord ∧
    vals n!"visual" ord = l.visuals.map (encVisual F) ∧ vals n!"collision" ord = l.collisions.map (encCollision F)

theorem link_rows {a : Name} {p : Option Urdf.Pose} {i : Option Urdf.Inertial} {ord : List (Name × PVal)} :
    (link F).read n = some ((link F).inst [.str a, encO (encPose F) p, encO (encInertial F) i] ord) ↔
      required (n.attr n!"name") = .ok a ∧ optional (n.scalar n!"origin") (Urdf.readPose F.parse) = .ok p ∧
      optional (n.scalar n!"inertial") (Urdf.readInertial F.parse) = .ok i ∧
      aggVals (link F).aggregates n.children = some ord := by
  refine (Cls.read_rows link_proper (xs := [_]) (ys := [_, _]) rfl rfl (of_decide_eq_true rfl)).trans ?_
  have h1 : List.Forall₂ (fun p x => attrVal p n = some x) (link F).attributes [PVal.str a] ↔ _ := rows![rowS]
  have h2 : List.Forall₂ (fun p x => scalVal p n = some x) (link F).scalars [encO (encPose F) p, encO (encInertial F) i] ↔ _ :=
    rows![rowOrigin, scal_opt (enc := encInertial F) (fun _ => inst_ne) read_nn fun _ _ => inertial_iff]
  rw [h1, h2]
  have h3 : (link F).check ((link F).inst ([.str a] ++ [encO (encPose F) p, encO (encInertial F) i]) ord) = true := rfl
  rw [h3]
  simp only [and_true, and_assoc]

theorem link_iff {l : Urdf.Lnk} : Urdf.readLink F.parse n = .ok l ↔ ∃ v, (link F).read n = some v ∧ LinkIs F v l := by
  have hn : ((link F).aggregates.map Param.xmlVar).Nodup := of_decide_eq_true rfl
  simp only [Urdf.readLink, bind_eq_ok, pure_ok, Except.ok.injEq]
  constructor
  · rintro ⟨a, h1, p, h2, vs, h3, cs, h4, i, h5, rfl⟩
    rw [mapM_enc (fun _ _ => visual_iff)] at h3
    rw [mapM_enc (fun _ _ => collision_iff)] at h4
    obtain ⟨ord, ho⟩ := agg_some (ps := (link F).aggregates) (cs := n.children) all![
      fun c hc ht => mapM_isSome h3 c (List.mem_filter.2 ⟨hc, by simpa using ht⟩),
      fun c hc ht => mapM_isSome h4 c (List.mem_filter.2 ⟨hc, by simpa using ht⟩)]
    refine ⟨_, link_rows.2 ⟨h1, h2, h5, ho⟩, ord, rfl, ?_, ?_⟩
    · have := agg_vals hn (p := { xmlVar := n!"visual", vt := (visual F).type, required := false, var := n!"visuals" })
        (by simp [link]) ho
      exact Option.some.inj (this.symm.trans h3)
    · have := agg_vals hn (p := { xmlVar := n!"collision", vt := (collision F).type, required := false, var := n!"collisions" })
        (by simp [link]) ho
      exact Option.some.inj (this.symm.trans h4)
  · rintro ⟨v, hv, ord, rfl, h1, h2⟩
    obtain ⟨h3, h4, h5, h6⟩ := link_rows.1 hv
    refine ⟨_, h3, _, h4, l.visuals, ?_, l.collisions, ?_, _, h5, rfl⟩
    · rw [mapM_enc (fun _ _ => visual_iff), ← h1]
      exact agg_vals hn (p := { xmlVar := n!"visual", vt := (visual F).type, required := false, var := n!"visuals" })
        (by simp [link]) h6
    · rw [mapM_enc (fun _ _ => collision_iff), ← h2]
      exact agg_vals hn (p := { xmlVar := n!"collision", vt := (collision F).type, required := false, var := n!"collisions" })
        (by simp [link]) h6

open Spec in
theorem transmissionJoint_isSome : ((transmissionJoint F).read n).isSome ↔
    HasAttr n n!"name" anyName ∧ n.aggregate n!"hardwareInterface" ≠ [] := by
  have hn : ((transmissionJoint F).aggregates.map Param.xmlVar).Nodup := of_decide_eq_true rfl
  rw [Cls.read_isSome transmissionJoint_proper (chk := fun ord => ord.any fun a => a.1 == n!"hardwareInterface") fun _ _ => rfl]
  obtain ⟨ord, ho⟩ := agg_some (ps := (transmissionJoint F).aggregates) (cs := n.children) all![fun c hc ht => rfl]
  have := some?_iff hn
    (p := { xmlVar := n!"hardwareInterface", vt := strT F, required := false, var := n!"hardwareInterfaces" })
    (by simp [transmissionJoint]) ho
  rw [← this]
  constructor
  · rintro ⟨h1, _, o, h2, h3⟩
    obtain ⟨s, hs, _⟩ := attrVal_req.1 (h1 (nameAttr F) (by simp [transmissionJoint]))
    rw [ho] at h2
    obtain rfl := Option.some.inj h2
    exact ⟨⟨s, hs, trivial⟩, h3⟩
  · rintro ⟨⟨s, hs, _⟩, h3⟩
    exact ⟨all![attrVal_req.2 ⟨s, hs, rfl⟩], all![], ord, ho, h3⟩

open Spec in
theorem actuator_isSome : ((actuator F).read n).isSome ↔
    HasAttr n n!"name" anyName ∧ OptChild n n!"mechanicalReduction" (HasText (IsNum F.parse)) := by
  rw [Cls.read_isSome actuator_proper (chk := fun _ => true) fun _ _ => rfl, show (actuator F).aggregates = [] from rfl,
    Cls.aggVals_nil]
  constructor
  · rintro ⟨h1, h2, _⟩
    obtain ⟨s, hs, _⟩ := attrVal_req.1 (h1 (nameAttr F) (by simp [actuator]))
    have := scalVal_opt.1 (h2 { xmlVar := n!"mechanicalReduction", vt := floatT F, required := false } (by simp [actuator]))
    exact ⟨⟨s, hs, trivial⟩, fun c hc => float_isSome.1 (this c hc)⟩
  · rintro ⟨⟨s, hs, _⟩, h2⟩
    exact ⟨all![attrVal_req.2 ⟨s, hs, rfl⟩], all![scalVal_opt.2 fun c hc => float_isSome.2 (h2 c hc)], _, rfl, rfl⟩

open Spec in
theorem transmission_isSome : ((transmission F).read n).isSome ↔
    (HasAttr n n!"name" anyName ∧ HasChild n n!"type" anyXml ∧
    (n.aggregate n!"joint" ≠ [] ∧ EachChild n n!"joint" fun j => HasAttr j n!"name" anyName ∧
      j.aggregate n!"hardwareInterface" ≠ []) ∧
    (n.aggregate n!"actuator" ≠ [] ∧ EachChild n n!"actuator" fun a => HasAttr a n!"name" anyName ∧
      OptChild a n!"mechanicalReduction" (HasText (IsNum F.parse)))) := by
  have hn : ((transmission F).aggregates.map Param.xmlVar).Nodup := of_decide_eq_true rfl
  rw [Cls.read_isSome transmission_proper
    (chk := fun ord => (ord.any fun a => a.1 == n!"joint") && (ord.any fun a => a.1 == n!"actuator")) fun _ _ => rfl]
  have hj : { xmlVar := n!"joint", vt := (transmissionJoint F).type, required := false, var := n!"joints" } ∈
    (transmission F).aggregates := by simp [transmission]
  have ha : { xmlVar := n!"actuator", vt := (actuator F).type, required := false, var := n!"actuators" } ∈
    (transmission F).aggregates := by simp [transmission]
  constructor
  · rintro ⟨h1, h2, ord, h3, h4⟩
    obtain ⟨s, hs, _⟩ := attrVal_req.1 (h1 (nameAttr F) (by simp [transmission]))
    obtain ⟨c, hc, _⟩ := scalVal_req.1 (h2 { xmlVar := n!"type", vt := strT F } (by simp [transmission]))
    rw [Bool.and_eq_true] at h4
    refine ⟨⟨s, hs, trivial⟩, ⟨c, hc, trivial⟩, ⟨(some?_iff hn hj h3).1 h4.1, fun d hd => ?_⟩,
      (some?_iff hn ha h3).1 h4.2, fun d hd => ?_⟩
    · exact transmissionJoint_isSome.1 (mapM_isSome (agg_vals hn hj h3) d hd)
    · exact actuator_isSome.1 (mapM_isSome (agg_vals hn ha h3) d hd)
  · rintro ⟨⟨s, hs, _⟩, ⟨c, hc, _⟩, ⟨h1, h2⟩, h3, h4⟩
    obtain ⟨ord, ho⟩ := agg_some (ps := (transmission F).aggregates) (cs := n.children) all![
      fun d hd ht => transmissionJoint_isSome.2 (h2 d (List.mem_filter.2 ⟨hd, by simpa using ht⟩)),
      fun d hd ht => actuator_isSome.2 (h4 d (List.mem_filter.2 ⟨hd, by simpa using ht⟩))]
    refine ⟨all![attrVal_req.2 ⟨s, hs, rfl⟩], all![scalVal_req.2 ⟨c, hc, rfl⟩], ord, ho, ?_⟩
    rw [Bool.and_eq_true]
    exact ⟨(some?_iff hn hj ho).2 h1, (some?_iff hn ha ho).2 h3⟩

open Spec in
theorem pr2_isSome : ((pr2Transmission F).read n).isSome ↔
    (HasAttr n n!"name" anyName ∧ HasAttr n n!"type" anyName ∧ HasChild n n!"joint" anyXml ∧ HasChild n n!"actuator" anyXml ∧
    HasChild n n!"mechanicalReduction" (HasText (IsNum F.parse))) := by
  rw [Cls.read_isSome pr2Transmission_proper (chk := fun _ => true) fun _ _ => rfl,
    show (pr2Transmission F).aggregates = [] from rfl, Cls.aggVals_nil]
  constructor
  · rintro ⟨h1, h2, _⟩
    obtain ⟨s, hs, _⟩ := attrVal_req.1 (h1 (nameAttr F) (by simp [pr2Transmission]))
    obtain ⟨t, ht, _⟩ := attrVal_req.1 (h1 { xmlVar := n!"type", vt := strT F } (by simp [pr2Transmission]))
    obtain ⟨c, hc, _⟩ := scalVal_req.1 (h2 { xmlVar := n!"joint", vt := simpleT n!"name" (strT F) } (by simp [pr2Transmission]))
    obtain ⟨d, hd, _⟩ := scalVal_req.1 (h2 { xmlVar := n!"actuator", vt := simpleT n!"name" (strT F) } (by simp [pr2Transmission]))
    obtain ⟨e, he, he'⟩ := scalVal_req.1 (h2 { xmlVar := n!"mechanicalReduction", vt := floatT F } (by simp [pr2Transmission]))
    exact ⟨⟨s, hs, trivial⟩, ⟨t, ht, trivial⟩, ⟨c, hc, trivial⟩, ⟨d, hd, trivial⟩, ⟨e, he, float_isSome.1 he'⟩⟩
  · rintro ⟨⟨s, hs, _⟩, ⟨t, ht, _⟩, ⟨c, hc, _⟩, ⟨d, hd, _⟩, ⟨e, he, he'⟩⟩
    exact ⟨all![attrVal_req.2 ⟨s, hs, rfl⟩, attrVal_req.2 ⟨t, ht, rfl⟩],
      all![scalVal_req.2 ⟨c, hc, rfl⟩, scalVal_req.2 ⟨d, hd, rfl⟩, scalVal_req.2 ⟨e, he, float_isSome.2 he'⟩], _, rfl, rfl⟩

theorem duck_isSome : ((duckT [transmission F, pr2Transmission F]).fromXml n).isSome ↔ Good (Urdf.checkTransmission F.parse n) := by
  rw [Urdf.good_checkTransmission, Spec.Urdf.Transmission, ← transmission_isSome, ← pr2_isSome]
  simp only [duckT, List.findSome?_cons, List.findSome?_nil]
  cases (transmission F).read n with
  | some v => simp
  | none => cases (pr2Transmission F).read n <;> simp

/-- the object is this robot -/
def RobotIs (F : Fmt) (v : PVal) (r : Urdf.Robot) : Prop :=
  ∃ name ord, v = (robot F).inst [encO .str name] ord ∧ List.Forall₂ (LinkIs F) (vals n!"link" ord) r.links ∧
    vals n!"joint" ord = r.joints.map (encJoint F) ∧ vals n!"material" ord = r.materials.map (encMaterial F)

theorem robot_rows {o : Option Name} {ord : List (Name × PVal)} :
    (robot F).read n = some ((robot F).inst [encO .str o] ord) ↔
      n.attr n!"name" = o ∧ aggVals (robot F).aggregates n.children = some ord := by
  refine (Cls.read_rows robot_proper (xs := [_]) (ys := []) rfl rfl (of_decide_eq_true rfl)).trans ?_
  have h1 : List.Forall₂ (fun p x => attrVal p n = some x) (robot F).attributes [encO .str o] ↔ n.attr n!"name" = o ∧ True := by
    refine rows![?_]
    rw [attr_opt (enc := PVal.str) (read := fun s => Except.ok s) (by simp) (fun s => by simp [strT, VType.ofString])
      fun s x => by simp [str_iff, readStr]]
    cases o with
    | none => rw [optional_none]
    | some x => simp [optional_some]
  have h2 : List.Forall₂ (fun p x => scalVal p n = some x) (robot F).scalars [] ↔ _ := rows![]
  rw [h1, h2]
  have h3 : (robot F).check ((robot F).inst ([encO .str o] ++ []) ord) = true := rfl
  rw [h3]
  simp only [and_true, true_and]

theorem robot_iff {r : Urdf.Robot} : Urdf.readRobot F.parse n = .ok r ↔ ∃ v, (robot F).read n = some v ∧ RobotIs F v r := by
  have hn : ((robot F).aggregates.map Param.xmlVar).Nodup := of_decide_eq_true rfl
  have hl : { xmlVar := n!"link", vt := (link F).type, required := false, var := n!"links" } ∈ (robot F).aggregates := by simp [robot]
  have hj : { xmlVar := n!"joint", vt := (joint F).type, required := false, var := n!"joints" } ∈ (robot F).aggregates := by simp [robot]
  have ht : { xmlVar := n!"transmission", vt := duckT [transmission F, pr2Transmission F], required := false, var := n!"transmissions" } ∈ (robot F).aggregates := by simp [robot]
  have hm : { xmlVar := n!"material", vt := (material F).type, required := false, var := n!"materials" } ∈ (robot F).aggregates := by simp [robot]
  simp only [Urdf.readRobot, bind_eq_ok, pure_ok, Except.ok.injEq]
  constructor
  · rintro ⟨ls, h1, js, h2, ts, h3, ms, h4, rfl⟩
    obtain ⟨vs, h1, h1'⟩ := (mapM_rel fun _ _ => link_iff).1 h1
    rw [mapM_enc (fun _ _ => joint_iff)] at h2
    rw [mapM_enc (fun _ _ => material_iff)] at h4
    have h3' := good_mapM.1 ⟨ts, h3⟩
    obtain ⟨ord, ho⟩ := agg_some (ps := (robot F).aggregates) (cs := n.children) all![
      fun c hc ht => mapM_isSome h1 c (List.mem_filter.2 ⟨hc, by simpa using ht⟩),
      fun c hc ht => mapM_isSome h2 c (List.mem_filter.2 ⟨hc, by simpa using ht⟩),
      fun c hc ht => rfl,
      fun c hc ht => duck_isSome.2 (h3' c (List.mem_filter.2 ⟨hc, by simpa using ht⟩)),
      fun c hc ht => mapM_isSome h4 c (List.mem_filter.2 ⟨hc, by simpa using ht⟩)]
    refine ⟨_, robot_rows.2 ⟨rfl, ho⟩, _, ord, rfl, ?_, ?_, ?_⟩
    · have := Option.some.inj ((agg_vals hn hl ho).symm.trans h1)
      rw [this]
      exact h1'
    · exact Option.some.inj ((agg_vals hn hj ho).symm.trans h2)
    · exact Option.some.inj ((agg_vals hn hm ho).symm.trans h4)
  · rintro ⟨v, hv, name, ord, rfl, h1, h2, h3⟩
    obtain ⟨_, h4⟩ := robot_rows.1 hv
    have hg : Good ((n.aggregate n!"transmission").mapM (Urdf.checkTransmission F.parse)) :=
      good_mapM.2 fun c hc => duck_isSome.1 (mapM_isSome (agg_vals hn ht h4) c hc)
    obtain ⟨ts, hts⟩ := hg
    refine ⟨r.links, (mapM_rel fun _ _ => link_iff).2 ⟨_, agg_vals hn hl h4, h1⟩, r.joints, ?_, ts, hts, r.materials, ?_, rfl⟩
    · rw [mapM_enc (fun _ _ => joint_iff), ← h2]
      exact agg_vals hn hj h4
    · rw [mapM_enc (fun _ _ => material_iff), ← h3]
      exact agg_vals hn hm h4

end U

/-! ### URDF objects never contain `False` -/

/-- attribute values that were read do not contain `False` -/
def VType.TrueS (vt : VType) : Prop := ∀ t v, vt.fromString t = some v → ¬ HasFalse v
/-- element values that were read do not contain `False` -/
def VType.True' (vt : VType) : Prop := ∀ n v, vt.fromXml n = some v → ¬ HasFalse v

theorem none_true : ¬ HasFalse .none := by rintro ⟨⟩
theorem zero_true : ¬ HasFalse zero := by rintro ⟨⟩
theorem vec_true {l : List Fl} : ¬ HasFalse (.vec l) := by rintro ⟨⟩

theorem strT_true : (strT F).TrueS := by
  intro t v h
  obtain rfl := Option.some.inj h
  rintro ⟨⟩

theorem floatT_true : (floatT F).TrueS := by
  intro t v h
  simp only [floatT, VType.ofString, Option.bind_eq_some_iff, Option.map_eq_some_iff] at h
  obtain ⟨s, rfl, x, hx, rfl⟩ := h
  rintro ⟨⟩

theorem vecT_true {count : ℕ} : (vecT F count).TrueS := by
  intro t v h
  simp only [vecT, VType.ofString, Option.bind_eq_some_iff] at h
  obtain ⟨s, rfl, h⟩ := h
  split at h
  · obtain ⟨l, _, rfl⟩ := Option.map_eq_some_iff.1 h
    exact vec_true
  · cases h

theorem rawT_true : rawT.True' := by
  intro n v h
  obtain rfl := Option.some.inj h
  rintro ⟨⟩

theorem simpleT_true {vt : VType} (h : vt.TrueS) {k : Name} : (simpleT k vt).True' := fun _ v hv => h _ v hv
theorem ofString_true {r : Option Name → Option PVal} {w : PVal → Except Err Name} (h : (VType.ofString r w).TrueS) :
    (VType.ofString r w).True' := fun _ v hv => h _ v hv

theorem geometricT_true {types : List (Name × Cls)} (h : ∀ t ∈ types, t.2.type.True') : (geometricT types).True' := by
  intro n v hv
  simp only [geometricT] at hv
  split at hv
  · next c _ =>
    obtain ⟨C, hC, hr⟩ := Option.bind_eq_some_iff.1 hv
    have : ∀ {types : List (Name × Cls)}, types.lookup c.tag = some C → ∃ t ∈ types, t.2 = C := by
      intro types
      induction types with
      | nil => simp
      | cons t l ih =>
        simp only [List.lookup]
        split
        · exact fun e => ⟨t, by simp, Option.some.inj e⟩
        · intro e
          obtain ⟨t, ht, r⟩ := ih e
          exact ⟨t, List.mem_cons_of_mem _ ht, r⟩
    obtain ⟨t, ht, rfl⟩ := this hC
    exact h t ht c v hr
  · cases hv

theorem duckT_true {types : List Cls} (h : ∀ C ∈ types, C.type.True') : (duckT types).True' := by
  intro n v hv
  obtain ⟨C, hC, hr⟩ := List.exists_of_findSome?_eq_some hv
  exact h C hC n v hr

theorem Cls.trueAt {C : Cls} (hC : C.Proper) {n : Xml} {v : PVal} (hv : C.read n = some v)
    (hA : ∀ p ∈ C.attributes, ∀ x, attrVal p n = some x → ¬ HasFalse x)
    (hS : ∀ p ∈ C.scalars, ∀ x, scalVal p n = some x → ¬ HasFalse x)
    (hG : ∀ p ∈ C.aggregates, ∀ c ∈ n.children, c.tag = p.xmlVar → ∀ x, p.vt.fromXml c = some x → ¬ HasFalse x)
    (hI : ∀ a ∈ C.init, a.1 ∈ (C.attributes ++ C.scalars).map Param.var) : ¬ HasFalse v := by
  obtain ⟨o, ho, rfl, _⟩ := (read_iff hC).1 hv
  intro h
  cases h with
  | field _ _ _ k x hk hx =>
    by_cases hm : k ∈ (C.attributes ++ C.scalars).map Param.var
    · obtain ⟨p, hp, rfl⟩ := List.mem_map.1 hm
      rcases List.mem_append.1 hp with hp | hp
      · obtain ⟨y, h1, h2⟩ := ho.attr p hp
        rw [h2, Option.some.injEq] at hk
        subst hk
        exact hA p hp _ h1 hx
      · obtain ⟨y, h1, h2⟩ := ho.scal p hp
        rw [h2, Option.some.injEq] at hk
        subst hk
        exact hS p hp _ h1 hx
    · rw [ho.rest k hm] at hk
      refine hm ?_
      cases e : C.init.find? fun a => k == a.1 with
      | none =>
        have : C.init.lookup k = none := by
          rw [List.lookup_eq_none_iff]
          intro a ha
          have := List.find?_eq_none.1 e a ha
          simpa [bne_iff_ne] using this
        rw [this] at hk
        cases hk
      | some a =>
        have h3 : k = a.1 := by simpa using List.find?_some e
        exact h3 ▸ hI a (List.mem_of_find?_eq_some e)
  | order _ _ _ a ha hx =>
    obtain ⟨p, hp, hpa, c, hc, hct, hcx⟩ := aggVals_mem ho.order a ha
    exact hG p hp c hc (hct.trans hpa.symm) a.2 hcx hx

theorem attrVal_true {p : Param} {n : Xml} (h : p.vt.TrueS) (hd : ¬ HasFalse p.dflt) : ∀ x, attrVal p n = some x → ¬ HasFalse x := by
  intro x h1 hx
  rw [attrVal] at h1
  split at h1
  · exact h _ _ h1 hx
  · split at h1
    · cases h1
    · exact hd (Option.some.inj h1 ▸ hx)

theorem scalVal_true {p : Param} {n : Xml} (h : ∀ c, n.scalar p.xmlVar = some c → ∀ x, p.vt.fromXml c = some x → ¬ HasFalse x)
    (hd : ¬ HasFalse p.dflt) : ∀ x, scalVal p n = some x → ¬ HasFalse x := by
  intro x h1 hx
  rw [scalVal] at h1
  split at h1
  · next c hc => exact h _ hc _ h1 hx
  · split at h1
    · cases h1
    · exact hd (Option.some.inj h1 ▸ hx)

theorem Cls.true' {C : Cls} (hC : C.Proper) (hA : ∀ p ∈ C.attributes, p.vt.TrueS ∧ ¬ HasFalse p.dflt)
    (hS : ∀ p ∈ C.scalars, p.vt.True' ∧ ¬ HasFalse p.dflt) (hG : ∀ p ∈ C.aggregates, p.vt.True')
    (hI : ∀ a ∈ C.init, a.1 ∈ (C.attributes ++ C.scalars).map Param.var) : C.type.True' :=
  fun _ _ hv => trueAt hC hv (fun p hp => attrVal_true (hA p hp).1 (hA p hp).2)
    (fun p hp => scalVal_true (fun c _ => (hS p hp).1 c) (hS p hp).2) (fun p hp c _ _ => hG p hp c) hI

namespace U

theorem pose_true : (pose F).type.True' := Cls.true' pose_proper all![⟨vecT_true, vec_true⟩, ⟨vecT_true, vec_true⟩]
  all![] all![] (of_decide_eq_true rfl)
theorem color_true : (color F).type.True' := Cls.true' color_proper all![⟨vecT_true, none_true⟩] all![] all![] (of_decide_eq_true rfl)
theorem dynamics_true : (dynamics F).type.True' := Cls.true' dynamics_proper
  all![⟨floatT_true, none_true⟩, ⟨floatT_true, none_true⟩] all![] all![] (of_decide_eq_true rfl)
theorem box_true : (box F).type.True' := Cls.true' box_proper all![⟨vecT_true, none_true⟩] all![] all![] (of_decide_eq_true rfl)
theorem cylinder_true : (cylinder F).type.True' := Cls.true' cylinder_proper
  all![⟨floatT_true, none_true⟩, ⟨floatT_true, none_true⟩] all![] all![] (of_decide_eq_true rfl)
theorem capsule_true : (capsule F).type.True' := Cls.true' capsule_proper
  all![⟨floatT_true, none_true⟩, ⟨floatT_true, none_true⟩] all![] all![] (of_decide_eq_true rfl)
theorem sphere_true : (sphere F).type.True' := Cls.true' sphere_proper all![⟨floatT_true, none_true⟩] all![] all![] (of_decide_eq_true rfl)
theorem mesh_true : (mesh F).type.True' := Cls.true' mesh_proper
  all![⟨strT_true, none_true⟩, ⟨vecT_true, none_true⟩] all![] all![] (of_decide_eq_true rfl)
theorem geometric_true : (geometricT (geometries F)).True' :=
  geometricT_true all![box_true, cylinder_true, sphere_true, mesh_true, capsule_true]
theorem collision_true : (collision F).type.True' := Cls.true' collision_proper all![]
  all![⟨pose_true, none_true⟩, ⟨geometric_true, none_true⟩] all![] (of_decide_eq_true rfl)
theorem texture_true : (texture F).type.True' := Cls.true' texture_proper all![⟨strT_true, none_true⟩] all![] all![] (of_decide_eq_true rfl)
theorem material_true : (material F).type.True' := Cls.true' material_proper all![⟨strT_true, none_true⟩]
  all![⟨color_true, none_true⟩, ⟨texture_true, none_true⟩] all![] (of_decide_eq_true rfl)
theorem linkMaterial_true : (linkMaterial F).type.True' := Cls.true' linkMaterial_proper all![⟨strT_true, none_true⟩]
  all![⟨color_true, none_true⟩, ⟨texture_true, none_true⟩] all![] (of_decide_eq_true rfl)
theorem visual_true : (visual F).type.True' := Cls.true' visual_proper all![]
  all![⟨pose_true, none_true⟩, ⟨geometric_true, none_true⟩, ⟨linkMaterial_true, none_true⟩] all![] (of_decide_eq_true rfl)
theorem inertia_true : (inertia F).type.True' := Cls.true' inertia_proper
  all![⟨floatT_true, none_true⟩, ⟨floatT_true, none_true⟩, ⟨floatT_true, none_true⟩, ⟨floatT_true, none_true⟩,
    ⟨floatT_true, none_true⟩, ⟨floatT_true, none_true⟩] all![] all![] (of_decide_eq_true rfl)
theorem inertial_true : (inertial F).type.True' := Cls.true' inertial_proper all![]
  all![⟨pose_true, none_true⟩, ⟨simpleT_true floatT_true, none_true⟩, ⟨inertia_true, none_true⟩] all![] (of_decide_eq_true rfl)
theorem calibration_true : (calibration F).type.True' := Cls.true' calibration_proper
  all![⟨floatT_true, zero_true⟩, ⟨floatT_true, zero_true⟩] all![] all![] (of_decide_eq_true rfl)
theorem limit_true : (limit F).type.True' := Cls.true' limit_proper
  all![⟨floatT_true, none_true⟩, ⟨floatT_true, zero_true⟩, ⟨floatT_true, zero_true⟩, ⟨floatT_true, none_true⟩] all![] all![]
  (of_decide_eq_true rfl)
theorem mimic_true : (mimic F).type.True' := Cls.true' mimic_proper
  all![⟨strT_true, none_true⟩, ⟨floatT_true, none_true⟩, ⟨floatT_true, none_true⟩] all![] all![] (of_decide_eq_true rfl)
theorem safety_true : (safety F).type.True' := Cls.true' safety_proper
  all![⟨floatT_true, none_true⟩, ⟨floatT_true, zero_true⟩, ⟨floatT_true, zero_true⟩, ⟨floatT_true, zero_true⟩] all![] all![]
  (of_decide_eq_true rfl)
theorem joint_true : (joint F).type.True' := Cls.true' joint_proper
  all![⟨strT_true, none_true⟩, ⟨strT_true, none_true⟩]
  all![⟨pose_true, none_true⟩, ⟨simpleT_true vecT_true, none_true⟩, ⟨simpleT_true strT_true, none_true⟩,
    ⟨simpleT_true strT_true, none_true⟩, ⟨limit_true, none_true⟩, ⟨dynamics_true, none_true⟩, ⟨safety_true, none_true⟩,
    ⟨calibration_true, none_true⟩, ⟨mimic_true, none_true⟩] all![] (of_decide_eq_true rfl)
theorem link_true : (link F).type.True' := Cls.true' link_proper all![⟨strT_true, none_true⟩]
  all![⟨pose_true, none_true⟩, ⟨inertial_true, none_true⟩] all![visual_true, collision_true] (of_decide_eq_true rfl)
theorem pr2_true : (pr2Transmission F).type.True' := Cls.true' pr2Transmission_proper
  all![⟨strT_true, none_true⟩, ⟨strT_true, none_true⟩]
  all![⟨simpleT_true strT_true, none_true⟩, ⟨simpleT_true strT_true, none_true⟩, ⟨ofString_true floatT_true, none_true⟩] all![]
  (of_decide_eq_true rfl)
theorem actuator_true : (actuator F).type.True' := Cls.true' actuator_proper all![⟨strT_true, none_true⟩]
  all![⟨ofString_true floatT_true, none_true⟩] all![] (of_decide_eq_true rfl)
theorem transmissionJoint_true : (transmissionJoint F).type.True' := Cls.true' transmissionJoint_proper
  all![⟨strT_true, none_true⟩] all![] all![ofString_true strT_true] (of_decide_eq_true rfl)
theorem transmission_true : (transmission F).type.True' := Cls.true' transmission_proper all![⟨strT_true, none_true⟩]
  all![⟨ofString_true strT_true, none_true⟩] all![transmissionJoint_true, actuator_true] (of_decide_eq_true rfl)
theorem robot_true : (robot F).type.True' := Cls.true' robot_proper all![⟨strT_true, none_true⟩] all![]
  all![link_true, joint_true, rawT_true, duckT_true all![transmission_true, pr2_true], material_true] (of_decide_eq_true rfl)

theorem vals_map {f : Name → PVal → PVal} {k : Name} {ord : List (Name × PVal)} :
    vals k (ord.map fun a => (a.1, f a.1 a.2)) = (vals k ord).map (f k) := by
  induction ord with
  | nil => rfl
  | cons a l ih =>
    simp only [vals, List.map_cons] at ih ⊢
    by_cases h : a.1 = k
    · rw [List.filter_cons_of_pos (by simpa using h), List.filter_cons_of_pos (by simpa using h)]
      simp [ih, h]
    · rw [List.filter_cons_of_neg (by simpa using h), List.filter_cons_of_neg (by simpa using h), ih]

theorem robotIs_clean {v : PVal} {r : Urdf.Robot} : RobotIs F (mapOrder robotClean v) r ↔ RobotIs F v r := by
  have hid : ∀ {k}, k ≠ n!"gazebo" → robotClean k = id := by
    intro k hk
    funext v
    simp [robotClean, hk]
  constructor
  · rintro ⟨name, ord, h, h1⟩
    cases v with
    | obj c f o =>
      simp only [mapOrder, Cls.inst, PVal.obj.injEq] at h
      obtain ⟨rfl, rfl, rfl⟩ := h
      refine ⟨name, o, rfl, ?_⟩
      simpa only [vals_map, hid (show n!"link" ≠ n!"gazebo" by decide), hid (show n!"joint" ≠ n!"gazebo" by decide),
        hid (show n!"material" ≠ n!"gazebo" by decide), List.map_id] using h1
    | _ => simp [mapOrder, Cls.inst] at h
  · rintro ⟨name, ord, rfl, h1⟩
    refine ⟨name, ord.map fun a => (a.1, robotClean a.1 a.2), rfl, ?_⟩
    simpa only [vals_map, hid (show n!"link" ≠ n!"gazebo" by decide), hid (show n!"joint" ≠ n!"gazebo" by decide),
        hid (show n!"material" ≠ n!"gazebo" by decide), List.map_id] using h1

end U
end PK.Reflect
