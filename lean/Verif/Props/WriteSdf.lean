import Verif.Lemmas.ReflectSdf
import Verif.Props.Write

/-!
# C112: an SDF description that is written and loaded again

`SDF.from_xml_string`, `to_xml`.
-/

namespace PK
open Spec Reflect

namespace Spec
/-- the flags that are given are given with a value: no `kinematic=""` of a link, no empty `<use_parent_model_frame/>` of an
axis of the model -/
def FlagsGiven (doc : Xml) : Prop := ∀ m, doc.scalar n!"model" = some m →
  (∀ l ∈ m.aggregate n!"link", l.attr n!"kinematic" ≠ some []) ∧
  ∀ j ∈ m.aggregate n!"joint", ∀ a, j.scalar n!"axis" = some a →
    ∀ u, a.scalar n!"use_parent_model_frame" = some u → u.text ≠ none ∧ u.text ≠ some []
end Spec

/-- C112: what was read can be written; writing changes nothing, what is written reads as the same objects, and it loads to
the same chain as the original document, also with other formatting. Missing: `C112_empty_flag_changes`. -/
theorem C112_round_trip_partial (F : Fmt) (hF : F.Exact) (n : Xml) (v : PVal) (h : (S.sdf F).read n = some v) (hf : FlagsGiven n) :
    ∃ doc, (S.sdf F).toXml v = .ok (doc, v) ∧ (S.sdf F).read doc = some v ∧
      ∀ doc', doc' = doc ∨ Same sdfContainer doc doc' → ∀ fuel,
        (∀ c, Sdf.buildChain F.parse fuel doc' = .ok c ↔ Sdf.buildChain F.parse fuel n = .ok c) ∧
        ∀ endLink rootLink c, Sdf.buildSerialChain F.parse fuel doc' endLink rootLink = .ok c ↔
          Sdf.buildSerialChain F.parse fuel n endLink rootLink = .ok c := by
  obtain ⟨-, hw⟩ := S.sdf_stable hF n v h (S.sdf_true hf v h)
  obtain ⟨as, tx, cs, h1, h2⟩ := hw n!"sdf"
  have h2 : (S.sdf F).read (.elem n!"sdf" as tx cs) = some v := h2
  have hc : ∀ fuel c, Sdf.buildChain F.parse fuel (.elem n!"sdf" as tx cs) = .ok c ↔ Sdf.buildChain F.parse fuel n = .ok c := by
    intro fuel c
    simp only [Sdf.buildChain, bind_eq_ok, S.sdf_iff, h2, h]
  refine ⟨.elem n!"sdf" as tx cs, h1, h2, fun doc' hd fuel => ?_⟩
  have e : Sdf.buildChain F.parse fuel doc' = Sdf.buildChain F.parse fuel (.elem n!"sdf" as tx cs) := by
    rcases hd with rfl | hs
    · rfl
    · exact (C76_sdf_format F.parse fuel _ doc' hs).1.symm
  refine ⟨fun c => by rw [e, hc], fun a b c => ?_⟩
  simp only [Sdf.buildSerialChain, bind_eq_ok, e, hc]

/-- `<joint name="j" type="revolute">` between `a` and `b` with the given `<use_parent_model_frame>` -/
def flagJoint (t : Option Name) : Xml := .elem n!"joint" [(n!"name", n!"j"), (n!"type", n!"revolute")] none [
  .elem n!"parent" [] (some n!"a") [], .elem n!"child" [] (some n!"b") [],
  .elem n!"axis" [] none [.elem n!"xyz" [] (some n!"0 0 0") [], .elem n!"use_parent_model_frame" [] t []]]

/-- a link without shape -/
def flagLink (name : Name) : Xml := .elem n!"link" [(n!"name", name), (n!"kinematic", n!"1")] none [
  .elem n!"pose" [] (some n!"0 0 0 0 0 0") [], .elem n!"inertial" [] none [.elem n!"mass" [] (some n!"0") [],
    .elem n!"inertia" [] none (U.inertiaKeys.map fun k => .elem k [] (some n!"0") [])]]

/-- `<sdf version="1.6"><model name="m">…</model></sdf>` -/
def flagDoc (t : Option Name) : Xml := .elem n!"sdf" [(n!"version", n!"1.6")] none [
  .elem n!"model" [(n!"name", n!"m")] none [flagLink n!"a", flagJoint t, flagLink n!"b"]]

/-- the flag of the first joint of the model -/
def firstFlag : PVal → Option PVal
  | .obj _ f _ => match f n!"model" with
    | some (.obj _ _ ord) => match ord.find? fun a => a.1 == n!"joint" with
      | some (_, .obj _ g _) => match g n!"axis" with
        | some (.obj _ h _) => h n!"use_parent_model_frame"
        | _ => none
      | _ => none
    | _ => none
  | _ => none

/-- printing that fits reading the number 0 -/
def zeroOnly : Fmt where
  parse s := if s = n!"0" then some (.fin 0) else none
  text _ := n!"0"

theorem zeroOnly_exact : zeroOnly.Exact where
  back s x h := by
    simp only [zeroOnly] at h ⊢
    split at h
    · simpa using h
    · cases h
  zero := by simp [zeroOnly]
  word x := by simp only [zeroOnly]; decide

/-- C112 fails: an empty `<use_parent_model_frame/>` reads as `False`, is written as `False`, and that reads as `True`. -/
theorem C112_empty_flag_changes :
    ¬ ∀ n v, (S.sdf zeroOnly).read n = some v → ∃ doc v', (S.sdf zeroOnly).toXml v = .ok (doc, v') ∧
      (S.sdf zeroOnly).read doc = some v := by
  intro h
  obtain ⟨doc, v', h1, h2⟩ := h (flagDoc none) _ rfl
  have e1 := congrArg (fun v : Except Err (Xml × PVal) => match v with
    | .ok (d, _) => ((S.sdf zeroOnly).read d).bind firstFlag
    | .error _ => none) h1
  have e1 : some (.bool true) = ((S.sdf zeroOnly).read doc).bind firstFlag := e1
  rw [h2] at e1
  have e2 : some (.bool true) = some (PVal.bool false) := e1
  simp at e2

/-- C112: whatever text the flag has, even `0` or `false`, it is read as `True`. -/
theorem C112_flag_text_ignored (F : Fmt) (a : Xml) (v : PVal) (h : (S.axis F).read a = some v) (u : Xml)
    (hu : a.scalar n!"use_parent_model_frame" = some u) (s : Name) (hs : u.text = some s) (hne : s ≠ []) :
    ∃ f ord, v = .obj n!"Axis" f ord ∧ f n!"use_parent_model_frame" = some (.bool true) := by
  obtain ⟨o, ho, rfl, _⟩ := (Cls.read_iff S.axis_proper).1 h
  obtain ⟨x, h1, h2⟩ := ho.scal { xmlVar := n!"use_parent_model_frame", vt := boolT F, required := false } (by simp [S.axis])
  refine ⟨_, _, rfl, ?_⟩
  rw [h2, ← h1]
  simp only [scalVal, hu]
  cases s with
  | nil => exact absurd rfl hne
  | cons c s => simp [boolT, VType.ofString, hs]

/-- with a value the flag is kept: the description is read, written and read the same -/
example : ∃ v doc, (S.sdf zeroOnly).read (flagDoc (some n!"1")) = some v ∧ (S.sdf zeroOnly).toXml v = .ok (doc, v) ∧
    (S.sdf zeroOnly).read doc = some v := by
  have hf : FlagsGiven (flagDoc (some n!"1")) := by
    intro m hm
    obtain rfl := Option.some.inj hm
    refine ⟨?_, ?_⟩
    · intro l hl
      have : l ∈ [flagLink n!"a", flagLink n!"b"] := hl
      simp only [List.mem_cons, List.not_mem_nil, or_false] at this
      rcases this with rfl | rfl <;> exact of_decide_eq_true rfl
    · intro j hj a ha u hu
      have : j ∈ [flagJoint (some n!"1")] := hj
      rw [List.mem_singleton] at this
      subst this
      obtain rfl := Option.some.inj ha
      obtain rfl := Option.some.inj hu
      exact ⟨of_decide_eq_true rfl, of_decide_eq_true rfl⟩
  obtain ⟨doc, h1, h2, _⟩ := C112_round_trip_partial zeroOnly zeroOnly_exact _ _ rfl hf
  exact ⟨_, doc, rfl, h1, h2⟩

/-- it has a model with two links and a joint -/
example : ∃ m, Sdf.readSdf zeroOnly.parse (flagDoc (some n!"1")) = .ok m ∧ m.links.length = 2 ∧ m.joints.length = 1 :=
  ⟨_, rfl, rfl, rfl⟩

end PK
