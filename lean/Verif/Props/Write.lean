import Verif.Lemmas.ReflectUrdf
import Verif.Props.Format

/-!
# C111: a robot that is written and loaded again

`URDF.from_xml_string`, `to_xml`. Numbers are printed so that they read back (`Fmt.Exact`, Python's `repr` of floats).
-/

namespace PK
open Spec Reflect

namespace Spec
/-- nothing but attributes and elements directly inside the element -/
def NoText (x : Xml) : Prop := ∃ t as cs, x = .elem t as none cs ∧ (as.map Prod.fst).Nodup ∧ ∀ c ∈ cs, c ≠ .comment
end Spec

namespace Reflect

theorem set_fold : ∀ (l as : List (Name × Name)) (t : Name), ((as ++ l).map Prod.fst).Nodup →
    (l.foldl (fun m a => Xml.set m a.1 a.2) (.elem t as none [])).attrs = as ++ l := by
  intro l
  induction l with
  | nil => intro as t _; simp [Xml.attrs]
  | cons a l ih =>
    intro as t h
    have ha : as.lookup a.1 = none := by
      rw [List.lookup_eq_none_iff]
      intro b hb
      simp only [bne_iff_ne, ne_eq]
      intro r
      rw [List.map_append, List.nodup_append] at h
      exact h.2.2 _ (List.mem_map_of_mem hb) _ (by simp) r.symm
    have e : Xml.set (.elem t as none []) a.1 a.2 = .elem t (as ++ [a]) none [] := by
      simp [Xml.set, ha]
    rw [List.foldl_cons, e, ih _ _ (by simpa using h)]
    simp

theorem cleanRaw_id {x : Xml} (h : NoText x) : cleanRaw (.raw x) = .raw x := by
  obtain ⟨t, as, cs, rfl, hn, hc⟩ := h
  have h1 := set_fold as [] t (by simpa using hn)
  have h2 : (Xml.elem t as none cs).children = cs := by
    simp only [Xml.children, List.filter_eq_self]
    intro c hm
    have := hc c hm
    cases c with
    | comment => exact absurd rfl this
    | elem => rfl
  simp only [cleanRaw, Xml.fresh, h1, h2, List.nil_append]

variable {F : Fmt} {n : Xml} {v : PVal}

theorem robot_order (h : (U.robot F).read n = some v) :
    ∃ f ord, v = .obj n!"Robot" f ord ∧ ∀ a ∈ ord, a.1 = n!"gazebo" → ∃ x ∈ n.aggregate n!"gazebo", a.2 = .raw x := by
  obtain ⟨o, ho, rfl, _⟩ := (Cls.read_iff U.robot_proper).1 h
  refine ⟨o.fields, o.order, rfl, fun a ha hg => ?_⟩
  obtain ⟨p, hp, hpa, c, hc, hct, hcx⟩ := Cls.aggVals_mem ho.order a ha
  rw [hg] at hpa
  have : p = { xmlVar := n!"gazebo", vt := rawT, required := false, var := n!"gazebos" } := by
    have hn : ((U.robot F).aggregates.map Param.xmlVar).Nodup := of_decide_eq_true rfl
    exact List.inj_on_of_nodup_map hn hp (by simp [U.robot]) hpa
  subst this
  exact ⟨c, List.mem_filter.2 ⟨hc, by simp [hct, hg]⟩, (Option.some.inj hcx).symm⟩

theorem map_order_id {f : Name → PVal → PVal} {c : Name} {g : Name → Option PVal} {ord : List (Name × PVal)}
    (h : ∀ a ∈ ord, f a.1 a.2 = a.2) : mapOrder f (.obj c g ord) = .obj c g ord := by
  simp only [mapOrder, PVal.obj.injEq, true_and]
  conv_rhs => rw [← List.map_id ord]
  refine List.map_congr_left fun a ha => ?_
  rw [h a ha]
  rfl

theorem toXml_ok (hF : F.Exact) (h : (U.robot F).read n = some v) : ∃ doc, (U.robot F).toXml v = .ok (doc, mapOrder U.robotAfter v) ∧
    (U.robot F).read doc = some (mapOrder U.robotClean v) := by
  obtain ⟨as, cs, h1, h2⟩ := U.robot_written hF n v h (U.robot_true n v h) n!"robot"
  exact ⟨_, h1, h2⟩

theorem readRobot_written (hF : F.Exact) {doc : Xml} {v' : PVal} (h : (U.robot F).read n = some v)
    (hw : (U.robot F).toXml v = .ok (doc, v')) (r : Urdf.Robot) :
    Urdf.readRobot F.parse doc = .ok r ↔ Urdf.readRobot F.parse n = .ok r := by
  obtain ⟨doc', h1, h2⟩ := toXml_ok hF h
  rw [h1] at hw
  obtain ⟨rfl, -⟩ := Prod.mk.inj (Except.ok.inj hw)
  rw [U.robot_iff, U.robot_iff, h2, h]
  simp only [Option.some.injEq, exists_eq_left']
  exact U.robotIs_clean

end Reflect

/-- C111: every robot that was read can be written; the document that is written, or any other formatting of it, loads to
the same chain as the original document. -/
theorem C111_written_robot_loads_same (F : Fmt) (hF : F.Exact) (n : Xml) (v : PVal) (h : (U.robot F).read n = some v) :
    ∃ doc v', (U.robot F).toXml v = .ok (doc, v') ∧
      ((U.robot F).read doc).isSome ∧
      ∀ doc', doc' = doc ∨ Same urdfContainer doc doc' → ∀ fuel,
        (∀ c, Urdf.buildChain F.parse fuel doc' = .ok c ↔ Urdf.buildChain F.parse fuel n = .ok c) ∧
        ∀ endLink rootLink c, Urdf.buildSerialChain F.parse fuel doc' endLink rootLink = .ok c ↔
          Urdf.buildSerialChain F.parse fuel n endLink rootLink = .ok c := by
  obtain ⟨doc, h1, h2⟩ := toXml_ok hF h
  have hc : ∀ fuel c, Urdf.buildChain F.parse fuel doc = .ok c ↔ Urdf.buildChain F.parse fuel n = .ok c := by
    intro fuel c
    simp only [Urdf.buildChain, bind_eq_ok, readRobot_written hF h h1]
  refine ⟨doc, _, h1, by simp [h2], fun doc' hd fuel => ?_⟩
  have e : Urdf.buildChain F.parse fuel doc' = Urdf.buildChain F.parse fuel doc := by
    rcases hd with rfl | hs
    · rfl
    · exact (C76_urdf_format F.parse fuel doc doc' hs).1.symm
  refine ⟨fun c => by rw [e, hc], fun a b c => ?_⟩
  simp only [Urdf.buildSerialChain, bind_eq_ok, e, hc]

/-- C111: what is written reads as the robot itself, if there is no text and no comment directly inside its `<gazebo>`
elements. Missing: `C111_gazebo_text_lost`. -/
theorem C111_round_trip_partial (F : Fmt) (hF : F.Exact) (n : Xml) (v : PVal) (h : (U.robot F).read n = some v)
    (hg : ∀ x ∈ n.aggregate n!"gazebo", NoText x) :
    ∃ doc v', (U.robot F).toXml v = .ok (doc, v') ∧ (U.robot F).read doc = some v := by
  obtain ⟨doc, h1, h2⟩ := toXml_ok hF h
  obtain ⟨f, ord, rfl, ho⟩ := robot_order h
  refine ⟨doc, _, h1, ?_⟩
  rw [h2, map_order_id]
  intro a ha
  simp only [U.robotClean]
  split
  · next hk =>
    obtain ⟨x, hm, hx⟩ := ho a ha hk
    rw [hx]
    exact cleanRaw_id (hg x hm)
  · rfl

/-- C111: writing leaves a robot without `<gazebo>` elements as it is. Missing: `C111_second_write_differs`. -/
theorem C111_write_pure_partial (F : Fmt) (hF : F.Exact) (n : Xml) (v : PVal) (h : (U.robot F).read n = some v)
    (hg : n.aggregate n!"gazebo" = []) : ∃ doc, (U.robot F).toXml v = .ok (doc, v) := by
  obtain ⟨doc, h1, h2⟩ := toXml_ok hF h
  obtain ⟨f, ord, rfl, ho⟩ := robot_order h
  refine ⟨doc, ?_⟩
  rw [h1, map_order_id]
  intro a ha
  simp only [U.robotAfter]
  split
  · next hk =>
    obtain ⟨x, hm, _⟩ := ho a ha hk
    rw [hg] at hm
    cases hm
  · rfl

/-- `<robot name="r"><gazebo>Blue<plugin/></gazebo></robot>` -/
def gazeboDoc : Xml := .elem n!"robot" [(n!"name", n!"r")] none [.elem n!"gazebo" [] (some n!"Blue") [.elem n!"plugin" [] none []]]

/-- C111 fails: the text inside `<gazebo>` is lost by writing. -/
theorem C111_gazebo_text_lost (F : Fmt) :
    ¬ ∀ n v, (U.robot F).read n = some v → ∃ doc v', (U.robot F).toXml v = .ok (doc, v') ∧ (U.robot F).read doc = some v := by
  intro h
  obtain ⟨doc, v', h1, h2⟩ := h gazeboDoc _ rfl
  have e1 := congrArg (fun v : Except Err (Xml × PVal) => match v with
    | .ok (d, _) => d
    | .error _ => .comment) h1
  have e : Xml.elem n!"robot" [(n!"name", n!"r")] none [.elem n!"gazebo" [] none [.elem n!"plugin" [] none []]] = doc := e1
  subst e
  have e2 := congrArg (fun v : Option PVal => match v with
    | some (.obj _ _ ((_, .raw x) :: _)) => x.text
    | _ => none) h2
  have : none = some n!"Blue" := e2
  cases this

/-- C111 fails: writing a robot a second time gives another document: the elements inside `<gazebo>` are gone. -/
theorem C111_second_write_differs (F : Fmt) :
    ¬ ∀ n v, (U.robot F).read n = some v → ∀ doc v', (U.robot F).toXml v = .ok (doc, v') →
      ∃ v'', (U.robot F).toXml v' = .ok (doc, v'') := by
  intro h
  obtain ⟨v'', h2⟩ := h gazeboDoc _ rfl _ _ rfl
  have e2 := congrArg (fun v : Except Err (Xml × PVal) => match v with
    | .ok (.elem _ _ _ (.elem _ _ _ cs :: _), _) => cs.length
    | _ => 5) h2
  have : 0 = 1 := e2
  cases this

/-- printing that fits reading the numbers 0 and 1 -/
noncomputable def twoNumbers : Fmt where
  parse s := if s = n!"0" then some (.fin 0) else if s = n!"1" then some (.fin 1) else none
  text x := open Classical in if x = .fin 0 then n!"0" else if x = .fin 1 then n!"1" else n!"x"

theorem twoNumbers_exact : twoNumbers.Exact where
  back s x h := by
    simp only [twoNumbers] at h ⊢
    split at h
    · obtain rfl := Option.some.inj h
      simp
    · split at h
      · obtain rfl := Option.some.inj h
        have : Fl.fin 1 ≠ Fl.fin 0 := by simp
        simp [this]
      · cases h
  zero := by simp [twoNumbers]
  word x := by
    simp only [twoNumbers]
    split
    · decide
    · split <;> decide

/-- a robot with an arm that has a limited joint, a box, a material and a `<gazebo>` element -/
def armDoc : Xml := .elem n!"robot" [(n!"name", n!"r")] none [
  .elem n!"link" [(n!"name", n!"a")] none [.elem n!"visual" [] none [
    .elem n!"geometry" [] none [.elem n!"box" [(n!"size", n!"1 1 0")] none []]]],
  .elem n!"link" [(n!"name", n!"b")] none [],
  .elem n!"gazebo" [(n!"reference", n!"a")] none [.elem n!"plugin" [] none []],
  .elem n!"joint" [(n!"name", n!"j"), (n!"type", n!"revolute")] none [
    .elem n!"parent" [(n!"link", n!"a")] none [], .elem n!"child" [(n!"link", n!"b")] none [],
    .elem n!"origin" [(n!"xyz", n!"0 0 1")] none [],
    .elem n!"limit" [(n!"effort", n!"1"), (n!"velocity", n!"1"), (n!"upper", n!"1")] none []]]

theorem armDoc_gazebo : ∀ x ∈ armDoc.aggregate n!"gazebo", NoText x := by
  intro x hx
  have : armDoc.aggregate n!"gazebo" = [.elem n!"gazebo" [(n!"reference", n!"a")] none [.elem n!"plugin" [] none []]] := rfl
  rw [this, List.mem_singleton] at hx
  subst hx
  exact ⟨_, _, _, rfl, by simp, by simp⟩

/-- it is read, with two links and a joint -/
theorem armDoc_reads : ∃ r, Urdf.readRobot twoNumbers.parse armDoc = .ok r ∧ r.links.length = 2 ∧ r.joints.length = 1 :=
  ⟨_, rfl, rfl, rfl⟩

/-- written and read, it is the same -/
example : ∃ v doc v', (U.robot twoNumbers).read armDoc = some v ∧ (U.robot twoNumbers).toXml v = .ok (doc, v') ∧
    (U.robot twoNumbers).read doc = some v := by
  obtain ⟨r, hr, _⟩ := armDoc_reads
  obtain ⟨v, h1, _⟩ := U.robot_iff.1 hr
  obtain ⟨doc, v', h3, h4⟩ := C111_round_trip_partial _ twoNumbers_exact _ _ h1 armDoc_gazebo
  exact ⟨v, doc, v', h1, h3, h4⟩

end PK
