import Verif.Lemmas.Reflect
import Verif.Lemmas.Xml

/-! # What was read can be written, and reads the same again -/

namespace PK.Reflect
open PK

/-- the Boolean `False` occurs in the value -/
inductive HasFalse : PVal → Prop
  | here : HasFalse (.bool false)
  | field (c : Name) (f : Name → Option PVal) (ord : List (Name × PVal)) (k : Name) (x : PVal) :
      f k = some x → HasFalse x → HasFalse (.obj c f ord)
  | order (c : Name) (f : Name → Option PVal) (ord : List (Name × PVal)) (a : Name × PVal) :
      a ∈ ord → HasFalse a.2 → HasFalse (.obj c f ord)

/-- attribute values that were read can be written, and read the same -/
def VType.StableS (vt : VType) : Prop :=
  ∀ t v, vt.fromString t = some v → ¬ HasFalse v → v ≠ .none ∧ ∃ s, vt.toString v = .ok s ∧ vt.fromString (some s) = some v

/-- writing `x` into an empty element `<k/>` leaves `z` and gives an element that reads as `y` -/
def VType.Writes (vt : VType) (k : Name) (x y z : PVal) : Prop :=
  ∃ as tx cs, vt.writeXml (Xml.fresh k) x = .ok (.elem k as tx cs, z) ∧ vt.fromXml (.elem k as tx cs) = some y

/-- element values that were read can be written; they read as `cl` of them, and writing leaves `af` of them -/
def VType.Stable (vt : VType) (cl af : PVal → PVal) : Prop :=
  ∀ n v, vt.fromXml n = some v → ¬ HasFalse v → v ≠ .none ∧ vt.Writes n.tag v (cl v) (af v)

/-- … in an element of any tag -/
def VType.StableAll (vt : VType) (cl af : PVal → PVal) : Prop :=
  ∀ n v, vt.fromXml n = some v → ¬ HasFalse v → v ≠ .none ∧ ∀ k, vt.Writes k v (cl v) (af v)

theorem VType.StableAll.stable {vt : VType} {cl af : PVal → PVal} (h : vt.StableAll cl af) : vt.Stable cl af :=
  fun n v hv hf => ⟨(h n v hv hf).1, (h n v hv hf).2 _⟩

/-- the aggregates of an object, changed -/
def mapOrder (f : Name → PVal → PVal) : PVal → PVal
  | .obj c fs ord => .obj c fs (ord.map fun a => (a.1, f a.1 a.2))
  | v => v

theorem mapOrder_id : mapOrder (fun _ v => v) = id := by
  funext v
  cases v <;> simp [mapOrder]

theorem valueOf_some (p : Param) {v : PVal} (h : v ≠ .none) : Cls.valueOf p (some v) = .ok (some v) := by
  cases v <;> first | exact absurd rfl h | rfl

theorem lookup_append {α : Type} (as bs : List (Name × α)) (k : Name) :
    (as ++ bs).lookup k = (as.lookup k).or (bs.lookup k) := by
  induction as with
  | nil => simp
  | cons a as ih =>
    obtain ⟨j, s⟩ := a
    by_cases h : (k == j) = true
    · simp [List.lookup, h]
    · simp only [Bool.not_eq_true] at h
      simp [List.lookup, h, ih]

namespace Cls
variable {C : Cls}

theorem addAttrs (o : Obj) (t : Name) (x : Option Name) (cs : List Xml) : ∀ (ps : List Param) (as : List (Name × Name)),
    (ps.map Param.xmlVar).Nodup → (∀ p ∈ ps, as.lookup p.xmlVar = none) →
    (∀ p ∈ ps, ∃ v, o.fields p.var = some v ∧ (v = .none ∧ p.required = false ∧ p.dflt = .none ∨
      v ≠ .none ∧ ∃ s, p.vt.toString v = .ok s ∧ p.vt.fromString (some s) = some v)) →
    ∃ as', ps.foldlM (addAttr o) (.elem t as x cs) = .ok (.elem t as' x cs) ∧
      (∀ k, k ∉ ps.map Param.xmlVar → as'.lookup k = as.lookup k) ∧
      ∀ p ∈ ps, ∃ v, o.fields p.var = some v ∧ ∀ y ds, attrVal p (.elem t as' y ds) = some v := by
  intro ps
  induction ps with
  | nil => intro as _ _ _; exact ⟨as, rfl, fun _ _ => rfl, by simp⟩
  | cons p ps ih =>
    intro as hn has h
    rw [List.map_cons, List.nodup_cons] at hn
    obtain ⟨v, hv, hcase⟩ := h p (List.mem_cons_self ..)
    have hps := fun q hq => h q (List.mem_cons_of_mem _ hq)
    rcases hcase with ⟨rfl, hr, hd⟩ | ⟨hne, s, hs, hf⟩
    · obtain ⟨as', h1, h2, h3⟩ := ih as hn.2 (fun q hq => has q (List.mem_cons_of_mem _ hq)) hps
      refine ⟨as', ?_, fun k hk => h2 k fun r => hk (List.mem_cons_of_mem _ r), fun q hq => ?_⟩
      · rw [List.foldlM_cons]
        simp only [addAttr, hv, valueOf, hr, hd, Bool.false_eq_true, if_false, ok_bind]
        exact h1
      · rcases List.mem_cons.1 hq with rfl | hq
        · refine ⟨_, hv, fun y ds => ?_⟩
          have : as'.lookup q.xmlVar = none := by rw [h2 _ hn.1, has q (List.mem_cons_self ..)]
          simp [attrVal, Xml.attr, Xml.attrs, this, hr, hd]
        · exact h3 q hq
    · have hl := has p (List.mem_cons_self ..)
      obtain ⟨as', h1, h2, h3⟩ := ih (as ++ [(p.xmlVar, s)]) hn.2 (fun q hq => by
        rw [lookup_append, has q (List.mem_cons_of_mem _ hq)]
        have : (q.xmlVar == p.xmlVar) = false := by
          simp only [beq_eq_false_iff_ne, ne_eq]
          intro r
          exact hn.1 (r ▸ List.mem_map_of_mem hq)
        simp [List.lookup, this]) hps
      refine ⟨as', ?_, fun k hk => ?_, fun q hq => ?_⟩
      · rw [List.foldlM_cons]
        simp only [addAttr, hv, valueOf_some p hne, ok_bind, hs, Xml.set, hl, Option.isSome_none, Bool.false_eq_true, if_false]
        exact h1
      · rw [List.map_cons, List.mem_cons, not_or] at hk
        rw [h2 k hk.2, lookup_append]
        have : (k == p.xmlVar) = false := by simp [hk.1]
        simp [List.lookup, this]
      · rcases List.mem_cons.1 hq with rfl | hq
        · refine ⟨_, hv, fun y ds => ?_⟩
          have : as'.lookup q.xmlVar = some s := by rw [h2 _ hn.1, lookup_append, hl]; simp [List.lookup]
          simp [attrVal, Xml.attr, Xml.attrs, this, hf]
        · exact h3 q hq

theorem obj_set_self {o : Obj} {k : Name} {v : PVal} (h : o.fields k = some v) : o.set k v = o := by
  cases o
  simp only [Obj.set, Obj.mk.injEq, and_true] at *
  funext j
  by_cases hj : j = k
  · simp [hj, h]
  · simp [hj]

/-- a node that is an element -/
def IsElem : Xml → Prop
  | .elem .. => True
  | .comment => False

theorem addScalars (o : Obj) (t : Name) (as : List (Name × Name)) (x : Option Name) : ∀ (ps : List Param) (cs : List Xml),
    (ps.map Param.xmlVar).Nodup → (∀ p ∈ ps, p.var = p.xmlVar) →
    (∀ p ∈ ps, ∃ v, o.fields p.var = some v ∧ (v = .none ∧ p.required = false ∧ p.dflt = .none ∨
      v ≠ .none ∧ p.vt.Writes p.xmlVar v v v)) →
    ∃ ds, ps.foldlM addScalar (o, .elem t as x cs) = .ok (o, .elem t as x (cs ++ ds)) ∧
      (∀ d ∈ ds, IsElem d ∧ d.tag ∈ ps.map Param.xmlVar) ∧
      ∀ p ∈ ps, ∃ v, o.fields p.var = some v ∧
        (match ds.find? fun c => c.tag == p.xmlVar with
          | some c => p.vt.fromXml c
          | none => if p.required then none else some p.dflt) = some v := by
  intro ps
  induction ps with
  | nil => intro cs _ _ _; exact ⟨[], by simp [pure_ok], by simp, by simp⟩
  | cons p ps ih =>
    intro cs hn hvar h
    rw [List.map_cons, List.nodup_cons] at hn
    obtain ⟨v, hv, hcase⟩ := h p (List.mem_cons_self ..)
    have hpv := hvar p (List.mem_cons_self ..)
    have hps := fun q hq => h q (List.mem_cons_of_mem _ hq)
    have hvs := fun q hq => hvar q (List.mem_cons_of_mem _ hq)
    rcases hcase with ⟨rfl, hr, hd⟩ | ⟨hne, hw⟩
    · obtain ⟨ds, h1, h2, h3⟩ := ih cs hn.2 hvs hps
      refine ⟨ds, ?_, fun d hd => ⟨(h2 d hd).1, List.mem_cons_of_mem _ (h2 d hd).2⟩, fun q hq => ?_⟩
      · rw [List.foldlM_cons]
        simp only [addScalar, ← hpv, hv, valueOf, hr, hd, Bool.false_eq_true, if_false, ok_bind]
        exact h1
      · rcases List.mem_cons.1 hq with rfl | hq
        · refine ⟨_, hv, ?_⟩
          have : (ds.find? fun c => c.tag == q.xmlVar) = none := by
            rw [List.find?_eq_none]
            intro d hd' r
            simp only [beq_iff_eq] at r
            exact hn.1 (r ▸ (h2 d hd').2)
          simp [this, hr, hd]
        · exact h3 q hq
    · obtain ⟨bs, tx, es, hw1, hw2⟩ := hw
      obtain ⟨ds, h1, h2, h3⟩ := ih (cs ++ [.elem p.xmlVar bs tx es]) hn.2 hvs hps
      refine ⟨.elem p.xmlVar bs tx es :: ds, ?_, ?_, fun q hq => ?_⟩
      · rw [List.foldlM_cons]
        have : addScalar (o, .elem t as x cs) p = .ok (o, .elem t as x (cs ++ [.elem p.xmlVar bs tx es])) := by
          simp only [addScalar, ← hpv, hv, valueOf_some p hne, ok_bind, Xml.append]
          rw [hpv, hw1]
          simp only [ok_bind]
          rw [← hpv, obj_set_self hv]
          cases v <;> first | rfl | exact absurd rfl hne
        rw [this]
        simp only [ok_bind]
        rw [h1]
        simp
      · intro d hd
        rcases List.mem_cons.1 hd with rfl | hd
        · exact ⟨trivial, List.mem_cons_self ..⟩
        · exact ⟨(h2 d hd).1, List.mem_cons_of_mem _ (h2 d hd).2⟩
      · rcases List.mem_cons.1 hq with rfl | hq
        · refine ⟨_, hv, ?_⟩
          rw [List.find?_cons_of_pos (by simp [Xml.tag])]
          exact hw2
        · have hne' : ¬ p.xmlVar = q.xmlVar := fun r => hn.1 (r ▸ List.mem_map_of_mem hq)
          rw [List.find?_cons_of_neg (by simp [Xml.tag, hne'])]
          exact h3 q hq

theorem addAggregates (hE : ((C.aggregates ++ C.scalars).map Param.xmlVar).Nodup) (cl af : Name → PVal → PVal)
    (t : Name) (as : List (Name × Name)) (x : Option Name) :
    ∀ (ord : List (Name × PVal)) (acc : List (Name × PVal)) (cs : List Xml),
    (∀ a ∈ ord, ∃ p ∈ C.aggregates, p.xmlVar = a.1 ∧ p.vt.Writes a.1 a.2 (cl a.1 a.2) (af a.1 a.2)) →
    ∃ es, ord.foldlM C.addAggregate (acc, .elem t as x cs) =
        .ok (acc ++ ord.map fun a => (a.1, af a.1 a.2), .elem t as x (cs ++ es)) ∧
      (∀ d ∈ es, IsElem d ∧ d.tag ∈ C.aggregates.map Param.xmlVar) ∧
      aggVals C.aggregates es = some (ord.map fun a => (a.1, cl a.1 a.2)) := by
  intro ord
  induction ord with
  | nil => intro acc cs _; exact ⟨[], by simp [pure_ok], by simp, rfl⟩
  | cons a ord ih =>
    intro acc cs h
    obtain ⟨p, hp, hpa, hw⟩ := h a (List.mem_cons_self ..)
    obtain ⟨bs, tx, ds, hw1, hw2⟩ := hw
    have hw1' : p.vt.writeXml (Xml.fresh p.xmlVar) a.2 = .ok (.elem p.xmlVar bs tx ds, af a.1 a.2) := by rw [hpa]; exact hw1
    obtain ⟨es, h1, h2, h3⟩ := ih (acc ++ [(a.1, af a.1 a.2)]) (cs ++ [.elem p.xmlVar bs tx ds])
      fun b hb => h b (List.mem_cons_of_mem _ hb)
    have e1 : paramOf (C.aggregates ++ C.scalars) a.1 = some p := hpa ▸ paramOf_eq hE (List.mem_append_left _ hp)
    have e2 : paramOf C.aggregates p.xmlVar = some p := by
      rw [List.map_append] at hE
      exact paramOf_eq (List.nodup_append.1 hE).1 hp
    refine ⟨.elem p.xmlVar bs tx ds :: es, ?_, ?_, ?_⟩
    · rw [List.foldlM_cons]
      simp only [addAggregate, e1, hw1', ok_bind, Xml.append]
      rw [h1]
      simp
    · intro d hd
      rcases List.mem_cons.1 hd with rfl | hd
      · exact ⟨trivial, List.mem_map_of_mem hp⟩
      · exact h2 d hd
    · rw [hpa] at e2
      simp [aggVals, Xml.tag, e2, hw2, h3, hpa]

theorem aggVals_append {ps : List Param} {ds es : List Xml} (h : ∀ d ∈ ds, d.tag ∉ ps.map Param.xmlVar) :
    aggVals ps (ds ++ es) = aggVals ps es := by
  induction ds with
  | nil => rfl
  | cons d ds ih =>
    rw [List.cons_append, aggVals, paramOf_none.2 (h d (List.mem_cons_self ..))]
    exact ih fun d hd => h d (List.mem_cons_of_mem _ hd)

theorem children_of_elems {t : Name} {as : List (Name × Name)} {x : Option Name} {cs : List Xml} (h : ∀ d ∈ cs, IsElem d) :
    (Xml.elem t as x cs).children = cs := by
  simp only [Xml.children, List.filter_eq_self]
  intro d hd
  have := h d hd
  cases d with
  | comment => exact absurd this id
  | elem => rfl

theorem aggVals_mem {ps : List Param} : ∀ {cs : List Xml} {l : List (Name × PVal)}, aggVals ps cs = some l → ∀ a ∈ l,
    ∃ p ∈ ps, p.xmlVar = a.1 ∧ ∃ c ∈ cs, c.tag = a.1 ∧ p.vt.fromXml c = some a.2 := by
  intro cs
  induction cs with
  | nil => intro l h a ha; simp [aggVals] at h; simp [h] at ha
  | cons c cs ih =>
    intro l h a ha
    rw [aggVals] at h
    cases e : paramOf ps c.tag with
    | none =>
      rw [e] at h
      obtain ⟨p, hp, h1, d, hd, h2⟩ := ih h a ha
      exact ⟨p, hp, h1, d, List.mem_cons_of_mem _ hd, h2⟩
    | some p =>
      rw [e] at h
      simp only [Option.bind_eq_bind, Option.bind_eq_some_iff, Option.some.injEq] at h
      obtain ⟨v, hv, l', hl, rfl⟩ := h
      obtain ⟨hp, hpt⟩ := paramOf_mem e
      rcases List.mem_cons.1 ha with rfl | ha
      · exact ⟨p, hp, hpt, c, List.mem_cons_self .., rfl, hv⟩
      · obtain ⟨p, hp, h1, d, hd, h2⟩ := ih hl a ha
        exact ⟨p, hp, h1, d, List.mem_cons_of_mem _ hd, h2⟩

/-- Writing an object whose values can be written. -/
theorem write_ok (hC : C.Proper) (cl af : Name → PVal → PVal) (f : Name → Option PVal) (ord : List (Name × PVal))
    (hchk : C.check (.obj C.name f ord) = true)
    (hchk' : C.check (.obj C.name f (ord.map fun a => (a.1, cl a.1 a.2))) = true)
    (hA : ∀ p ∈ C.attributes, ∃ v, f p.var = some v ∧ (v = .none ∧ p.required = false ∧ p.dflt = .none ∨
      v ≠ .none ∧ ∃ s, p.vt.toString v = .ok s ∧ p.vt.fromString (some s) = some v))
    (hS : ∀ p ∈ C.scalars, ∃ v, f p.var = some v ∧ (v = .none ∧ p.required = false ∧ p.dflt = .none ∨
      v ≠ .none ∧ p.vt.Writes p.xmlVar v v v))
    (hG : ∀ a ∈ ord, ∃ p ∈ C.aggregates, p.xmlVar = a.1 ∧ p.vt.Writes a.1 a.2 (cl a.1 a.2) (af a.1 a.2))
    (hR : ∀ k, k ∉ (C.attributes ++ C.scalars).map Param.var → f k = C.init.lookup k) :
    ∀ k, ∃ as cs, C.write (Xml.fresh k) (.obj C.name f ord) = .ok (.elem k as none cs, mapOrder af (.obj C.name f ord)) ∧
      C.read (.elem k as none cs) = some (mapOrder cl (.obj C.name f ord)) ∧
      ∀ d ∈ cs, d.tag ∈ (C.aggregates ++ C.scalars).map Param.xmlVar := by
  intro k
  have hS' : (C.scalars.map Param.xmlVar).Nodup := by
    have := hC.elems; rw [List.map_append] at this; exact (List.nodup_append.1 this).2.1
  have hdisj : ∀ k, k ∈ C.aggregates.map Param.xmlVar → k ∉ C.scalars.map Param.xmlVar := fun k h1 h2 => by
    have := hC.elems; rw [List.map_append] at this
    exact (List.nodup_append.1 this).2.2 k h1 k h2 rfl
  obtain ⟨as, a1, a2, a3⟩ := addAttrs ⟨f, ord⟩ k none [] C.attributes [] hC.attrs (by simp) hA
  obtain ⟨ds, b1, b2, b3⟩ := addScalars ⟨f, ord⟩ k as none C.scalars [] hS' hC.same hS
  obtain ⟨es, c1, c2, c3⟩ := addAggregates hC.elems cl af k as none ord [] ([] ++ ds) hG
  have hel : ∀ d ∈ ds ++ es, IsElem d := fun d hd => by
    rcases List.mem_append.1 hd with h | h
    · exact (b2 d h).1
    · exact (c2 d h).1
  refine ⟨as, ds ++ es, ?_, ?_, fun d hd => ?_⟩
  · simp only [write, if_true, hchk, Xml.fresh, a1, ok_bind, b1]
    by_cases hem : C.aggregates.isEmpty = true
    · have hnil : C.aggregates = [] := by simpa using hem
      have ho : ord = [] := by
        cases ord with
        | nil => rfl
        | cons a l =>
          obtain ⟨p, hp, _⟩ := hG a (List.mem_cons_self ..)
          rw [hnil] at hp; cases hp
      have he : es = [] := by
        cases es with
        | nil => rfl
        | cons d l =>
          have := (c2 d (List.mem_cons_self ..)).2
          rw [hnil] at this; simp at this
      simp [hem, ho, he, mapOrder]
    · simp only [hem, Bool.false_eq_true, if_false, c1, ok_bind]
      simp [mapOrder]
  · refine (read_iff hC).2 ⟨⟨f, ord.map fun a => (a.1, cl a.1 a.2)⟩, ⟨fun p hp => ?_, fun p hp => ?_, hR, ?_⟩, rfl, hchk'⟩
    · obtain ⟨v, h1, h2⟩ := a3 p hp
      exact ⟨v, h2 _ _, h1⟩
    · obtain ⟨v, h1, h2⟩ := b3 p hp
      refine ⟨v, ?_, h1⟩
      rw [scalVal, Xml.scalar, children_of_elems hel, List.find?_append]
      have : (es.find? fun c => c.tag == p.xmlVar) = none := by
        rw [List.find?_eq_none]
        intro d hd r
        simp only [beq_iff_eq] at r
        exact hdisj _ (c2 d hd).2 (r ▸ List.mem_map_of_mem hp)
      rw [this, Option.or_none]
      exact h2
    · rw [children_of_elems hel, aggVals_append, c3]
      intro d hd r
      exact hdisj _ r (b2 d hd).2
  · rw [List.map_append]
    rcases List.mem_append.1 hd with h | h
    · exact List.mem_append_right _ (b2 d h).2
    · exact List.mem_append_left _ (c2 d h).2

/-- If the values of a table can be written and read again, so can its objects. -/
theorem written (hC : C.Proper) (cl af : Name → PVal → PVal)
    (hA : ∀ p ∈ C.attributes, p.vt.StableS ∧ (p.dflt = .none ∨
      p.dflt ≠ .none ∧ ∃ s, p.vt.toString p.dflt = .ok s ∧ p.vt.fromString (some s) = some p.dflt))
    (hS : ∀ p ∈ C.scalars, p.vt.Stable id id ∧ p.dflt = .none)
    (hG : ∀ p ∈ C.aggregates, p.vt.Stable (cl p.xmlVar) (af p.xmlVar))
    (hk : ∀ f ord, C.check (.obj C.name f ord) = true → C.check (.obj C.name f (ord.map fun a => (a.1, cl a.1 a.2))) = true) :
    ∀ n v, C.read n = some v → ¬ HasFalse v → ∀ k, ∃ as cs, C.write (Xml.fresh k) v = .ok (.elem k as none cs, mapOrder af v) ∧
      C.read (.elem k as none cs) = some (mapOrder cl v) ∧ ∀ d ∈ cs, d.tag ∈ (C.aggregates ++ C.scalars).map Param.xmlVar := by
  intro n v hv hnf
  obtain ⟨o, ho, rfl, hc⟩ := (read_iff hC).1 hv
  refine write_ok hC cl af _ _ hc (hk _ _ hc) (fun p hp => ?_) (fun p hp => ?_) (fun a ha => ?_) ho.rest
  · obtain ⟨x, h1, h2⟩ := ho.attr p hp
    refine ⟨x, h2, ?_⟩
    have hx : ¬ HasFalse x := fun r => hnf (.field _ _ _ _ _ h2 r)
    rw [attrVal] at h1
    split at h1
    · exact Or.inr ((hA p hp).1 _ _ h1 hx)
    · split at h1
      · cases h1
      · next hr =>
        obtain rfl := Option.some.inj h1
        rcases (hA p hp).2 with h | ⟨h, s, hs⟩
        · exact Or.inl ⟨h, by simpa using hr, h⟩
        · exact Or.inr ⟨h, s, hs⟩
  · obtain ⟨x, h1, h2⟩ := ho.scal p hp
    refine ⟨x, h2, ?_⟩
    have hx : ¬ HasFalse x := fun r => hnf (.field _ _ _ _ _ h2 r)
    rw [scalVal] at h1
    split at h1
    · next c hc' =>
      have ht : c.tag = p.xmlVar := by simpa using List.find?_some hc'
      exact Or.inr (ht ▸ (hS p hp).1 _ _ h1 hx)
    · split at h1
      · cases h1
      · next hr =>
        obtain rfl := Option.some.inj h1
        exact Or.inl ⟨(hS p hp).2, by simpa using hr, (hS p hp).2⟩
  · obtain ⟨p, hp, hpa, c, _, hct, hcx⟩ := aggVals_mem ho.order a ha
    have := (hG p hp c a.2 hcx fun r => hnf (.order _ _ _ a ha r)).2
    rw [hct, hpa] at this
    exact ⟨p, hp, hpa, this⟩

theorem read_ne_none {n : Xml} {v : PVal} (h : C.read n = some v) : v ≠ .none := by
  simp only [read, Option.bind_eq_bind, Option.bind_eq_some_iff] at h
  obtain ⟨o, _, h⟩ := h
  split at h
  · rw [← Option.some.inj h]; simp
  · cases h

/-- the same for a table whose values do not change when they are written -/
theorem written_id (hC : C.Proper)
    (hA : ∀ p ∈ C.attributes, p.vt.StableS ∧ (p.dflt = .none ∨
      p.dflt ≠ .none ∧ ∃ s, p.vt.toString p.dflt = .ok s ∧ p.vt.fromString (some s) = some p.dflt))
    (hS : ∀ p ∈ C.scalars, p.vt.Stable id id ∧ p.dflt = .none)
    (hG : ∀ p ∈ C.aggregates, p.vt.Stable id id) :
    ∀ n v, C.read n = some v → ¬ HasFalse v → ∀ k, ∃ as cs, C.write (Xml.fresh k) v = .ok (.elem k as none cs, v) ∧
      C.read (.elem k as none cs) = some v ∧ ∀ d ∈ cs, d.tag ∈ (C.aggregates ++ C.scalars).map Param.xmlVar := by
  have := written hC (fun _ v => v) (fun _ v => v) hA hS hG (fun f ord h => by simpa using h)
  rw [mapOrder_id] at this
  exact this

theorem stable_id (hC : C.Proper)
    (hA : ∀ p ∈ C.attributes, p.vt.StableS ∧ (p.dflt = .none ∨
      p.dflt ≠ .none ∧ ∃ s, p.vt.toString p.dflt = .ok s ∧ p.vt.fromString (some s) = some p.dflt))
    (hS : ∀ p ∈ C.scalars, p.vt.Stable id id ∧ p.dflt = .none)
    (hG : ∀ p ∈ C.aggregates, p.vt.Stable id id) : C.type.StableAll id id := by
  intro n v hv hf
  refine ⟨read_ne_none hv, fun k => ?_⟩
  obtain ⟨as, cs, h1, h2, _⟩ := written_id hC hA hS hG n v hv hf k
  exact ⟨as, none, cs, h1, h2⟩

end Cls

/-! ## the value types -/

/-- Numbers that were read are printed so that they read the same: `float(str(x)) == x`. Holds for Python's shortest
representation; the printed text is a word. -/
structure Fmt.Exact (F : Fmt) : Prop where
  back : ∀ s x, F.parse s = some x → F.parse (F.text x) = some x
  zero : F.parse (F.text (.fin 0)) = some (.fin 0)
  word : ∀ x, F.text x ≠ [] ∧ ∀ c ∈ F.text x, isSpace c = false

variable {F : Fmt}

theorem ofString_stable {r : Option Name → Option PVal} {w : PVal → Except Err Name} (h : (VType.ofString r w).StableS) :
    (VType.ofString r w).StableAll id id := by
  intro n v hv hf
  obtain ⟨h1, s, hs, hr⟩ := h n.text v hv hf
  refine ⟨h1, fun k => ⟨[], some s, [], ?_, ?_⟩⟩
  · have hs' : w v = .ok s := hs
    simp [VType.ofString, hs', Xml.fresh, Xml.setText, ok_bind]
  · exact hr

theorem strT_stable : (strT F).StableS := by
  intro t v h _
  obtain rfl := Option.some.inj h
  exact ⟨by simp, _, rfl, rfl⟩

theorem boolT_stable : (boolT F).StableS := by
  intro t v h hf
  obtain ⟨b, rfl⟩ : ∃ b, v = .bool b := ⟨_, (Option.some.inj h).symm⟩
  cases b
  · exact absurd .here hf
  · exact ⟨by simp, n!"True", rfl, rfl⟩

theorem floatT_stable (hF : F.Exact) : (floatT F).StableS := by
  intro t v h _
  simp only [floatT, VType.ofString, Option.bind_eq_some_iff, Option.map_eq_some_iff] at h
  obtain ⟨s, rfl, x, hx, rfl⟩ := h
  refine ⟨by simp, F.text x, rfl, ?_⟩
  simp [floatT, VType.ofString, hF.back s x hx]

theorem pySplit_join : ∀ (ws : List Name), ws ≠ [] → (∀ w ∈ ws, IsWord w) → pySplit (joinSp ws) = ws := by
  intro ws
  induction ws with
  | nil => intro h; exact absurd rfl h
  | cons w ws ih =>
    intro _ h
    cases ws with
    | nil => exact pySplit_last w (h w (by simp))
    | cons w' ws =>
      rw [joinSp, pySplit_cons _ _ (h w (by simp)), ih (by simp) fun v hv => h v (List.mem_cons_of_mem _ hv)]
      simp

theorem mapM_text (hF : F.Exact) : ∀ (l : List Fl), (∀ x ∈ l, F.parse (F.text x) = some x) →
    (l.map F.text).mapM F.parse = some l := by
  intro l
  induction l with
  | nil => intro _; rfl
  | cons x l ih =>
    intro h
    rw [List.map_cons, List.mapM_cons, h x (by simp), ih fun y hy => h y (List.mem_cons_of_mem _ hy)]
    rfl

theorem vec_text (hF : F.Exact) {count : ℕ} (h0 : count ≠ 0) {l : List Fl} (hl : l.length = count)
    (h : ∀ x ∈ l, F.parse (F.text x) = some x) :
    (vecT F count).toString (.vec l) = .ok (joinSp (l.map F.text)) ∧
    (vecT F count).fromString (some (joinSp (l.map F.text))) = some (.vec l) := by
  have e : pySplit (joinSp (l.map F.text)) = l.map F.text := by
    refine pySplit_join _ ?_ ?_
    · intro r
      have : l = [] := by simpa using r
      subst this
      exact h0 hl.symm
    · intro w hw
      obtain ⟨x, _, rfl⟩ := List.mem_map.1 hw
      exact hF.word x
  constructor
  · simp [vecT, VType.ofString, hl]
  · simp [vecT, VType.ofString, e, hl, mapM_text hF l h]

theorem mapM_some_mem {α β : Type} {f : α → Option β} : ∀ {l : List α} {r : List β}, l.mapM f = some r →
    r.length = l.length ∧ ∀ y ∈ r, ∃ x ∈ l, f x = some y := by
  intro l
  induction l with
  | nil => intro r h; simp at h; simp [h]
  | cons a l ih =>
    intro r h
    simp only [List.mapM_cons, Option.bind_eq_bind, Option.bind_eq_some_iff, Option.pure_def, Option.some.injEq] at h
    obtain ⟨b, hb, s, hs, rfl⟩ := h
    obtain ⟨h1, h2⟩ := ih hs
    refine ⟨by simp [h1], fun y hy => ?_⟩
    rcases List.mem_cons.1 hy with rfl | hy
    · exact ⟨a, by simp, hb⟩
    · obtain ⟨x, hx, hxy⟩ := h2 y hy
      exact ⟨x, by simp [hx], hxy⟩

theorem vecT_stable (hF : F.Exact) {count : ℕ} (h0 : count ≠ 0) : (vecT F count).StableS := by
  intro t v h _
  simp only [vecT, VType.ofString, Option.bind_eq_some_iff] at h
  obtain ⟨s, rfl, h⟩ := h
  split at h
  · next hl =>
    obtain ⟨l, hm, rfl⟩ := Option.map_eq_some_iff.1 h
    obtain ⟨h1, h2⟩ := mapM_some_mem hm
    refine ⟨by simp, joinSp (l.map F.text), vec_text hF h0 (h1.trans hl) fun x hx => ?_⟩
    obtain ⟨w, _, hw⟩ := h2 x hx
    exact hF.back w x hw
  · cases h

theorem simpleT_stable {vt : VType} (h : vt.StableS) (key : Name) : (simpleT key vt).StableAll id id := by
  intro n v hv hf
  obtain ⟨h1, s, hs, hr⟩ := h _ v hv hf
  refine ⟨h1, fun k => ⟨[(key, s)], none, [], ?_, ?_⟩⟩
  · simp [simpleT, hs, Xml.fresh, Xml.set, ok_bind, List.lookup]
  · simpa [simpleT, Xml.attr, Xml.attrs, List.lookup] using hr

theorem geometricT_stable {types : List (Name × Cls)} (ht : (types.map Prod.fst).Nodup)
    (hn : (types.map fun t => t.2.name).Nodup) (h : ∀ t ∈ types, t.2.type.StableAll id id)
    (hread : ∀ t ∈ types, ∀ n v, t.2.read n = some v → v.cls = some t.2.name) : (geometricT types).StableAll id id := by
  have hlook : ∀ {a C}, types.lookup a = some C → (a, C) ∈ types := by
    intro a C
    clear ht hn h hread
    induction types with
    | nil => simp
    | cons t l ih =>
      obtain ⟨b, D⟩ := t
      by_cases hb : a = b
      · subst hb; simp +contextual
      · have : (a == b) = false := by simp [hb]
        simp only [List.lookup, this]
        exact fun hl => List.mem_cons_of_mem _ (ih hl)
  have hlook' : ∀ {a C}, (a, C) ∈ types → types.lookup a = some C := by
    intro a C hm
    cases e : types.lookup a with
    | none =>
      rw [List.lookup_eq_none_iff] at e
      have := e _ hm
      simp at this
    | some D =>
      have := List.inj_on_of_nodup_map ht (hlook e) hm rfl
      simpa using this
  intro n v hv hf
  simp only [geometricT] at hv
  split at hv
  · next c hc =>
    obtain ⟨C, hC, hr⟩ := Option.bind_eq_some_iff.1 hv
    have hm := hlook hC
    have hw := (h _ hm c v hr hf).2
    refine ⟨(h _ hm c v hr hf).1, fun k => ?_⟩
    obtain ⟨as, tx, cs, h1, h2⟩ := hw c.tag
    have hfind : (types.find? fun t => some t.2.name == v.cls) = some (c.tag, C) := by
      rw [hread _ hm c v hr]
      cases e : types.find? fun t => some t.2.name == some C.name with
      | none =>
        have := (List.find?_eq_none.1 e) _ hm
        simp at this
      | some t =>
        have h3 : t.2.name = C.name := by simpa using List.find?_some e
        rw [List.inj_on_of_nodup_map hn (List.mem_of_find?_eq_some e) hm h3]
    have h1' : C.write (Xml.fresh c.tag) v = .ok (.elem c.tag as tx cs, v) := h1
    refine ⟨[], none, [.elem c.tag as tx cs], ?_, ?_⟩
    · simp only [geometricT, hfind, h1', ok_bind]
      rfl
    · have h2' : C.read (.elem c.tag as tx cs) = some v := h2
      have : (Xml.elem k [] none [.elem c.tag as tx cs]).children = [.elem c.tag as tx cs] := rfl
      have ht : (Xml.elem c.tag as tx cs).tag = c.tag := rfl
      simp only [geometricT, this, ht, hC, Option.bind_some, h2', id]
  · cases hv

theorem read_cls {C : Cls} {n : Xml} {v : PVal} (h : C.read n = some v) : v.cls = some C.name := by
  simp only [Cls.read, Option.bind_eq_bind, Option.bind_eq_some_iff] at h
  obtain ⟨o, _, h⟩ := h
  split at h
  · rw [← Option.some.inj h]; rfl
  · cases h

/-- two classes, such that what the second writes the first does not read -/
theorem duckT_stable {A B : Cls} (hn : A.name ≠ B.name) (hA : A.type.StableAll id id)
    (hB : ∀ n v, B.read n = some v → ¬ HasFalse v → ∀ k, ∃ as cs, B.write (Xml.fresh k) v = .ok (.elem k as none cs, v) ∧
      B.read (.elem k as none cs) = some v ∧ A.read (.elem k as none cs) = none) :
    (duckT [A, B]).StableAll id id := by
  intro n v hv hf
  simp only [duckT, List.findSome?_cons, List.findSome?_nil] at hv
  split at hv
  · next b hb =>
    obtain rfl := Option.some.inj hv
    obtain ⟨h1, h2⟩ := hA n b hb hf
    refine ⟨h1, fun k => ?_⟩
    obtain ⟨as, tx, cs, h3, h4⟩ := h2 k
    refine ⟨as, tx, cs, ?_, ?_⟩
    · have h3' : A.write (Xml.fresh k) b = .ok (.elem k as tx cs, b) := h3
      simp [duckT, List.find?, read_cls hb, h3']
    · have h4' : A.read (.elem k as tx cs) = some b := h4
      simp [duckT, h4']
  · next ha =>
    split at hv
    · next b hb =>
      obtain rfl := Option.some.inj hv
      refine ⟨Cls.read_ne_none hb, fun k => ?_⟩
      obtain ⟨as, cs, h1, h2, h3⟩ := hB n b hb hf k
      refine ⟨as, none, cs, ?_, ?_⟩
      · have : (A.name == B.name) = false := by simp [hn]
        simp [duckT, List.find?, read_cls hb, h1, this]
      · simp [duckT, h2, h3]
    · cases hv

/-- what becomes of a raw element that is written and read: text and comments (of the element itself) are lost -/
def cleanRaw : PVal → PVal
  | .raw (.elem t as _ cs) => .raw (.elem t (as.foldl (fun m a => Xml.set m a.1 a.2) (Xml.fresh t)).attrs none
      ((Xml.elem t as none cs).children))
  | .raw .comment => .raw (Xml.fresh [])
  | v => v

/-- what is left of a raw element once it was written: the attributes, the text and the comments -/
def emptyRaw : PVal → PVal
  | .raw (.elem t as x cs) => .raw (.elem t as x (cs.filter fun | .comment => true | .elem .. => false))
  | v => v

theorem foldl_append (cs : List Xml) : ∀ t as x ds, cs.foldl Xml.append (.elem t as x ds) = .elem t as x (ds ++ cs) := by
  induction cs with
  | nil => simp
  | cons c cs ih => intro t as x ds; simp [Xml.append, ih]

theorem foldl_set (l : List (Name × Name)) : ∀ t as x cs y ds,
    l.foldl (fun m a => Xml.set m a.1 a.2) (.elem t as x cs) =
      .elem t (l.foldl (fun m a => Xml.set m a.1 a.2) (.elem t as y ds)).attrs x cs := by
  induction l with
  | nil => intros; rfl
  | cons a l ih =>
    intro t as x cs y ds
    simp only [List.foldl_cons, Xml.set]
    exact ih ..

theorem rawT_stable : rawT.Stable cleanRaw emptyRaw := by
  intro n v hv _
  obtain rfl := Option.some.inj hv
  refine ⟨by simp, ?_⟩
  cases n with
  | comment => exact ⟨[], none, [], rfl, rfl⟩
  | elem t as x cs =>
    refine ⟨_, none, _, ?_, rfl⟩
    simp only [rawT, Xml.fresh, foldl_append, Xml.attrs, emptyRaw, Xml.tag, List.nil_append]
    rw [foldl_set as t [] none _ none []]
    rfl

end PK.Reflect
