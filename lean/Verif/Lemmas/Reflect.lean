import Verif.Model.Reflect
import Verif.Lemmas.Exc

/-!
# What the reflection engine reads and writes

`Cls.read_iff` says what `Reflection.set_from_xml` computes, without its loops; `Cls.stable` says that what was read can be
written, and reads the same again.
-/

namespace PK.Reflect
open PK

/-- the names within a table are distinct -/
structure Cls.Proper (C : Cls) : Prop where
  attrs : (C.attributes.map Param.xmlVar).Nodup
  elems : ((C.aggregates ++ C.scalars).map Param.xmlVar).Nodup
  vars : ((C.attributes ++ C.scalars).map Param.var).Nodup
  same : ∀ p ∈ C.scalars, p.var = p.xmlVar

theorem paramOf_mem {ps : List Param} {k : Name} {p : Param} (h : paramOf ps k = some p) : p ∈ ps ∧ p.xmlVar = k := by
  refine ⟨List.mem_of_find?_eq_some h, ?_⟩
  have := List.find?_some h
  simpa using this

theorem paramOf_none {ps : List Param} {k : Name} : paramOf ps k = none ↔ k ∉ ps.map Param.xmlVar := by
  simp [paramOf, List.find?_eq_none]

theorem paramOf_eq {ps : List Param} (h : (ps.map Param.xmlVar).Nodup) {p : Param} (hp : p ∈ ps) :
    paramOf ps p.xmlVar = some p := by
  cases e : paramOf ps p.xmlVar with
  | none => exact absurd (List.mem_map_of_mem hp) (paramOf_none.1 e)
  | some q =>
    obtain ⟨h1, h2⟩ := paramOf_mem e
    rw [List.inj_on_of_nodup_map h h1 hp h2]

/-- the value of an attribute -/
def attrVal (p : Param) (n : Xml) : Option PVal :=
  match n.attr p.xmlVar with
  | some s => p.vt.fromString (some s)
  | none => if p.required then none else some p.dflt

/-- the value of a scalar element -/
def scalVal (p : Param) (n : Xml) : Option PVal :=
  match n.scalar p.xmlVar with
  | some c => p.vt.fromXml c
  | none => if p.required then none else some p.dflt

/-- the aggregates among these nodes, read -/
def aggVals (ps : List Param) : List Xml → Option (List (Name × PVal))
  | [] => some []
  | c :: cs => match paramOf ps c.tag with
    | none => aggVals ps cs
    | some p => do
      let v ← p.vt.fromXml c
      let l ← aggVals ps cs
      some ((c.tag, v) :: l)

namespace Cls
variable {C : Cls}

theorem attrs_fold (hA : (C.attributes.map Param.xmlVar).Nodup) (hV : (C.attributes.map Param.var).Nodup) (n : Xml) :
    ∀ (ks : List Name) (o o' : Obj) (u u' : List Name), u.Nodup →
    ks.foldlM (C.readAttr n) (o, u) = some (o', u') →
    o'.order = o.order ∧ u'.Nodup ∧
    (∀ p ∈ C.attributes, p.xmlVar ∈ ks → ∃ s v, n.attr p.xmlVar = some s ∧ p.vt.fromString (some s) = some v ∧
      o'.fields p.var = some v) ∧
    (∀ k, (∀ p ∈ C.attributes, p.xmlVar ∈ ks → p.var ≠ k) → o'.fields k = o.fields k) ∧
    ∀ k, k ∈ u' ↔ k ∈ u ∧ ¬ (k ∈ ks ∧ k ∈ C.attributes.map Param.xmlVar) := by
  intro ks
  induction ks with
  | nil =>
    intro o o' u u' hu h
    simp only [List.foldlM_nil, Option.pure_def, Option.some.injEq, Prod.mk.injEq] at h
    obtain ⟨rfl, rfl⟩ := h
    simp [hu]
  | cons k ks ih =>
    intro o o' u u' hu h
    rw [List.foldlM_cons] at h
    cases e : paramOf C.attributes k with
    | none =>
      simp only [readAttr, e, Option.bind_eq_bind, Option.bind_some] at h
      obtain ⟨h1, h2, h3, h4, h5⟩ := ih o o' u u' hu h
      have hk := paramOf_none.1 e
      refine ⟨h1, h2, fun p hp hm => ?_, fun j hj => ?_, fun j => ?_⟩
      · rcases List.mem_cons.1 hm with r | r
        · exact absurd (r ▸ List.mem_map_of_mem hp) hk
        · exact h3 p hp r
      · exact h4 j fun p hp hm => hj p hp (List.mem_cons_of_mem _ hm)
      · rw [h5]
        constructor
        · rintro ⟨a, b⟩
          refine ⟨a, fun ⟨c, d⟩ => ?_⟩
          rcases List.mem_cons.1 c with r | r
          · exact hk (r ▸ d)
          · exact b ⟨r, d⟩
        · rintro ⟨a, b⟩
          exact ⟨a, fun ⟨c, d⟩ => b ⟨List.mem_cons_of_mem _ c, d⟩⟩
    | some p =>
      obtain ⟨hp, rfl⟩ := paramOf_mem e
      simp only [readAttr, e, Option.bind_eq_bind, Option.bind_eq_some_iff] at h
      obtain ⟨⟨o1, u1⟩, ⟨s, hs, v, hv, he⟩, h⟩ := h
      simp only [Option.some.injEq, Prod.mk.injEq] at he
      obtain ⟨rfl, rfl⟩ := he
      obtain ⟨h1, h2, h3, h4, h5⟩ := ih _ o' _ u' (hu.erase _) h
      refine ⟨h1, h2, fun q hq hm => ?_, fun j hj => ?_, fun j => ?_⟩
      · by_cases hqk : q.xmlVar ∈ ks
        · exact h3 q hq hqk
        · rcases List.mem_cons.1 hm with r | r
          · have : q = p := List.inj_on_of_nodup_map hA hq hp r
            subst this
            refine ⟨s, v, hs, hv, ?_⟩
            rw [h4 q.var]
            · simp [Obj.set]
            · intro q' hq' hm' hvv
              exact hqk (List.inj_on_of_nodup_map hV hq' hq hvv ▸ hm')
          · exact absurd r hqk
      · rw [h4 j fun q hq hm => hj q hq (List.mem_cons_of_mem _ hm)]
        have := hj p hp (List.mem_cons_self ..)
        simp [Obj.set, Ne.symm this]
      · rw [h5, hu.mem_erase_iff]
        constructor
        · rintro ⟨⟨a, b⟩, c⟩
          refine ⟨b, fun ⟨d, f⟩ => ?_⟩
          rcases List.mem_cons.1 d with r | r
          · exact a r
          · exact c ⟨r, f⟩
        · rintro ⟨a, b⟩
          exact ⟨⟨fun r => b ⟨r ▸ List.mem_cons_self .., r ▸ List.mem_map_of_mem hp⟩, a⟩,
            fun ⟨c, d⟩ => b ⟨List.mem_cons_of_mem _ c, d⟩⟩

theorem attrs_fold_ok (n : Xml) : ∀ (ks : List Name) (s : Obj × List Name),
    (∀ p ∈ C.attributes, p.xmlVar ∈ ks → ∃ s v, n.attr p.xmlVar = some s ∧ p.vt.fromString (some s) = some v) →
    ∃ t, ks.foldlM (C.readAttr n) s = some t := by
  intro ks
  induction ks with
  | nil => intro s _; exact ⟨s, rfl⟩
  | cons k ks ih =>
    intro s h
    rw [List.foldlM_cons]
    have h' : ∀ p ∈ C.attributes, p.xmlVar ∈ ks → ∃ s v, n.attr p.xmlVar = some s ∧ p.vt.fromString (some s) = some v :=
      fun p hp hm => h p hp (List.mem_cons_of_mem _ hm)
    cases e : paramOf C.attributes k with
    | none =>
      simp only [readAttr, e, Option.bind_eq_bind, Option.bind_some]
      exact ih s h'
    | some p =>
      obtain ⟨hp, rfl⟩ := paramOf_mem e
      obtain ⟨t, v, ht, hv⟩ := h p hp (List.mem_cons_self ..)
      simp only [readAttr, e, ht, hv, Option.bind_eq_bind, Option.bind_some]
      exact ih _ h'

theorem children_fold (hE : ((C.aggregates ++ C.scalars).map Param.xmlVar).Nodup) (hV : (C.scalars.map Param.var).Nodup) :
    ∀ (cs : List Xml) (o o' : Obj) (u u' : List Name), u.Nodup →
    cs.foldlM C.readChild (o, u) = some (o', u') →
    (∃ l, aggVals C.aggregates cs = some l ∧ o'.order = o.order ++ l) ∧ u'.Nodup ∧
    (∀ p ∈ C.scalars, p.xmlVar ∈ u → ∀ c, (cs.find? fun c => c.tag == p.xmlVar) = some c →
      ∃ v, p.vt.fromXml c = some v ∧ o'.fields p.var = some v) ∧
    (∀ k, (∀ p ∈ C.scalars, p.xmlVar ∈ u → (cs.find? fun c => c.tag == p.xmlVar) ≠ none → p.var ≠ k) →
      o'.fields k = o.fields k) ∧
    ∀ k, k ∈ u' ↔ k ∈ u ∧ ¬ ((cs.find? fun c => c.tag == k) ≠ none ∧ k ∈ C.scalars.map Param.xmlVar) := by
  rw [List.map_append] at hE
  have hS : (C.scalars.map Param.xmlVar).Nodup := (List.nodup_append.1 hE).2.1
  have hd : ∀ k, k ∈ C.aggregates.map Param.xmlVar → k ∉ C.scalars.map Param.xmlVar := fun k h1 h2 =>
    (List.nodup_append.1 hE).2.2 k h1 k h2 rfl
  intro cs
  induction cs with
  | nil =>
    intro o o' u u' hu h
    simp only [List.foldlM_nil, Option.pure_def, Option.some.injEq, Prod.mk.injEq] at h
    obtain ⟨rfl, rfl⟩ := h
    simp [hu, aggVals]
  | cons c cs ih =>
    intro o o' u u' hu h
    rw [List.foldlM_cons] at h
    cases e : paramOf C.aggregates c.tag with
    | some p =>
      obtain ⟨hp, hpt⟩ := paramOf_mem e
      have hns : c.tag ∉ C.scalars.map Param.xmlVar := hd _ (hpt ▸ List.mem_map_of_mem hp)
      have hne : ∀ q ∈ C.scalars, (c.tag == q.xmlVar) = false := fun q hq => by
        simp only [beq_eq_false_iff_ne, ne_eq]
        intro r
        exact hns (r ▸ List.mem_map_of_mem hq)
      simp only [readChild, e, Option.bind_eq_bind, Option.bind_eq_some_iff] at h
      obtain ⟨⟨o1, u1⟩, ⟨v, hv, he⟩, h⟩ := h
      simp only [Option.some.injEq, Prod.mk.injEq] at he
      obtain ⟨rfl, rfl⟩ := he
      obtain ⟨⟨l, hl, ho⟩, h2, h3, h4, h5⟩ := ih _ o' _ u' hu h
      refine ⟨⟨(c.tag, v) :: l, by simp [aggVals, e, hv, hl], by simp [ho]⟩, h2, fun q hq hm d hdd => ?_, fun k hk => ?_,
        fun k => ?_⟩
      · rw [List.find?_cons_of_neg (by simp [hne q hq])] at hdd
        exact h3 q hq hm d hdd
      · refine h4 k fun q hq hm hn => hk q hq hm ?_
        rwa [List.find?_cons_of_neg (by simp [hne q hq])]
      · rw [h5]
        by_cases hkk : c.tag = k
        · subst hkk
          simp [hns]
        · rw [List.find?_cons_of_neg (by simp [hkk])]
    | none =>
      cases e2 : paramOf C.scalars c.tag with
      | none =>
        have hns := paramOf_none.1 e2
        have hne : ∀ q ∈ C.scalars, (c.tag == q.xmlVar) = false := fun q hq => by
          simp only [beq_eq_false_iff_ne, ne_eq]
          intro r
          exact hns (r ▸ List.mem_map_of_mem hq)
        simp only [readChild, e, e2, Option.bind_eq_bind, Option.bind_some] at h
        obtain ⟨⟨l, hl, ho⟩, h2, h3, h4, h5⟩ := ih _ o' _ u' hu h
        refine ⟨⟨l, by simp [aggVals, e, hl], ho⟩, h2, fun q hq hm d hdd => ?_, fun k hk => ?_, fun k => ?_⟩
        · rw [List.find?_cons_of_neg (by simp [hne q hq])] at hdd
          exact h3 q hq hm d hdd
        · refine h4 k fun q hq hm hn => hk q hq hm ?_
          rwa [List.find?_cons_of_neg (by simp [hne q hq])]
        · rw [h5]
          by_cases hkk : c.tag = k
          · subst hkk
            simp [hns]
          · rw [List.find?_cons_of_neg (by simp [hkk])]
      | some p =>
        obtain ⟨hp, hpt⟩ := paramOf_mem e2
        by_cases hu' : c.tag ∈ u
        · simp only [readChild, e, e2, hu', if_true, Option.bind_eq_bind, Option.bind_eq_some_iff] at h
          obtain ⟨⟨o1, u1⟩, ⟨v, hv, he⟩, h⟩ := h
          simp only [Option.some.injEq, Prod.mk.injEq] at he
          obtain ⟨rfl, rfl⟩ := he
          obtain ⟨⟨l, hl, ho⟩, h2, h3, h4, h5⟩ := ih _ o' _ u' (hu.erase _) h
          refine ⟨⟨l, by simp [aggVals, e, hl], ho⟩, h2, fun q hq hm d hdd => ?_, fun k hk => ?_, fun k => ?_⟩
          · by_cases hqt : c.tag = q.xmlVar
            · have : q = p := List.inj_on_of_nodup_map hS hq hp (by rw [hpt, hqt])
              subst this
              rw [List.find?_cons_of_pos (by simp [hqt])] at hdd
              obtain rfl := Option.some.inj hdd
              refine ⟨v, hv, ?_⟩
              rw [h4 q.var]
              · simp [Obj.set]
              · intro q' hq' hm' _ hvv
                have := List.inj_on_of_nodup_map hV hq' hq hvv
                subst this
                rw [← hqt] at hm'
                exact (hu.not_mem_erase) hm'
            · rw [List.find?_cons_of_neg (by simp [hqt])] at hdd
              exact h3 q hq ((List.mem_erase_of_ne (Ne.symm hqt)).2 hm) d hdd
          · rw [h4 k]
            · have := hk p hp (hpt ▸ hu') (by rw [List.find?_cons_of_pos (by simp [hpt])]; simp)
              simp [Obj.set, Ne.symm this]
            · intro q hq hm hn
              refine hk q hq (List.mem_of_mem_erase hm) ?_
              by_cases hqt : c.tag = q.xmlVar
              · rw [List.find?_cons_of_pos (by simp [hqt])]; simp
              · rwa [List.find?_cons_of_neg (by simp [hqt])]
          · rw [h5, hu.mem_erase_iff]
            by_cases hkk : c.tag = k
            · subst hkk
              rw [List.find?_cons_of_pos (by simp)]
              have : c.tag ∈ C.scalars.map Param.xmlVar := hpt ▸ List.mem_map_of_mem hp
              simp only [ne_eq, not_true_eq_false, false_and, reduceCtorEq, not_false_eq_true, true_and, this, and_false]
            · rw [List.find?_cons_of_neg (by simp [hkk])]
              simp only [ne_eq, Ne.symm hkk, not_false_eq_true, true_and]
        · simp only [readChild, e, e2, hu', if_false, Option.bind_eq_bind, Option.bind_some] at h
          obtain ⟨⟨l, hl, ho⟩, h2, h3, h4, h5⟩ := ih _ o' _ u' hu h
          refine ⟨⟨l, by simp [aggVals, e, hl], ho⟩, h2, fun q hq hm d hdd => ?_, fun k hk => ?_, fun k => ?_⟩
          · have hqt : ¬ c.tag = q.xmlVar := fun r => hu' (r ▸ hm)
            rw [List.find?_cons_of_neg (by simp [hqt])] at hdd
            exact h3 q hq hm d hdd
          · refine h4 k fun q hq hm hn => hk q hq hm ?_
            have hqt : ¬ c.tag = q.xmlVar := fun r => hu' (r ▸ hm)
            rwa [List.find?_cons_of_neg (by simp [hqt])]
          · rw [h5]
            by_cases hkk : c.tag = k
            · subst hkk
              simp [hu']
            · rw [List.find?_cons_of_neg (by simp [hkk])]

theorem children_fold_ok (hE : ((C.aggregates ++ C.scalars).map Param.xmlVar).Nodup) :
    ∀ (cs : List Xml) (o : Obj) (u : List Name), u.Nodup → aggVals C.aggregates cs ≠ none →
    (∀ p ∈ C.scalars, p.xmlVar ∈ u → ∀ c, (cs.find? fun c => c.tag == p.xmlVar) = some c → p.vt.fromXml c ≠ none) →
    ∃ t, cs.foldlM C.readChild (o, u) = some t := by
  rw [List.map_append] at hE
  have hS : (C.scalars.map Param.xmlVar).Nodup := (List.nodup_append.1 hE).2.1
  have hd : ∀ k, k ∈ C.aggregates.map Param.xmlVar → k ∉ C.scalars.map Param.xmlVar := fun k h1 h2 =>
    (List.nodup_append.1 hE).2.2 k h1 k h2 rfl
  intro cs
  induction cs with
  | nil => intro o u _ _ _; exact ⟨_, rfl⟩
  | cons c cs ih =>
    intro o u hu ha hs
    rw [List.foldlM_cons]
    cases e : paramOf C.aggregates c.tag with
    | some p =>
      obtain ⟨hp, hpt⟩ := paramOf_mem e
      have hns : c.tag ∉ C.scalars.map Param.xmlVar := hd _ (hpt ▸ List.mem_map_of_mem hp)
      rw [aggVals, e] at ha
      cases ev : p.vt.fromXml c with
      | none => simp [ev] at ha
      | some v =>
        simp only [readChild, e, ev, Option.bind_eq_bind, Option.bind_some]
        refine ih _ _ hu (fun r => by simp [ev, r] at ha) fun q hq hm d hdd => hs q hq hm d ?_
        have : ¬ c.tag = q.xmlVar := fun r => hns (r ▸ List.mem_map_of_mem hq)
        rwa [List.find?_cons_of_neg (by simp [this])]
    | none =>
      have ha' : aggVals C.aggregates cs ≠ none := by simpa [aggVals, e] using ha
      cases e2 : paramOf C.scalars c.tag with
      | none =>
        simp only [readChild, e, e2, Option.bind_eq_bind, Option.bind_some]
        refine ih _ _ hu ha' fun q hq hm d hdd => hs q hq hm d ?_
        have : ¬ c.tag = q.xmlVar := fun r => (paramOf_none.1 e2) (r ▸ List.mem_map_of_mem hq)
        rwa [List.find?_cons_of_neg (by simp [this])]
      | some p =>
        obtain ⟨hp, hpt⟩ := paramOf_mem e2
        by_cases hu' : c.tag ∈ u
        · have := hs p hp (hpt ▸ hu') c (by rw [List.find?_cons_of_pos (by simp [hpt])])
          cases ev : p.vt.fromXml c with
          | none => exact absurd ev this
          | some v =>
            simp only [readChild, e, e2, hu', if_true, ev, Option.bind_eq_bind, Option.bind_some]
            refine ih _ _ (hu.erase _) ha' fun q hq hm d hdd => hs q hq (List.mem_of_mem_erase hm) d ?_
            have : ¬ c.tag = q.xmlVar := fun r => hu.not_mem_erase (r ▸ hm)
            rwa [List.find?_cons_of_neg (by simp [this])]
        · simp only [readChild, e, e2, hu', if_false, Option.bind_eq_bind, Option.bind_some]
          refine ih _ _ hu ha' fun q hq hm d hdd => hs q hq hm d ?_
          have : ¬ c.tag = q.xmlVar := fun r => hu' (r ▸ hm)
          rwa [List.find?_cons_of_neg (by simp [this])]

theorem defaults_fold {ps : List Param} (hP : (ps.map Param.xmlVar).Nodup) (hV : (ps.map Param.var).Nodup) :
    ∀ (u : List Name) (o o' : Obj), setDefaults ps o u = some o' →
    o'.order = o.order ∧
    (∀ p ∈ ps, p.xmlVar ∈ u → p.required = false ∧ o'.fields p.var = some p.dflt) ∧
    ∀ k, (∀ p ∈ ps, p.xmlVar ∈ u → p.var ≠ k) → o'.fields k = o.fields k := by
  intro u
  induction u with
  | nil =>
    intro o o' h
    simp only [setDefaults, List.foldlM_nil, Option.pure_def, Option.some.injEq] at h
    subst h
    simp
  | cons k u ih =>
    intro o o' h
    rw [setDefaults, List.foldlM_cons] at h
    cases e : paramOf ps k with
    | none =>
      simp only [e, Option.bind_eq_bind, Option.bind_some] at h
      obtain ⟨h1, h2, h3⟩ := ih o o' h
      refine ⟨h1, fun p hp hm => h2 p hp ?_, fun j hj => h3 j fun p hp hm => hj p hp (List.mem_cons_of_mem _ hm)⟩
      rcases List.mem_cons.1 hm with r | r
      · exact absurd (r ▸ List.mem_map_of_mem hp) (paramOf_none.1 e)
      · exact r
    | some p =>
      obtain ⟨hp, rfl⟩ := paramOf_mem e
      by_cases hr : p.required = true
      · simp [e, hr] at h
      · simp only [e, hr, Option.bind_eq_bind, Option.bind_some, Bool.false_eq_true, if_false] at h
        obtain ⟨h1, h2, h3⟩ := ih _ o' h
        refine ⟨h1, fun q hq hm => ?_, fun j hj => ?_⟩
        · by_cases hq' : q.xmlVar ∈ u
          · exact h2 q hq hq'
          · rcases List.mem_cons.1 hm with r | r
            · have : q = p := List.inj_on_of_nodup_map hP hq hp r
              subst this
              refine ⟨by simpa using hr, ?_⟩
              rw [h3 q.var fun q' hq'' hm' hvv => hq' (List.inj_on_of_nodup_map hV hq'' hq hvv ▸ hm')]
              simp [Obj.set]
            · exact absurd r hq'
        · rw [h3 j fun q hq hm => hj q hq (List.mem_cons_of_mem _ hm)]
          simp [Obj.set, Ne.symm (hj p hp (List.mem_cons_self ..))]

theorem defaults_fold_ok {ps : List Param} : ∀ (u : List Name) (o : Obj),
    (∀ p ∈ ps, p.xmlVar ∈ u → p.required = false) → ∃ o', setDefaults ps o u = some o' := by
  intro u
  induction u with
  | nil => intro o _; exact ⟨o, rfl⟩
  | cons k u ih =>
    intro o h
    have h' : ∀ p ∈ ps, p.xmlVar ∈ u → p.required = false := fun p hp hm => h p hp (List.mem_cons_of_mem _ hm)
    rw [setDefaults, List.foldlM_cons]
    cases e : paramOf ps k with
    | none =>
      simp only [Option.bind_eq_bind, Option.bind_some]
      exact ih o h'
    | some p =>
      obtain ⟨hp, rfl⟩ := paramOf_mem e
      simp only [h p hp (List.mem_cons_self ..), Option.bind_eq_bind, Option.bind_some, Bool.false_eq_true, if_false]
      exact ih _ h'

/-- `o` is what the table says a node means -/
structure Reads (C : Cls) (n : Xml) (o : Obj) : Prop where
  attr : ∀ p ∈ C.attributes, ∃ x, attrVal p n = some x ∧ o.fields p.var = some x
  scal : ∀ p ∈ C.scalars, ∃ x, scalVal p n = some x ∧ o.fields p.var = some x
  rest : ∀ k, k ∉ (C.attributes ++ C.scalars).map Param.var → o.fields k = C.init.lookup k
  order : aggVals C.aggregates n.children = some o.order

theorem Reads.unique {n : Xml} {a b : Obj} (ha : Reads C n a) (hb : Reads C n b) : a = b := by
  have hf : a.fields = b.fields := by
    funext k
    by_cases hk : k ∈ (C.attributes ++ C.scalars).map Param.var
    · obtain ⟨p, hp, rfl⟩ := List.mem_map.1 hk
      rcases List.mem_append.1 hp with h | h
      · obtain ⟨x, h1, h2⟩ := ha.attr p h
        obtain ⟨y, h3, h4⟩ := hb.attr p h
        rw [h2, h4, ← h1, h3]
      · obtain ⟨x, h1, h2⟩ := ha.scal p h
        obtain ⟨y, h3, h4⟩ := hb.scal p h
        rw [h2, h4, ← h1, h3]
    · rw [ha.rest k hk, hb.rest k hk]
  have ho : a.order = b.order := Option.some.inj (ha.order.symm.trans hb.order)
  cases a; cases b; simp_all

theorem mem_keys {n : Xml} {k : Name} : k ∈ n.attrs.map Prod.fst ↔ ∃ s, n.attr k = some s := by
  rw [← Option.isSome_iff_exists, Xml.attr]
  generalize n.attrs = l
  induction l with
  | nil => simp
  | cons a l ih =>
    obtain ⟨j, s⟩ := a
    by_cases h : k = j
    · simp [h]
    · have : (k == j) = false := by simp [h]
      simp only [List.map_cons, List.mem_cons, h, false_or, List.lookup, this]
      exact ih

theorem reads_of_set (hC : C.Proper) {n : Xml} {o : Obj} (h : C.setFromXml n = some o) : Reads C n o := by
  have hvA : (C.attributes.map Param.var).Nodup := by
    have := hC.vars; rw [List.map_append] at this; exact (List.nodup_append.1 this).1
  have hvS : (C.scalars.map Param.var).Nodup := by
    have := hC.vars; rw [List.map_append] at this; exact (List.nodup_append.1 this).2.1
  have hvD : ∀ p ∈ C.attributes, ∀ q ∈ C.scalars, p.var ≠ q.var := fun p hp q hq r => by
    have := hC.vars; rw [List.map_append] at this
    exact (List.nodup_append.1 this).2.2 _ (List.mem_map_of_mem hp) _ (List.mem_map_of_mem hq) r
  have hS : (C.scalars.map Param.xmlVar).Nodup := by
    have := hC.elems; rw [List.map_append] at this; exact (List.nodup_append.1 this).2.1
  simp only [setFromXml, Option.bind_eq_bind, Option.bind_eq_some_iff] at h
  obtain ⟨⟨o1, u1⟩, h1, ⟨o2, u2⟩, h2, o3, h3, h4⟩ := h
  obtain ⟨a1, a2, a3, a4, a5⟩ := attrs_fold hC.attrs hvA n _ _ _ _ _ hC.attrs h1
  obtain ⟨⟨l, b0, b1⟩, b2, b3, b4, b5⟩ := children_fold hC.elems hvS _ _ _ _ _ hS h2
  obtain ⟨c1, c2, c3⟩ := defaults_fold hC.attrs hvA _ _ _ h3
  obtain ⟨d1, d2, d3⟩ := defaults_fold hS hvS _ _ _ h4
  refine ⟨fun p hp => ?_, fun p hp => ?_, fun k hk => ?_, ?_⟩
  · have e4 : o.fields p.var = o3.fields p.var := d3 _ fun q hq _ r => hvD p hp q hq r.symm
    have e2 : o2.fields p.var = o1.fields p.var := b4 _ fun q hq _ _ r => hvD p hp q hq r.symm
    cases ea : n.attr p.xmlVar with
    | some s =>
      have hm : p.xmlVar ∈ n.attrs.map Prod.fst := mem_keys.2 ⟨s, ea⟩
      obtain ⟨s', v, e1, ev, ef⟩ := a3 p hp hm
      rw [ea] at e1
      obtain rfl := Option.some.inj e1
      refine ⟨v, by simp [attrVal, ea, ev], ?_⟩
      have e3 : o3.fields p.var = o2.fields p.var := c3 _ fun q hq hm' r => by
        have := List.inj_on_of_nodup_map hvA hq hp r
        subst this
        exact ((a5 _).1 hm').2 ⟨hm, List.mem_map_of_mem hp⟩
      rw [e4, e3, e2, ef]
    | none =>
      have hm : p.xmlVar ∉ n.attrs.map Prod.fst := fun r => by
        obtain ⟨s, hs⟩ := mem_keys.1 r
        rw [ea] at hs; cases hs
      obtain ⟨hr, hd⟩ := c2 p hp ((a5 _).2 ⟨List.mem_map_of_mem hp, fun r => hm r.1⟩)
      exact ⟨p.dflt, by simp [attrVal, ea, hr], by rw [e4, hd]⟩
  · cases ea : n.scalar p.xmlVar with
    | some c =>
      obtain ⟨v, ev, ef⟩ := b3 p hp (List.mem_map_of_mem hp) c ea
      refine ⟨v, by simp [scalVal, ea, ev], ?_⟩
      have e4 : o.fields p.var = o3.fields p.var := d3 _ fun q hq hm' r => by
        have := List.inj_on_of_nodup_map hvS hq hp r
        subst this
        exact ((b5 _).1 hm').2 ⟨by rw [show (n.children.find? fun c => c.tag == q.xmlVar) = some c from ea]; simp,
          List.mem_map_of_mem hp⟩
      have e3 : o3.fields p.var = o2.fields p.var := c3 _ fun q hq _ r => hvD q hq p hp r
      rw [e4, e3, ef]
    | none =>
      obtain ⟨hr, hd⟩ := d2 p hp ((b5 _).2 ⟨List.mem_map_of_mem hp, fun r => r.1 ea⟩)
      exact ⟨p.dflt, by simp [scalVal, ea, hr], hd⟩
  · rw [List.map_append, List.mem_append, not_or] at hk
    rw [d3 k fun q hq _ r => hk.2 (r ▸ List.mem_map_of_mem hq), c3 k fun q hq _ r => hk.1 (r ▸ List.mem_map_of_mem hq),
      b4 k fun q hq _ _ r => hk.2 (r ▸ List.mem_map_of_mem hq), a4 k fun q hq _ r => hk.1 (r ▸ List.mem_map_of_mem hq)]
  · rw [d1, c1, b1, b0, a1]
    rfl

theorem set_of_reads (hC : C.Proper) {n : Xml} {o : Obj} (h : Reads C n o) : C.setFromXml n = some o := by
  have hvA : (C.attributes.map Param.var).Nodup := by
    have := hC.vars; rw [List.map_append] at this; exact (List.nodup_append.1 this).1
  have hvS : (C.scalars.map Param.var).Nodup := by
    have := hC.vars; rw [List.map_append] at this; exact (List.nodup_append.1 this).2.1
  have hS : (C.scalars.map Param.xmlVar).Nodup := by
    have := hC.elems; rw [List.map_append] at this; exact (List.nodup_append.1 this).2.1
  obtain ⟨⟨o1, u1⟩, h1⟩ := attrs_fold_ok (C := C) n (n.attrs.map Prod.fst)
    (⟨fun k => C.init.lookup k, []⟩, C.attributes.map Param.xmlVar) fun p hp hm => by
      obtain ⟨s, hs⟩ := mem_keys.1 hm
      obtain ⟨x, hx, _⟩ := h.attr p hp
      exact ⟨s, x, hs, by simpa [attrVal, hs] using hx⟩
  obtain ⟨a1, a2, a3, a4, a5⟩ := attrs_fold hC.attrs hvA n _ _ _ _ _ hC.attrs h1
  obtain ⟨⟨o2, u2⟩, h2⟩ := children_fold_ok hC.elems n.children o1 (C.scalars.map Param.xmlVar) hS (by simp [h.order])
    fun p hp _ c hc => by
      obtain ⟨x, hx, _⟩ := h.scal p hp
      have hc' : n.scalar p.xmlVar = some c := hc
      simp [scalVal, hc'] at hx
      simp [hx]
  obtain ⟨⟨l, b0, b1⟩, b2, b3, b4, b5⟩ := children_fold hC.elems hvS _ _ _ _ _ hS h2
  obtain ⟨o3, h3⟩ := defaults_fold_ok (ps := C.attributes) u1 o2 fun p hp hm => by
    obtain ⟨x, hx, _⟩ := h.attr p hp
    have : n.attr p.xmlVar = none := by
      cases ea : n.attr p.xmlVar with
      | none => rfl
      | some s => exact absurd ⟨mem_keys.2 ⟨s, ea⟩, List.mem_map_of_mem hp⟩ ((a5 _).1 hm).2
    cases hr : p.required with
    | false => rfl
    | true => simp [attrVal, this, hr] at hx
  obtain ⟨o4, h4⟩ := defaults_fold_ok (ps := C.scalars) u2 o3 fun p hp hm => by
    obtain ⟨x, hx, _⟩ := h.scal p hp
    have : n.scalar p.xmlVar = none := by
      cases ea : n.scalar p.xmlVar with
      | none => rfl
      | some s =>
        refine absurd ⟨?_, List.mem_map_of_mem hp⟩ ((b5 _).1 hm).2
        rw [show (n.children.find? fun c => c.tag == p.xmlVar) = some s from ea]; simp
    cases hr : p.required with
    | false => rfl
    | true => simp [scalVal, this, hr] at hx
  have he : C.setFromXml n = some o4 := by
    simp only [setFromXml, h1, h2, h3, Option.bind_eq_bind, Option.bind_some, h4]
  rw [he, (reads_of_set hC he).unique h]

/-- What the engine reads, without its loops. -/
theorem read_iff (hC : C.Proper) {n : Xml} {v : PVal} :
    C.read n = some v ↔ ∃ o, Reads C n o ∧ v = .obj C.name o.fields o.order ∧ C.check v = true := by
  simp only [read, Option.bind_eq_bind, Option.bind_eq_some_iff]
  constructor
  · rintro ⟨o, ho, h⟩
    split at h
    · next hc =>
      obtain rfl := Option.some.inj h
      exact ⟨o, reads_of_set hC ho, rfl, hc⟩
    · cases h
  · rintro ⟨o, ho, rfl, hc⟩
    exact ⟨o, set_of_reads hC ho, by simp [hc]⟩

end Cls
end PK.Reflect
