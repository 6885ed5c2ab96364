import Verif.Model.RobotApi
import Verif.Props.Urdf2
import Verif.Props.Kept

/-!
# C113: `Robot.get_root` and `Robot.get_chain`
-/

namespace PK
open Spec

namespace Spec
/-- what `get_chain` should list for the joints `js` that lead to the link `tip`: before every joint its parent link, at the
end the tip; links, joints, fixed joints only as asked for -/
def chainNames (joints links fixed : Bool) (js : List Urdf.Jnt) (tip : Name) : List Name :=
  js.flatMap (fun j => (if links then [j.parent] else []) ++
    if joints ∧ (fixed ∨ j.type ≠ n!"fixed") then [j.name] else []) ++ if links then [tip] else []
end Spec

namespace Urdf
variable {r : Robot}

theorem parentMap_none {l : Name} : r.parentMap.get? l = none ↔ ∀ j ∈ r.joints, j.child ≠ l := by
  rw [Dict.get?_eq_none_iff, Robot.parentMap, keys_foldl_set r.joints Jnt.child fun j => (j.name, j.parent), mem_pyUnique]
  simp

theorem parentMap_some (h : (r.joints.map Jnt.child).Nodup) {j : Jnt} (hj : j ∈ r.joints) :
    r.parentMap.get? j.child = some (j.name, j.parent) :=
  get?_foldl_set r.joints Jnt.child (fun j => (j.name, j.parent))
    (fun a ha b hb e => by rw [List.inj_on_of_nodup_map h ha hb e]) hj

theorem jointMap_some (h : (r.joints.map Jnt.name).Nodup) {j : Jnt} (hj : j ∈ r.joints) : r.jointMap.get? j.name = some j :=
  get?_foldl_set r.joints Jnt.name id (fun _ ha _ hb e => List.inj_on_of_nodup_map h ha hb e) hj

theorem keys_jointMap : r.jointMap.keys = pyUnique (r.joints.map Jnt.name) := keys_foldl_set r.joints Jnt.name id

theorem jointMap_isSome {j : Jnt} (hj : j ∈ r.joints) : ∃ q, r.jointMap.get? j.name = some q := by
  cases h : r.jointMap.get? j.name with
  | some q => exact ⟨q, rfl⟩
  | none =>
    rw [Dict.get?_eq_none_iff, keys_jointMap, mem_pyUnique] at h
    exact absurd (List.mem_map_of_mem hj) h

theorem rootLoop (ls : List Name) (acc : Option Name) :
    ls.foldlM r.rootStep acc =
    match acc, ls.filter fun l => (r.parentMap.get? l).isNone with
    | a, [] => .ok a
    | none, [x] => .ok (some x)
    | _, _ => .error .valueError := by
  induction ls generalizing acc with
  | nil => cases acc <;> rfl
  | cons l ls ih =>
    rw [List.foldlM_cons]
    cases h : r.parentMap.get? l with
    | some p =>
      rw [List.filter_cons_of_neg (by simp [h])]
      simp only [Robot.rootStep, h, ok_bind]
      exact ih acc
    | none =>
      rw [List.filter_cons_of_pos (by simp [h])]
      cases acc with
      | none =>
        simp only [Robot.rootStep, h, ok_bind]
        rw [show List.foldlM (m := Except Err) _ (some l) ls = _ from ih (some l)]
        generalize ls.filter _ = fs
        cases fs with
        | nil => rfl
        | cons => simp
      | some a =>
        simp only [Robot.rootStep, h, error_bind]

theorem item_ok {K V : Type} [DecidableEq K] {d : Dict K V} {k : K} {v : V} (h : d.get? k = some v) : d.item k = .ok v := by
  simp [Dict.item, h]

end Urdf

open Urdf

/-- C113: `get_root` returns a link exactly when it is the only one that no joint leads to. -/
theorem C113_get_root (r : Robot) (x : Name) : r.getRoot = .ok x ↔
    x ∈ r.links.map Lnk.name ∧ (∀ j ∈ r.joints, j.child ≠ x) ∧
    ∀ y ∈ r.links.map Lnk.name, (∀ j ∈ r.joints, j.child ≠ y) → y = x := by
  have hk : r.linkMap.map Prod.fst = pyUnique (r.links.map Lnk.name) := keys_foldl_set r.links Lnk.name id
  have hm : ∀ y, y ∈ (pyUnique (r.links.map Lnk.name)).filter (fun l => (r.parentMap.get? l).isNone) ↔
      y ∈ r.links.map Lnk.name ∧ ∀ j ∈ r.joints, j.child ≠ y := by
    intro y
    rw [List.mem_filter, mem_pyUnique, Option.isNone_iff_eq_none, parentMap_none]
  have hn := (pyUnique_nodup (r.links.map Lnk.name)).filter (fun l => (r.parentMap.get? l).isNone)
  have e : r.getRoot = .ok x ↔ (pyUnique (r.links.map Lnk.name)).filter (fun l => (r.parentMap.get? l).isNone) = [x] := by
    rw [Robot.getRoot, hk, rootLoop]
    generalize (pyUnique (r.links.map Lnk.name)).filter _ = fs
    match fs with
    | [] => simp [ok_bind]
    | [a] => simp [ok_bind]
    | a :: b :: l => simp [error_bind]
  rw [e]
  constructor
  · intro h
    rw [h] at hm
    have h1 := (hm x).1 (by simp)
    exact ⟨h1.1, h1.2, fun y hy hy' => by simpa using (hm y).2 ⟨hy, hy'⟩⟩
  · rintro ⟨h1, h2, h3⟩
    generalize (pyUnique (r.links.map Lnk.name)).filter _ = fs at *
    match fs with
    | [] => simpa using (hm x).2 ⟨h1, h2⟩
    | [a] =>
      have := (hm a).1 (by simp)
      rw [h3 a this.1 this.2]
    | a :: b :: l =>
      have ha := (hm a).1 (by simp)
      have hb := (hm b).1 (by simp)
      have : a = b := (h3 a ha.1 ha.2).trans (h3 b hb.1 hb.2).symm
      simp [this] at hn

theorem descPath_reach {r : Robot} {a b : Name} {js : List Jnt} (h : DescPath Jnt.parent Jnt.child r.joints a b js) :
    Reach Jnt.parent Jnt.child r.joints a js.length b := by
  induction h with
  | nil => exact .here
  | snoc js j _ hj ih => rw [List.length_append]; exact .step _ j hj ih

/-- a path of joints does not come back to where it starts -/
theorem tree_no_cycle {r : Robot} {root a : Name} (h : UrdfTree r root) {js : List Jnt} {j : Jnt} (hj : j ∈ r.joints)
    (hp : DescPath Jnt.parent Jnt.child r.joints a j.parent js) : j.child ≠ a := by
  intro e
  obtain ⟨k, hk⟩ := h.reachable a (e ▸ h.child_mem j hj)
  have h1 : Reach Jnt.parent Jnt.child r.joints root (k + (js.length + 1)) a := by
    have := Reach.trans hk (.step _ j hj (descPath_reach hp))
    rwa [e] at this
  have := Reach.depth_unique h.one_parent h.root_top hk h1
  omega

/-- C113: on a tree, `get_chain(root, tip)` returns the links and joints of the path from `root` down to `tip`, in this order,
after as many iterations as there are joints on it. -/
theorem C113_get_chain (r : Robot) (root : Name) (h : UrdfTree r root) (hn : (r.joints.map Jnt.name).Nodup)
    (a b : Name) (js : List Jnt) (hp : DescPath Jnt.parent Jnt.child r.joints a b js) (joints links fixed : Bool) (fuel : ℕ)
    (hf : js.length ≤ fuel) : r.getChain a b joints links fixed fuel = .ok (some (chainNames joints links fixed js b)) := by
  have key : ∀ {b js}, DescPath Jnt.parent Jnt.child r.joints a b js → ∀ fuel, js.length ≤ fuel → ∀ acc,
      r.chainLoop a joints links fixed fuel b acc = .ok (some (js.flatMap (fun j => (if links then [j.parent] else []) ++
        if joints ∧ (fixed ∨ j.type ≠ n!"fixed") then [j.name] else []) ++ acc.reverse)) := by
    intro b js hp
    induction hp with
    | nil =>
      intro fuel _ acc
      cases fuel <;> rw [Robot.chainLoop, if_pos rfl] <;> rfl
    | snoc js j hp hj ih =>
      intro fuel hf acc
      rw [List.length_append, List.length_singleton] at hf
      obtain ⟨fuel, rfl⟩ : ∃ f, fuel = f + 1 := ⟨fuel - 1, by omega⟩
      rw [Robot.chainLoop, if_neg (tree_no_cycle h hj hp)]
      simp only [item_ok (parentMap_some h.one_parent hj), ok_bind]
      have hc : r.addJoint joints fixed j.name acc =
          .ok (acc ++ if joints ∧ (fixed ∨ j.type ≠ n!"fixed") then [j.name] else []) := by
        simp only [Robot.addJoint, item_ok (jointMap_some hn hj), ok_bind]
        cases joints <;> cases fixed <;> by_cases ht : j.type = n!"fixed" <;> simp [ht]
      rw [hc, ok_bind, ih fuel (by omega)]
      simp only [List.flatMap_append, List.flatMap_cons, List.flatMap_nil, List.append_nil]
      congr 2
      generalize List.flatMap _ js = pre
      by_cases hb : joints = true ∧ (fixed = true ∨ j.type ≠ n!"fixed")
      · cases links <;> simp only [if_pos hb] <;> simp
      · cases links <;> simp only [if_neg hb] <;> simp
  rw [Robot.getChain, key hp fuel hf]
  simp only [chainNames]
  cases links <;> simp

/-- C113: on a tree, `get_chain(root, tip)` raises KeyError when `tip` is not below `root`. -/
theorem C113_get_chain_error (r : Robot) (root : Name) (h : UrdfTree r root) (a b : Name)
    (hp : ∀ js, ¬ DescPath Jnt.parent Jnt.child r.joints a b js) (joints links fixed : Bool) (fuel : ℕ)
    (hf : r.links.length ≤ fuel) : r.getChain a b joints links fixed fuel = .error .keyError := by
  have out : ∀ {b}, b ≠ a → (∀ j ∈ r.joints, j.child ≠ b) → ∀ fuel acc,
      r.chainLoop a joints links fixed (fuel + 1) b acc = .error .keyError := by
    intro b hb hc fuel acc
    rw [Robot.chainLoop, if_neg hb]
    simp only [Dict.item, parentMap_none.2 hc, error_bind]
  have key : ∀ {k b}, Reach Jnt.parent Jnt.child r.joints root k b →
      (∀ js, ¬ DescPath Jnt.parent Jnt.child r.joints a b js) → ∀ fuel, k < fuel → ∀ acc,
      r.chainLoop a joints links fixed fuel b acc = .error .keyError := by
    intro k b hr
    induction hr with
    | here =>
      intro hp fuel hf acc
      obtain ⟨fuel, rfl⟩ : ∃ f, fuel = f + 1 := ⟨fuel - 1, by omega⟩
      exact out (fun e => hp [] (e ▸ .nil)) h.root_top fuel acc
    | step k j hj _ ih =>
      intro hp fuel hf acc
      obtain ⟨fuel, rfl⟩ : ∃ f, fuel = f + 1 := ⟨fuel - 1, by omega⟩
      have hne : j.child ≠ a := fun e => hp [] (e ▸ .nil)
      rw [Robot.chainLoop, if_neg hne]
      obtain ⟨q, hq⟩ := jointMap_isSome hj
      simp only [item_ok (parentMap_some h.one_parent hj), ok_bind]
      have hc : ∃ acc', r.addJoint joints fixed j.name acc = .ok acc' := by
        simp only [Robot.addJoint, item_ok hq, ok_bind]
        repeat' split
        all_goals exact ⟨_, rfl⟩
      obtain ⟨acc', hc⟩ := hc
      rw [hc, ok_bind]
      exact ih (fun js hjs => hp _ (.snoc js j hjs hj)) fuel (by omega) _
  rw [Robot.getChain]
  by_cases hb : b ∈ r.links.map Lnk.name
  · obtain ⟨k, hk⟩ := h.reachable b hb
    have := Reach.depth_lt h hk
    rw [List.length_map] at this
    exact key hk hp fuel (by omega) _
  · have : 0 < r.links.length := by
      obtain ⟨l, hl, _⟩ := List.mem_map.1 h.root_mem
      exact List.length_pos_of_mem hl
    obtain ⟨fuel, rfl⟩ : ∃ f, fuel = f + 1 := ⟨fuel - 1, by omega⟩
    exact out (fun e => hp [] (e ▸ .nil)) (fun j hj e => hb (e ▸ h.child_mem j hj)) fuel _

/-- C113: the robot's own answers agree with the chains built from its document: `get_root` is the name of the chain's root,
`get_chain(joints=False)` are the frames of the serial chain, `get_chain(links=False, fixed=False)` its joint parameters. -/
theorem C113_agrees (num : NumParser) (sh : Fl → Name) (r : Robot) (root : Name) (h : UrdfTree r root)
    (hne : r.joints ≠ []) (hk : ∀ j ∈ r.joints, urdfKind j.type ≠ none)
    (hd : RobotWritten num sh r) (hn : GoodNames r) (hax : ∀ j ∈ r.joints, ∀ a, j.axis = some a → a ≠ 0)
    (fuel : ℕ) (hf : r.links.length ≤ fuel) (a b : Name) (ha : a ∈ r.links.map Lnk.name) (hne' : a ≠ []) (js : List Jnt)
    (hp : DescPath Jnt.parent Jnt.child r.joints a b js) :
    ∃ c s fs ps, buildChain num fuel (robotXml sh r) = .ok c ∧ r.getRoot = .ok c.root.name ∧
      buildSerialChain num fuel (robotXml sh r) b a = .ok s ∧
      r.getChain a b false true true fuel = .ok (some fs) ∧ s.chain.getFrameNames false = fs ∧
      r.getChain a b true false false fuel = .ok (some ps) ∧ s.chain.getJointParameterNames = ps.map some := by
  obtain ⟨f, h1, h2⟩ := C22_document num sh r root h hne hk hd fuel hf
  have hs : startLink root a = a := by simp [startLink, hne']
  obtain ⟨s, qs, e1, e2, e3, -, e5⟩ := (C77_serial_urdf num sh r root h hne hk hd hn hax fuel hf a b).1 js (by rwa [hs]) (by rwa [hs])
  rw [hs] at e3
  have hlen : js.length ≤ fuel := by
    obtain ⟨k, hk⟩ := h.reachable a ha
    have := Reach.depth_lt h (Reach.trans hk (descPath_reach hp))
    rw [List.length_map] at this
    omega
  have hg := C113_get_chain r root h hn.joints a b js hp
  refine ⟨_, s, _, _, h1, ?_, e1, hg false true true fuel hlen, ?_, hg true false false fuel hlen, ?_⟩
  · have hr : (Chain.init f).root.name = root := h2.root_name
    rw [hr, C113_get_root]
    refine ⟨h.root_mem, h.root_top, fun y hy hc => ?_⟩
    obtain ⟨k, hk⟩ := h.reachable y hy
    cases hk with
    | here => rfl
    | step _ j hj _ => exact absurd rfl (hc j hj)
  · rw [e3]
    have : ∀ {b js}, DescPath Jnt.parent Jnt.child r.joints a b js →
        a :: js.map Jnt.child = js.map Jnt.parent ++ [b] := by
      intro b js hp
      induction hp with
      | nil => rfl
      | snoc js j _ _ ih => rw [List.map_append, ← List.cons_append, ih]; simp
    rw [this hp]
    have hm : ∀ l : List Jnt, l.flatMap (fun j => [j.parent]) = l.map Jnt.parent := by
      intro l
      induction l with
      | nil => rfl
      | cons x l ih => rw [List.flatMap_cons, ih]; rfl
    simp [chainNames, hm]
  · rw [e5]
    have : ∀ {js : List Jnt} {qs : List Joint}, List.Forall₂ Declared js qs →
        (qs.filter fun q => decide (Moving q)).map Joint.name = (chainNames true false false js b).map some := by
      intro js qs hq
      induction hq with
      | nil => rfl
      | @cons j q js qs d _ ih =>
        have hm : Moving q ↔ j.type ≠ n!"fixed" := by
          have := d.kind
          unfold Moving
          unfold urdfKind at this
          split at this <;> rename_i ht <;> simp only [Option.some.injEq, reduceCtorEq] at this <;>
            simp [← this, ht]
        simp only [chainNames, List.flatMap_cons] at ih ⊢
        by_cases ht : j.type = n!"fixed"
        · rw [List.filter_cons_of_neg (by simp [hm, ht]), ih]
          simp [ht]
        · rw [List.filter_cons_of_pos (by simp [hm, ht]), List.map_cons, ih]
          simp [ht, d.name]
    exact this e2

/-- C113: a description with a cycle is read, and `get_chain` on it never returns. -/
theorem C113_cycle_runs_forever (fuel : ℕ) :
    (exGraph [n!"a", n!"b", n!"c"] [(n!"j", n!"b", n!"c"), (n!"k", n!"c", n!"b")]).getChain n!"a" n!"b" true true true fuel = .ok none := by
  have key : ∀ fuel acc, ∀ l, (l = n!"b" ∨ l = n!"c") → (exGraph [n!"a", n!"b", n!"c"]
      [(n!"j", n!"b", n!"c"), (n!"k", n!"c", n!"b")]).chainLoop n!"a" true true true fuel l acc = .ok none := by
    intro fuel
    induction fuel with
    | zero => rintro acc l (rfl | rfl) <;> rfl
    | succ fuel ih =>
      rintro acc l (rfl | rfl)
      · exact ih _ _ (Or.inr rfl)
      · exact ih _ _ (Or.inl rfl)
  exact key fuel _ _ (Or.inl rfl)

/-- a robot with a fixed and two moving joints -/
example : (exGraph [n!"a", n!"b", n!"c"] [(n!"j", n!"a", n!"b"), (n!"k", n!"b", n!"c")]).getRoot = .ok n!"a" ∧
    (exGraph [n!"a", n!"b", n!"c"] [(n!"j", n!"a", n!"b"), (n!"k", n!"b", n!"c")]).getChain n!"a" n!"c" true true true 5 =
      .ok (some [n!"a", n!"j", n!"b", n!"k", n!"c"]) := by
  refine ⟨?_, rfl⟩
  rw [C113_get_root]
  simp [exGraph, exLink, exFixed]

/-- on the two-link robot with a moving joint: the hypotheses of `C113_agrees` hold -/
example : ∃ c s, buildChain exNum 9 (robotXml exShow exSmall) = .ok c ∧ exSmall.getRoot = .ok c.root.name ∧
    buildSerialChain exNum 9 (robotXml exShow exSmall) n!"b" n!"a" = .ok s ∧
    exSmall.getChain n!"a" n!"b" true false false 9 = .ok (some [n!"j"]) ∧ s.chain.getJointParameterNames = [some n!"j"] := by
  obtain ⟨c, s, fs, ps, h1, h2, h3, -, -, h4, h5⟩ := C113_agrees exNum exShow exSmall n!"a" exSmall_tree (by simp [exSmall])
    (by simp [exSmall, urdfKind]) exSmall_written ⟨by simp [exSmall], by simp [exSmall]⟩
    (by simp only [exSmall, List.mem_singleton]; rintro j rfl a ⟨⟩ h0; simpa using congrFun h0 0) 9 (by simp [exSmall]) n!"a" n!"b"
    (by simp [exSmall]) (by simp) exSmall.joints (.snoc [] exSmall.joints[0] .nil (by simp [exSmall]))
  have e : exSmall.getChain n!"a" n!"b" true false false 9 = .ok (some [n!"j"]) := rfl
  rw [e] at h4
  cases h4
  exact ⟨c, s, h1, h2, h3, e, h5⟩

end PK
