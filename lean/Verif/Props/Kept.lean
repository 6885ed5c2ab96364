import Verif.Props.Valid

/-!
# C105: descriptions that are not a tree
-/

namespace PK
open Spec
variable {J : Type} {par chi : J → Name} {joints : List J}

theorem reach_cons {a c : Name} {k : ℕ} {j : J} (hj : j ∈ joints) (hp : par j = a) (h : Reach par chi joints (chi j) k c) :
    Reach par chi joints a (k + 1) c := by
  have h1 : Reach par chi joints a 1 (chi j) := .step 0 j hj (hp ▸ .here)
  have := h1.trans h
  rwa [Nat.add_comm] at this

theorem reach_uncons {a c : Name} {k : ℕ} (h : Reach par chi joints a (k + 1) c) :
    ∃ j ∈ joints, par j = a ∧ Reach par chi joints (chi j) k c := by
  induction k generalizing c with
  | zero =>
    cases h with
    | step _ j hj h =>
      generalize hp : par j = p at h
      cases h
      exact ⟨j, hj, hp, .here⟩
  | succ k ih =>
    cases h with
    | step _ j hj h =>
      obtain ⟨i, hi, e, h⟩ := ih h
      exact ⟨i, hi, e, .step k j hj h⟩

section build
variable {mk : J → Except Err (Joint × Link)} {fuel : ℕ} {name : Name} {fs : List Frame}

theorem buildRecurse_eq (h : buildRecurse par chi mk joints (fuel + 1) name = .ok fs) :
    List.Forall₂ (fun j g => ∃ jl cs, mk j = .ok jl ∧ buildRecurse par chi mk joints fuel (chi j) = .ok cs ∧
      g = Frame.mk (chi j) jl.2 jl.1 cs) (joints.filter fun j => decide (par j = name)) fs := by
  rw [buildRecurse] at h
  refine ((Mjcf.mapM_ok_iff _ _ _).1 h).imp fun j g h => ?_
  obtain ⟨jl, h1, h⟩ := bind_eq_ok.1 h
  obtain ⟨cs, h2, h⟩ := bind_eq_ok.1 h
  cases h
  exact ⟨jl, cs, h1, h2, rfl⟩

/-- the frames below a link have the names of the links below it -/
theorem build_names (h : buildRecurse par chi mk joints fuel name = .ok fs) (n : Name) :
    (∃ g ∈ preorderL fs, g.name = n) ↔ ∃ k, Reach par chi joints name (k + 1) n := by
  induction fuel generalizing name fs n with
  | zero => cases h
  | succ fuel ih =>
    have h := buildRecurse_eq h
    constructor
    · rintro ⟨g, hg, rfl⟩
      obtain ⟨c, hc, hg⟩ := Mjcf.mem_preorderL_iff.1 hg
      obtain ⟨j, hj, jl, cs, -, h2, rfl⟩ := Mjcf.forall₂_mem' h hc
      obtain ⟨hj, hp⟩ := List.mem_filter.1 hj
      have hp : par j = name := by simpa using hp
      rw [preorder, List.mem_cons] at hg
      rcases hg with rfl | hg
      · exact ⟨0, reach_cons hj hp .here⟩
      · obtain ⟨k, hk⟩ := (ih h2 g.name).1 ⟨g, hg, rfl⟩
        exact ⟨k + 1, reach_cons hj hp hk⟩
    · rintro ⟨k, hk⟩
      obtain ⟨j, hj, hp, hk⟩ := reach_uncons hk
      obtain ⟨c, hc, jl, cs, -, h2, rfl⟩ := Mjcf.forall₂_mem h (List.mem_filter.2 ⟨hj, by simpa using hp⟩)
      cases k with
      | zero =>
        cases hk
        exact ⟨_, mem_preorderL hc, rfl⟩
      | succ k =>
        obtain ⟨g, hg, e⟩ := (ih h2 n).2 ⟨k, hk⟩
        exact ⟨g, Mjcf.mem_preorderL_iff.2 ⟨_, hc, by rw [preorder]; exact List.mem_cons_of_mem _ hg⟩, e⟩

/-- the recursion ends, so there is no cycle -/
theorem build_depth (h : buildRecurse par chi mk joints fuel name = .ok fs) {k : ℕ} {n : Name} (hk : Reach par chi joints name k n) :
    k < fuel := by
  induction fuel generalizing name fs k with
  | zero => cases h
  | succ fuel ih =>
    cases k with
    | zero => omega
    | succ k =>
      obtain ⟨j, hj, hp, hk⟩ := reach_uncons hk
      obtain ⟨c, hc, jl, cs, -, h2, rfl⟩ := Mjcf.forall₂_mem (buildRecurse_eq h) (List.mem_filter.2 ⟨hj, by simpa using hp⟩)
      have := ih h2 hk
      omega

/-- every joint that can be reached was converted -/
theorem build_converted (h : buildRecurse par chi mk joints fuel name = .ok fs) {k : ℕ} {j : J} (hj : j ∈ joints)
    (hk : Reach par chi joints name k (par j)) : ∃ v, mk j = .ok v := by
  induction fuel generalizing name fs k with
  | zero => cases h
  | succ fuel ih =>
    cases k with
    | zero =>
      generalize hp : par j = p at hk
      cases hk
      obtain ⟨c, hc, jl, cs, h1, -⟩ := Mjcf.forall₂_mem (buildRecurse_eq h) (List.mem_filter.2 ⟨hj, by simpa using hp⟩)
      exact ⟨jl, h1⟩
    | succ k =>
      obtain ⟨i, hi, hp, hk⟩ := reach_uncons hk
      obtain ⟨c, hc, jl, cs, -, h2, rfl⟩ := Mjcf.forall₂_mem (buildRecurse_eq h) (List.mem_filter.2 ⟨hi, by simpa using hp⟩)
      exact ih h2 hk

theorem build_children (h : buildRecurse par chi mk joints fuel name = .ok fs) :
    fs.map Frame.name = (joints.filter fun j => decide (par j = name)).map chi ∧
    ∀ g ∈ preorderL fs, g.children.map Frame.name = (joints.filter fun j => decide (par j = g.name)).map chi := by
  induction fuel generalizing name fs with
  | zero => cases h
  | succ fuel ih =>
    replace h := buildRecurse_eq h
    constructor
    · clear ih
      generalize joints.filter (fun j => decide (par j = name)) = l at h
      induction h with
      | nil => rfl
      | cons a _ ih =>
        obtain ⟨_, _, _, _, rfl⟩ := a
        rw [List.map_cons, List.map_cons, ih]; rfl
    · intro g hg
      obtain ⟨c, hc, hg⟩ := Mjcf.mem_preorderL_iff.1 hg
      obtain ⟨j, hj, jl, cs, -, h2, rfl⟩ := Mjcf.forall₂_mem' h hc
      rw [preorder, List.mem_cons] at hg
      rcases hg with rfl | hg
      · exact (ih h2).1
      · exact (ih h2).2 g hg

/-- more stack does not change the result -/
theorem build_mono (h : buildRecurse par chi mk joints fuel name = .ok fs) : buildRecurse par chi mk joints (fuel + 1) name = .ok fs := by
  induction fuel generalizing name fs with
  | zero => cases h
  | succ fuel ih =>
    have h := buildRecurse_eq h
    rw [buildRecurse]
    refine (Mjcf.mapM_ok_iff _ _ _).2 (h.imp fun j g ⟨jl, cs, h1, h2, e⟩ => ?_)
    rw [h1, ok_bind, ih h2, ok_bind, e]; rfl

theorem build_mono' {m : ℕ} (h : buildRecurse par chi mk joints fuel name = .ok fs) (hm : fuel ≤ m) :
    buildRecurse par chi mk joints m name = .ok fs := by
  induction m, hm using Nat.le_induction with
  | base => exact h
  | succ m _ ih => exact build_mono ih

end build

/-! ## the frames other than the root are the children of the frames -/

mutual
theorem preorder_perm : ∀ f : Frame, (preorder f).Perm (f :: (preorder f).flatMap Frame.children)
  | .mk n l j cs => by
    rw [preorder, List.flatMap_cons]
    exact (preorderL_perm cs).cons _
theorem preorderL_perm : ∀ fs : List Frame, (preorderL fs).Perm (fs ++ (preorderL fs).flatMap Frame.children)
  | [] => by simp [preorderL]
  | c :: cs => by
    rw [preorderL, List.flatMap_append]
    have h1 := preorder_perm c
    have h2 := preorderL_perm cs
    refine (h1.append h2).trans ?_
    rw [List.cons_append, List.cons_append]
    refine List.Perm.cons _ ?_
    rw [← List.append_assoc, ← List.append_assoc]
    exact List.perm_append_comm.append_right _
end

theorem filter_or_perm {α : Type} (p q : α → Bool) (l : List α) (h : ∀ a ∈ l, p a = true → q a = false) :
    (l.filter fun a => p a || q a).Perm (l.filter p ++ l.filter q) := by
  induction l with
  | nil => simp
  | cons a l ih =>
    have ih := ih fun b hb => h b (List.mem_cons_of_mem _ hb)
    cases hp : p a with
    | true =>
      rw [List.filter_cons_of_pos (by simp [hp]), List.filter_cons_of_pos hp, List.filter_cons_of_neg (by simp [h a (by simp) hp])]
      exact ih.cons a
    | false =>
      cases hq : q a with
      | true =>
        rw [List.filter_cons_of_pos (by simp [hq]), List.filter_cons_of_neg (by simp [hp]), List.filter_cons_of_pos hq]
        exact (ih.cons a).trans List.perm_middle.symm
      | false =>
        rw [List.filter_cons_of_neg (by simp [hp, hq]), List.filter_cons_of_neg (by simp [hp]), List.filter_cons_of_neg (by simp [hq])]
        exact ih

/-- sorting the joints by parent -/
theorem group_perm (L : List Name) (hL : L.Nodup) :
    (joints.filter fun j => decide (par j ∈ L)).Perm (L.flatMap fun n => joints.filter fun j => decide (par j = n)) := by
  induction L with
  | nil => simp
  | cons n L ih =>
    rw [List.nodup_cons] at hL
    rw [List.flatMap_cons]
    refine List.Perm.trans ?_ ((ih hL.2).append_left _)
    have := filter_or_perm (fun j => decide (par j = n)) (fun j => decide (par j ∈ L)) joints (by
      intro j _ h
      have h : par j = n := by simpa using h
      simpa [h] using hL.1)
    refine List.Perm.trans (.of_eq ?_) this
    congr 1
    funext j
    simp

/-- When all joints start at frames with distinct names, the frames below the root are the joints' children. -/
theorem names_perm {f : Frame} (hc : ∀ g ∈ preorder f, g.children.map Frame.name = (joints.filter fun j => decide (par j = g.name)).map chi)
    (hn : ((preorder f).map Frame.name).Nodup) (hp : ∀ j ∈ joints, par j ∈ (preorder f).map Frame.name) :
    ((preorder f).map Frame.name).Perm (f.name :: joints.map chi) := by
  have h1 := (preorder_perm f).map Frame.name
  refine h1.trans ?_
  rw [List.map_cons]
  refine List.Perm.cons _ ?_
  rw [List.map_flatMap]
  have e : (preorder f).flatMap (fun g => g.children.map Frame.name) =
      (((preorder f).map Frame.name).flatMap fun n => joints.filter fun j => decide (par j = n)).map chi := by
    rw [List.map_flatMap, List.flatMap_map]
    exact List.flatMap_congr fun g hg => hc g hg
  rw [e]
  refine List.Perm.map chi ?_
  refine (group_perm _ hn).symm.trans (.of_eq ?_)
  exact List.filter_eq_self.2 fun j hj => by simpa using hp j hj

/-! ## what was loaded -/

/-- the root is the parent of a joint; a joint that leads to it is that joint, or one below it -/
theorem rootName_some {root : Name} (h : rootName par chi joints = some root) :
    ∃ j ∈ joints, par j = root ∧ ∀ i ∈ joints, chi i = root → i = j ∨ par i = chi j := by
  unfold rootName at h
  obtain ⟨⟨b, j⟩, hf, rfl⟩ := Option.map_eq_some_iff.1 h
  have hb : b = true := by simpa using List.find?_some hf
  subst hb
  obtain ⟨m, hm⟩ := List.mem_iff_getElem?.1 (List.mem_of_find?_eq_some hf)
  rw [List.getElem?_zip_eq_some] at hm
  obtain ⟨h1, h2⟩ := hm
  obtain ⟨hlt, e⟩ := List.getElem?_eq_some_iff.1 h2
  rw [hasRoot_eq, foldl_mark] at h1
  refine ⟨j, List.mem_of_getElem? h2, rfl, fun i hi hc => ?_⟩
  obtain ⟨n, hn, rfl⟩ := List.getElem_of_mem hi
  by_contra hcon
  rw [not_or] at hcon
  rcases lt_trichotomy m n with hl | hl | hl
  · exact h1.2 (m, n) (mem_loopPairs.2 ⟨hl, hn⟩) ⟨j, joints[n], by simpa using h2, by simp [hn], .inl ⟨rfl, hc.symm⟩⟩
  · subst hl; exact hcon.1 e
  · exact h1.2 (n, m) (mem_loopPairs.2 ⟨hl, hlt⟩) ⟨joints[n], j, by simp [hn], by simpa using h2, .inr ⟨rfl, hcon.2, hc.symm⟩⟩

/-- no cycle can be reached -/
theorem build_acyclic {mk : J → Except Err (Joint × Link)} {fuel : ℕ} {name : Name} {fs : List Frame}
    (h : buildRecurse par chi mk joints fuel name = .ok fs) {k m : ℕ} {n : Name} (hk : Reach par chi joints name k n)
    (hm : Reach par chi joints n (m + 1) n) : False := by
  have key : ∀ t, ∃ k', t ≤ k' ∧ Reach par chi joints name k' n := by
    intro t
    induction t with
    | zero => exact ⟨k, by omega, hk⟩
    | succ t ih =>
      obtain ⟨k', h1, h2⟩ := ih
      exact ⟨_, by omega, h2.trans hm⟩
  obtain ⟨k', h1, h2⟩ := key fuel
  have := build_depth h h2
  omega

theorem kept_build {mk : J → Except Err (Joint × Link)} {fuel : ℕ} {root : Name} {fs : List Frame} {l : Link} {q : Joint}
    (hr : rootName par chi joints = some root) (h : buildRecurse par chi mk joints fuel root = .ok fs) :
    Kept par chi joints (Frame.mk root l q fs) := by
  obtain ⟨j, hj, hp, hu⟩ := rootName_some hr
  have hfr : ∀ n, n ∈ (preorder (Frame.mk root l q fs)).map Frame.name ↔ ∃ k, Reach par chi joints root k n := by
    intro n
    rw [preorder, List.map_cons, List.mem_cons]
    constructor
    · rintro (rfl | hn)
      · exact ⟨0, .here⟩
      · obtain ⟨g, hg, e⟩ := List.mem_map.1 hn
        obtain ⟨k, hk⟩ := (build_names h n).1 ⟨g, hg, e⟩
        exact ⟨_, hk⟩
    · rintro ⟨k, hk⟩
      cases k with
      | zero => cases hk; exact .inl rfl
      | succ k =>
        obtain ⟨g, hg, e⟩ := (build_names h n).2 ⟨k, hk⟩
        exact .inr (List.mem_map.2 ⟨g, hg, e⟩)
  refine ⟨⟨j, hj, hp⟩, ?_, hfr, ?_, ?_⟩
  · intro i hi hc
    change chi i = root at hc
    rcases hu i hi hc with rfl | e
    · have h1 : Reach par chi joints root 1 (chi i) := .step 0 i hi (hp ▸ .here)
      exact build_acyclic h .here (m := 0) (hc ▸ h1)
    · have h1 : Reach par chi joints root 1 (chi j) := .step 0 j hj (hp ▸ .here)
      have h2 : Reach par chi joints root 2 (chi i) := .step 1 i hi (e ▸ h1)
      exact build_acyclic h .here (m := 1) (hc ▸ h2)
  · intro g hg
    rw [preorder, List.mem_cons] at hg
    rcases hg with rfl | hg
    · exact (build_children h).1
    · exact (build_children h).2 g hg
  · intro g hg k hk
    obtain ⟨m, hm⟩ := (hfr g.name).1 (List.mem_map_of_mem hg)
    exact build_acyclic h hm hk

/-- A loaded tree of frames has one frame for each link exactly when the description is a tree. -/
theorem kept_iff {mk : J → Except Err (Joint × Link)} {fuel : ℕ} {root : Name} {fs : List Frame} {l : Link} {q : Joint}
    (hr : rootName par chi joints = some root) (h : buildRecurse par chi mk joints fuel root = .ok fs) {links : List Name}
    (hn : links.Nodup) (hp : ∀ j ∈ joints, par j ∈ links) :
    ((preorder (Frame.mk root l q fs)).map Frame.name).Perm links ↔ IsTree links par chi joints root := by
  have hk := kept_build (l := l) (q := q) hr h
  constructor
  · intro hper
    have hm : ∀ n, n ∈ links ↔ ∃ k, Reach par chi joints root k n := fun n => hper.mem_iff.symm.trans (hk.frames n)
    have hnp := names_perm hk.children (hper.nodup_iff.2 hn) fun j hj => hper.mem_iff.2 (hp j hj)
    refine ⟨hn, (hm root).2 ⟨0, .here⟩, fun j hj => ?_, hp, ?_, hk.root_top, fun n hn => (hm n).1 hn⟩
    · obtain ⟨k, h⟩ := (hm _).1 (hp j hj)
      exact (hm _).2 ⟨k + 1, .step k j hj h⟩
    · exact (List.nodup_cons.1 (hnp.nodup_iff.1 (hper.nodup_iff.2 hn))).2
  · intro ht
    have hc : ∀ j : J, ∃ v : Joint × Link, j ∈ joints → mk j = .ok v := by
      intro j
      by_cases hj : j ∈ joints
      · obtain ⟨k, hk⟩ := ht.reachable _ (hp j hj)
        obtain ⟨v, hv⟩ := build_converted h hj hk
        exact ⟨v, fun _ => hv⟩
      · exact ⟨(Joint.init, {}), fun h => absurd h hj⟩
    choose mk' hmk' using hc
    have h2 := build_mono' h (Nat.le_add_right fuel links.length)
    have h3 := buildRecurse_ok ht hmk' (fuel + links.length) root 0 .here (by omega)
    rw [h2] at h3
    cases h3
    exact (pureBuild_tree ht mk' (fuel + links.length) (by omega) l q _ rfl).1

theorem reach_map' {J K : Type} (f : J → K) (par chi : K → Name) (js : List J) (a : Name) (k : ℕ) (b : Name) :
    Reach par chi (js.map f) a k b ↔ Reach (par ∘ f) (chi ∘ f) js a k b := by
  refine ⟨reach_map f par chi js a k b, fun h => ?_⟩
  induction h with
  | here => exact .here
  | step k j hj _ ih => exact .step (par := par) (chi := chi) k (f j) (List.mem_map_of_mem hj) ih

theorem kept_map {J K : Type} (f : J → K) (par chi : K → Name) (js : List J) (g : Frame) (h : Kept (par ∘ f) (chi ∘ f) js g) :
    Kept par chi (js.map f) g where
  root_parent := let ⟨j, hj, e⟩ := h.root_parent; ⟨f j, List.mem_map_of_mem hj, e⟩
  root_top := List.forall_mem_map.2 h.root_top
  frames n := by simpa only [reach_map'] using h.frames n
  children g hg := by rw [List.filter_map, List.map_map]; exact h.children g hg
  acyclic g hg k := by rw [reach_map']; exact h.acyclic g hg k

theorem isTree_map' {J K : Type} (f : J → K) (par chi : K → Name) (links : List Name) (js : List J) (root : Name) :
    IsTree links par chi (js.map f) root ↔ IsTree links (par ∘ f) (chi ∘ f) js root := by
  refine ⟨isTree_map f par chi links js root, fun h => ⟨h.links_nodup, h.root_mem, List.forall_mem_map.2 h.child_mem,
    List.forall_mem_map.2 h.parent_mem, by rw [List.map_map]; exact h.one_parent, List.forall_mem_map.2 h.root_top, fun l hl => ?_⟩⟩
  obtain ⟨k, hk⟩ := h.reachable l hl
  exact ⟨k, (reach_map' ..).2 hk⟩

theorem foldl_set_mem {K V : Type} [DecidableEq K] (key : V → K) (l : List V) (d : Dict K V) (k : K) (v : V)
    (h : (l.foldl (fun d x => d.set (key x) x) d).get? k = some v) : (v ∈ l ∧ key v = k) ∨ d.get? k = some v := by
  induction l generalizing d with
  | nil => exact .inr h
  | cons a l ih =>
    rcases ih _ h with ⟨h1, h2⟩ | h
    · exact .inl ⟨List.mem_cons_of_mem _ h1, h2⟩
    · rw [Dict.get?_set] at h
      split at h
      · next e => cases h; exact .inl ⟨by simp, e⟩
      · exact .inr h

theorem forall₂_left {A B : Type} {R : A → B → Prop} {as : List A} {bs : List B} (h : List.Forall₂ R as bs) {a : A} (ha : a ∈ as) :
    ∃ b ∈ bs, R a b := by
  induction h with
  | nil => simp at ha
  | cons hab _ ih =>
    rcases List.mem_cons.1 ha with rfl | ha
    · exact ⟨_, by simp, hab⟩
    · obtain ⟨b, hb, h⟩ := ih ha
      exact ⟨b, List.mem_cons_of_mem _ hb, h⟩

namespace Urdf

theorem linkMap_mem {r : Robot} {n : Name} {l : Lnk} (h : r.linkMap.get? n = some l) : l ∈ r.links ∧ l.name = n :=
  (foldl_set_mem Lnk.name r.links [] n l h).resolve_right (by simp [Dict.get?])

theorem buildRoot_eq {fuel : ℕ} {r : Robot} {f : Frame} (h : buildRoot fuel r = .ok f) :
    ∃ root l fs, rootName Jnt.parent Jnt.child r.joints = some root ∧ root ∈ r.links.map Lnk.name ∧
      buildRecurse Jnt.parent Jnt.child (convertJoint r.linkMap) r.joints fuel root = .ok fs ∧ f = Frame.mk root l Joint.init fs := by
  unfold buildRoot at h
  obtain ⟨root, h1, h⟩ := bind_eq_ok.1 h
  obtain ⟨lnk, h2, h⟩ := bind_eq_ok.1 h
  obtain ⟨l, h3, h⟩ := bind_eq_ok.1 h
  obtain ⟨fs, h4, h⟩ := bind_eq_ok.1 h
  cases h
  have e1 : rootName Jnt.parent Jnt.child r.joints = some root := by
    split at h1
    · cases h1
    · next e => cases h1; exact e
  have e2 : r.linkMap.get? root = some lnk := by
    split at h2
    · cases h2
    · next e => cases h2; exact e
  obtain ⟨e3, e4⟩ := linkMap_mem e2
  subst e4
  exact ⟨lnk.name, l, fs, e1, List.mem_map_of_mem e3, h4, rfl⟩

theorem convertJoint_child {r : Robot} {j : Jnt} {v : Joint × Link} (h : convertJoint r.linkMap j = .ok v) : j.child ∈ r.links.map Lnk.name := by
  unfold convertJoint at h
  obtain ⟨_, -, h⟩ := bind_eq_ok.1 h
  obtain ⟨_, -, h⟩ := bind_eq_ok.1 h
  obtain ⟨l, h1, h⟩ := bind_eq_ok.1 h
  split at h1
  · cases h1
  · next e =>
    obtain ⟨e3, e4⟩ := linkMap_mem e
    exact e4 ▸ List.mem_map_of_mem e3

/-- C103: a chain is built only if every joint below one of its frames has a type with at most one degree of freedom.  (Joints that
cannot be reached from the root are not looked at, see C105.) -/
theorem C103_urdf_joint_types (num : NumParser) (doc : Xml) (fuel : ℕ) (c : Chain) (h : buildChain num fuel doc = .ok c) :
    ∃ f, c = Chain.init f ∧ ∀ x ∈ doc.aggregate n!"joint", ∀ p, HasChild x n!"parent" (fun y => y.attr n!"link" = some p) →
      p ∈ (preorder f).map Frame.name →
      ∃ t ∈ [n!"revolute", n!"continuous", n!"prismatic", n!"fixed"], x.attr n!"type" = some t := by
  obtain ⟨r, hr, h⟩ := bind_eq_ok.1 h
  obtain ⟨f, hf, h⟩ := bind_eq_ok.1 h
  cases h
  obtain ⟨-, e2⟩ := readRobot_eq hr
  obtain ⟨root, l, fs, h1, h2, h3, rfl⟩ := buildRoot_eq hf
  have hk := kept_build (l := l) (q := Joint.init) h1 h3
  refine ⟨_, rfl, fun x hx p ⟨y, hy, hy'⟩ hp => ?_⟩
  obtain ⟨j, hj, hxj⟩ := forall₂_left e2 hx
  unfold readJoint at hxj
  cases ht : x.attr n!"type" with
  | none =>
    rw [ht] at hxj
    obtain ⟨_, -, hxj⟩ := bind_eq_ok.1 hxj
    obtain ⟨_, hq, -⟩ := bind_eq_ok.1 hxj
    cases hq
  | some t =>
    have hjp : j.parent = p ∧ j.type = t := by
      rw [ht, hy] at hxj
      simp only [required, ok_bind, hy'] at hxj
      obtain ⟨_, -, hxj⟩ := bind_eq_ok.1 hxj
      obtain ⟨_, -, hxj⟩ := bind_eq_ok.1 hxj
      obtain ⟨_, -, hxj⟩ := bind_eq_ok.1 hxj
      obtain ⟨_, -, hxj⟩ := bind_eq_ok.1 hxj
      obtain ⟨_, -, hxj⟩ := bind_eq_ok.1 hxj
      obtain ⟨_, -, hxj⟩ := bind_eq_ok.1 hxj
      obtain ⟨_, -, hxj⟩ := bind_eq_ok.1 hxj
      obtain ⟨_, -, hxj⟩ := bind_eq_ok.1 hxj
      obtain ⟨_, -, hxj⟩ := bind_eq_ok.1 hxj
      split at hxj
      · cases hxj; exact ⟨rfl, rfl⟩
      · cases hxj
    obtain ⟨k, hreach⟩ := (hk.frames p).1 hp
    obtain ⟨v, hv⟩ := build_converted h3 hj (hjp.1 ▸ hreach)
    unfold convertJoint at hv
    obtain ⟨_, -, hv⟩ := bind_eq_ok.1 hv
    obtain ⟨q, hq, -⟩ := bind_eq_ok.1 hv
    rw [hjp.2] at hq
    refine ⟨t, ?_, rfl⟩
    unfold jointTypeMap at hq
    split_ifs at hq <;> simp_all

/-- C105 (part): the frames of a loaded chain are links of the document, namely those that can be reached from the root, each
with the declared children; the root is no joint's child and no cycle can be reached.  There is one frame for each link exactly
when the document describes a tree.  Missing from the full statement (only trees load): links that cannot be reached are lost and
links with several parents are duplicated instead of raising, see `C105_forest_fails`, `C105_two_parents_fails`,
`C105_unknown_parent_fails`. -/
theorem C105_urdf_partial (num : NumParser) (doc : Xml) (fuel : ℕ) (c : Chain) (h : buildChain num fuel doc = .ok c)
    (links : List Name) (joints : List Decl)
    (hl : List.Forall₂ (fun x l => x.attr n!"name" = some l) (doc.aggregate n!"link") links)
    (hj : List.Forall₂ Spec.Urdf.Declares (doc.aggregate n!"joint") joints) :
    ∃ f, c = Chain.init f ∧ (∀ g ∈ preorder f, g.name ∈ links) ∧ Kept Decl.parent Decl.child joints f ∧
      (links.Nodup → (∀ j ∈ joints, j.parent ∈ links) →
        (((preorder f).map Frame.name).Perm links ↔ IsTree links Decl.parent Decl.child joints f.name)) := by
  obtain ⟨r, hr, h⟩ := bind_eq_ok.1 h
  obtain ⟨f, hf, h⟩ := bind_eq_ok.1 h
  cases h
  obtain ⟨e1, e2⟩ := readRobot_eq hr
  have hl : r.links.map Lnk.name = links := map_eq_of_forall₂ (f := Lnk.name) (S := fun (x : Xml) l => x.attr n!"name" = some l) (fun _ _ _ a b => readLink_name a b) e1 hl
  have hj : r.joints.map Jnt.decl = joints := map_eq_of_forall₂ (f := Jnt.decl) (S := Spec.Urdf.Declares) (fun _ _ _ a b => readJoint_decl a b) e2 hj
  obtain ⟨root, l, fs, h1, h2, h3, rfl⟩ := buildRoot_eq hf
  have hk := kept_build (l := l) (q := Joint.init) h1 h3
  subst hl hj
  refine ⟨_, rfl, fun g hg => ?_, kept_map Jnt.decl Decl.parent Decl.child r.joints _ hk, fun hn hp => ?_⟩
  · obtain ⟨k, hr⟩ := (hk.frames g.name).1 (List.mem_map_of_mem hg)
    generalize g.name = n at hr
    cases hr with
    | here => exact h2
    | step k j hj hr =>
      obtain ⟨v, hv⟩ := build_converted h3 hj hr
      exact convertJoint_child hv
  · rw [isTree_map']
    exact kept_iff h1 h3 hn fun j hj => hp _ (List.mem_map_of_mem hj)

/-- C105 (part): a document in which every link is the child of some joint (so that there is no root) is rejected. -/
theorem C105_urdf_no_root (num : NumParser) (doc : Xml) (fuel : ℕ) (links : List Name) (joints : List Decl)
    (hl : List.Forall₂ (fun x l => x.attr n!"name" = some l) (doc.aggregate n!"link") links)
    (hj : List.Forall₂ Spec.Urdf.Declares (doc.aggregate n!"joint") joints)
    (h : ∀ l ∈ links, ∃ j ∈ joints, j.child = l) : ∃ e, buildChain num fuel doc = .error e := by
  cases hb : buildChain num fuel doc with
  | error e => exact ⟨e, rfl⟩
  | ok c =>
    obtain ⟨f, -, h1, h2, -⟩ := C105_urdf_partial num doc fuel c hb links joints hl hj
    obtain ⟨j, hj, e⟩ := h _ (h1 f (preorder_root_mem f))
    exact absurd e (h2.root_top j hj)

/-- links without visuals, and fixed joints -/
def exLink (n : Name) : Lnk := ⟨n, none, [], [], none⟩
def exFixed (n a b : Name) : Jnt := ⟨n, n!"fixed", a, b, none, none, none, none, none, none, none⟩

/-- The document with these links and fixed joints. -/
def exGraph (links : List Name) (joints : List (Name × Name × Name)) : Robot :=
  ⟨links.map exLink, joints.map fun j => exFixed j.1 j.2.1 j.2.2, []⟩

theorem exGraph_read (num : NumParser) (sh : Fl → Name) (links : List Name) (joints : List (Name × Name × Name)) :
    readRobot num (robotXml sh (exGraph links joints)) = .ok (exGraph links joints) := by
  refine readRobot_robotXml ⟨?_, ?_, by simp [exGraph]⟩ ?_
  · intro l hl
    obtain ⟨n, -, rfl⟩ := List.mem_map.1 hl
    exact ⟨by simp [exLink, OriginWritten], by simp [exLink], by simp [exLink], by simp [exLink]⟩
  · intro j hj
    obtain ⟨n, -, rfl⟩ := List.mem_map.1 hj
    exact ⟨by simp [exFixed, OriginWritten], by simp [exFixed], by simp [exFixed], by simp [exFixed], by simp [exFixed], by simp [exFixed], by simp [exFixed]⟩
  · intro j hj
    obtain ⟨n, -, rfl⟩ := List.mem_map.1 hj
    simp [exFixed, jointTypes]

/-- a fixed joint between links without visuals is converted -/
theorem exFixed_ok {lmap : Dict Name Lnk} {n a b : Name} (hb : lmap.get? b = some (exLink b)) :
    ∃ v, convertJoint lmap (exFixed n a b) = .ok v := by
  obtain ⟨w, hw, -⟩ := convertLink_ok (exLink b)
  have h : convertJoint lmap (exFixed n a b) = .ok (Joint.init (some n) (some (originT none)) .fixed none none none none, w) := by
    simp only [convertJoint, exFixed, C23_origin, ok_bind, hb, hw]
    rfl
  exact ⟨_, h⟩

/-- the frames below the link are built and have these names -/
def BuildsTo (r : Robot) (fuel : ℕ) (name : Name) (names : List Name) : Prop :=
  ∃ fs, buildRecurse Jnt.parent Jnt.child (convertJoint r.linkMap) r.joints fuel name = .ok fs ∧ (preorderL fs).map Frame.name = names

theorem buildsTo_step {r : Robot} {fuel : ℕ} {name : Name} {js : List Jnt} {N : List (List Name)}
    (hjs : (r.joints.filter fun j => decide (j.parent = name)) = js)
    (h : List.Forall₂ (fun j M => (∃ v, convertJoint r.linkMap j = .ok v) ∧ BuildsTo r fuel j.child M) js N) :
    BuildsTo r (fuel + 1) name ((js.zip N).flatMap fun p => p.1.child :: p.2) := by
  unfold BuildsTo
  rw [buildRecurse, hjs]
  clear hjs
  induction h with
  | nil => exact ⟨[], rfl, rfl⟩
  | @cons j M _ _ h _ ih =>
    obtain ⟨⟨v, hv⟩, cs, h1, h2⟩ := h
    obtain ⟨fs, h3, h4⟩ := ih
    refine ⟨Frame.mk j.child v.2 v.1 cs :: fs, ?_, ?_⟩
    · rw [List.mapM_cons, hv, ok_bind, h1, ok_bind, pure_ok, ok_bind, h3]; rfl
    · rw [preorderL, preorder, List.map_append, List.map_cons, h2, h4]; rfl

theorem buildsTo_chain {num : NumParser} {sh : Fl → Name} {links : List Name} {joints : List (Name × Name × Name)} {fuel : ℕ} {root : Name}
    {N : List Name} (h1 : rootName Jnt.parent Jnt.child (exGraph links joints).joints = some root)
    (h2 : (exGraph links joints).linkMap.get? root = some (exLink root)) (h3 : BuildsTo (exGraph links joints) fuel root N) :
    ∃ f, buildChain num fuel (robotXml sh (exGraph links joints)) = .ok (Chain.init f) ∧
      (preorder f).map Frame.name = root :: N := by
  obtain ⟨fs, h3, h4⟩ := h3
  obtain ⟨w, hw, -⟩ := convertLink_ok (exLink root)
  refine ⟨Frame.mk root w Joint.init fs, ?_, by rw [preorder, List.map_cons, h4]; rfl⟩
  have e : (exLink root).name = root := rfl
  simp only [buildChain, exGraph_read, ok_bind, buildRoot, h1, h2, hw, e, h3]
  rfl

/-- C105 is false: of two separate trees the second is lost.  The links `c` and `d` of this document have no frame. -/
theorem C105_forest_fails (num : NumParser) (sh : Fl → Name) (fuel : ℕ) :
    ∃ f, buildChain num (fuel + 2) (robotXml sh (exGraph [n!"a", n!"b", n!"c", n!"d"] [(n!"j", n!"a", n!"b"), (n!"k", n!"c", n!"d")])) =
        .ok (Chain.init f) ∧ (preorder f).map Frame.name = [n!"a", n!"b"] := by
  refine buildsTo_chain rfl rfl (buildsTo_step (js := [_]) (N := [[]]) rfl (.cons ⟨exFixed_ok rfl, ?_⟩ .nil))
  exact buildsTo_step (js := []) (N := []) rfl .nil

/-- C105 is false: a link with two parents gets two frames of the same name. -/
theorem C105_two_parents_fails (num : NumParser) (sh : Fl → Name) (fuel : ℕ) :
    ∃ f, buildChain num (fuel + 3) (robotXml sh (exGraph [n!"a", n!"b", n!"c", n!"d"] [(n!"j", n!"a", n!"b"), (n!"k", n!"a", n!"c"),
          (n!"l", n!"b", n!"d"), (n!"m", n!"c", n!"d")])) =
        .ok (Chain.init f) ∧ (preorder f).map Frame.name = [n!"a", n!"b", n!"d", n!"c", n!"d"] := by
  refine buildsTo_chain rfl rfl (buildsTo_step (js := [_, _]) (N := [[n!"d"], [n!"d"]]) rfl
    (.cons ⟨exFixed_ok rfl, ?_⟩ (.cons ⟨exFixed_ok rfl, ?_⟩ .nil))) <;>
  exact buildsTo_step (js := [_]) (N := [[]]) rfl (.cons ⟨exFixed_ok rfl, buildsTo_step (js := []) (N := []) rfl .nil⟩ .nil)

/-- C105 is false: a joint whose parent is not a link of the document is ignored, and so is the link below it. -/
theorem C105_unknown_parent_fails (num : NumParser) (sh : Fl → Name) (fuel : ℕ) :
    ∃ f, buildChain num (fuel + 2) (robotXml sh (exGraph [n!"a", n!"b", n!"c"] [(n!"j", n!"a", n!"b"), (n!"k", n!"x", n!"c")])) =
        .ok (Chain.init f) ∧ (preorder f).map Frame.name = [n!"a", n!"b"] := by
  refine buildsTo_chain rfl rfl (buildsTo_step (js := [_]) (N := [[]]) rfl (.cons ⟨exFixed_ok rfl, ?_⟩ .nil))
  exact buildsTo_step (js := []) (N := []) rfl .nil

/-- the hypotheses hold for the first of them, and the conclusion tells what is there -/
example (num : NumParser) (sh : Fl → Name) : ∃ f : Frame, (preorder f).map Frame.name = [n!"a", n!"b"] ∧
    Kept Decl.parent Decl.child [⟨n!"j", n!"fixed", n!"a", n!"b"⟩, ⟨n!"k", n!"fixed", n!"c", n!"d"⟩] f := by
  obtain ⟨f, h, e⟩ := C105_forest_fails num sh 0
  obtain ⟨f', h1, -, h2, -⟩ := C105_urdf_partial num _ _ _ h [n!"a", n!"b", n!"c", n!"d"]
    [⟨n!"j", n!"fixed", n!"a", n!"b"⟩, ⟨n!"k", n!"fixed", n!"c", n!"d"⟩]
    (.cons rfl (.cons rfl (.cons rfl (.cons rfl .nil))))
    (.cons ⟨rfl, rfl, ⟨_, rfl, rfl⟩, _, rfl, rfl⟩ (.cons ⟨rfl, rfl, ⟨_, rfl, rfl⟩, _, rfl, rfl⟩ .nil))
  have : f' = f := (congrArg Chain.root h1).symm
  subst this
  exact ⟨f', e, h2⟩

/-- two links, each the child of the other -/
example (num : NumParser) (sh : Fl → Name) (fuel : ℕ) :
    ∃ e, buildChain num fuel (robotXml sh (exGraph [n!"a", n!"b"] [(n!"j", n!"a", n!"b"), (n!"k", n!"b", n!"a")])) = .error e :=
  C105_urdf_no_root num _ fuel [n!"a", n!"b"] [⟨n!"j", n!"fixed", n!"a", n!"b"⟩, ⟨n!"k", n!"fixed", n!"b", n!"a"⟩]
    (.cons rfl (.cons rfl .nil))
    (.cons ⟨rfl, rfl, ⟨_, rfl, rfl⟩, _, rfl, rfl⟩ (.cons ⟨rfl, rfl, ⟨_, rfl, rfl⟩, _, rfl, rfl⟩ .nil))
    (by simp)

end Urdf

namespace Sdf

theorem linkMap_mem {r : Model} {n : Name} {l : Lnk} (h : lookupLink r.linkMap n = .ok l) : some n ∈ r.links.map Lnk.name := by
  unfold lookupLink at h
  split at h
  · cases h
  · next e =>
    obtain ⟨h1, h2⟩ := (foldl_set_mem Lnk.name r.links [] (some n) _ e).resolve_right (by simp [Dict.get?])
    exact h2 ▸ List.mem_map_of_mem h1

theorem buildRoot_eq {fuel : ℕ} {r : Model} {f : Frame} (h : buildRoot fuel r = .ok f) :
    ∃ root l q fs, rootName Jnt.parent Jnt.child r.joints = some root ∧ some root ∈ r.links.map Lnk.name ∧
      buildRecurse Jnt.parent Jnt.child (convertJoint r.linkMap) r.joints fuel root = .ok fs ∧ f = Frame.mk root l q fs := by
  unfold buildRoot at h
  obtain ⟨root, h1, h⟩ := bind_eq_ok.1 h
  obtain ⟨lnk, h2, h⟩ := bind_eq_ok.1 h
  obtain ⟨o, -, h⟩ := bind_eq_ok.1 h
  obtain ⟨l, h3, h⟩ := bind_eq_ok.1 h
  obtain ⟨fs, h4, h⟩ := bind_eq_ok.1 h
  cases h
  have e1 : rootName Jnt.parent Jnt.child r.joints = some root := by
    split at h1
    · cases h1
    · next e => cases h1; exact e
  exact ⟨root, l, _, fs, e1, linkMap_mem h2, h4, rfl⟩

theorem convertJoint_child {r : Model} {j : Jnt} {v : Joint × Link} (h : convertJoint r.linkMap j = .ok v) :
    some j.child ∈ r.links.map Lnk.name := by
  unfold convertJoint at h
  obtain ⟨_, -, h⟩ := bind_eq_ok.1 h
  obtain ⟨l, h1, h⟩ := bind_eq_ok.1 h
  exact linkMap_mem h1

/-- C105 (part), SDF: as `C105_urdf_partial`. -/
theorem C105_sdf_partial (num : NumParser) (doc : Xml) (fuel : ℕ) (c : Chain) (h : buildChain num fuel doc = .ok c)
    (links : List Name) (joints : List Decl)
    (hl : HasChild doc n!"model" fun m => List.Forall₂ (fun x l => x.attr n!"name" = some l) (m.aggregate n!"link") links)
    (hj : HasChild doc n!"model" fun m => List.Forall₂ Spec.Sdf.Declares (m.aggregate n!"joint") joints) :
    ∃ f, c = Chain.init f ∧ (∀ g ∈ preorder f, g.name ∈ links) ∧ Kept Decl.parent Decl.child joints f ∧
      (links.Nodup → (∀ j ∈ joints, j.parent ∈ links) →
        (((preorder f).map Frame.name).Perm links ↔ IsTree links Decl.parent Decl.child joints f.name)) := by
  obtain ⟨r, hr, h⟩ := bind_eq_ok.1 h
  obtain ⟨f, hf, h⟩ := bind_eq_ok.1 h
  cases h
  obtain ⟨m, hm, e1, e2⟩ := readSdf_eq hr
  obtain ⟨m', hm', f1⟩ := hl
  rw [hm] at hm'; cases hm'
  obtain ⟨m', hm', f2⟩ := hj
  rw [hm] at hm'; cases hm'
  have hl : r.links.map Lnk.name = links.map some :=
    map_eq_of_forall₂ (f := Lnk.name) (S := fun (x : Xml) l => x.attr n!"name" = l) (fun _ _ _ a b => (readLink_name_sdf a).trans b) e1
      (List.forall₂_map_right_iff.2 f1)
  have hj : r.joints.map Jnt.decl = joints := map_eq_of_forall₂ (f := Jnt.decl) (S := Spec.Sdf.Declares) (fun _ _ _ a b => (readJoint_decl_sdf a b).1) e2 f2
  have hmem : ∀ n, some n ∈ r.links.map Lnk.name → n ∈ links := by
    intro n hn
    rw [hl] at hn
    simpa using hn
  obtain ⟨root, l, q, fs, h1, h2, h3, rfl⟩ := buildRoot_eq hf
  have hk := kept_build (l := l) (q := q) h1 h3
  subst hj
  refine ⟨_, rfl, fun g hg => ?_, kept_map Jnt.decl Decl.parent Decl.child r.joints _ hk, fun hn hp => ?_⟩
  · obtain ⟨k, hr⟩ := (hk.frames g.name).1 (List.mem_map_of_mem hg)
    generalize g.name = n at hr
    cases hr with
    | here => exact hmem _ h2
    | step k j hj hr =>
      obtain ⟨v, hv⟩ := build_converted h3 hj hr
      exact hmem _ (convertJoint_child hv)
  · rw [isTree_map']
    exact kept_iff h1 h3 hn fun j hj => hp _ (List.mem_map_of_mem hj)

/-- the slider: the part about trees -/
example (f : Frame) (h : buildChain exNum 2 (exSlider n!"0 0 1") = .ok (Chain.init f)) : ((preorder f).map Frame.name).Perm [n!"a", n!"b"] := by
  have t := exSlider_tree n!"0 0 1"
  obtain ⟨f', h1, -, hk, h2⟩ := C105_sdf_partial exNum _ _ _ h _ _ t.has_links t.has_joints
  have : f' = f := (congrArg Chain.root h1).symm
  subst this
  obtain ⟨j, hj, e⟩ := hk.root_parent
  simp only [List.mem_singleton] at hj
  subst hj
  exact (h2 t.tree.links_nodup (by simp)).2 (e ▸ t.tree)

/-- C103, SDF: as `C103_urdf_joint_types`; a joint without the attribute `type` is not accepted either. -/
theorem C103_sdf_joint_types (num : NumParser) (doc : Xml) (fuel : ℕ) (c : Chain) (h : buildChain num fuel doc = .ok c) :
    ∃ f, c = Chain.init f ∧ HasChild doc n!"model" fun m => ∀ x ∈ m.aggregate n!"joint", ∀ p,
      HasChild x n!"parent" (fun y => y.text = some p) → p ∈ (preorder f).map Frame.name →
      ∃ t ∈ [n!"revolute", n!"prismatic", n!"fixed"], x.attr n!"type" = some t := by
  obtain ⟨r, hr, h⟩ := bind_eq_ok.1 h
  obtain ⟨f, hf, h⟩ := bind_eq_ok.1 h
  cases h
  obtain ⟨m, hm, -, e2⟩ := readSdf_eq hr
  obtain ⟨root, l, q, fs, h1, h2, h3, rfl⟩ := buildRoot_eq hf
  have hk := kept_build (l := l) (q := q) h1 h3
  refine ⟨_, rfl, m, hm, fun x hx p ⟨y, hy, hy'⟩ hp => ?_⟩
  obtain ⟨j, hj, hxj⟩ := forall₂_left e2 hx
  have hjp : j.parent = p ∧ j.type = x.attr n!"type" := by
    unfold readJoint at hxj
    obtain ⟨_, -, hxj⟩ := bind_eq_ok.1 hxj
    obtain ⟨_, -, hxj⟩ := bind_eq_ok.1 hxj
    rw [hy] at hxj
    simp only [required, ok_bind, hy'] at hxj
    obtain ⟨_, -, hxj⟩ := bind_eq_ok.1 hxj
    obtain ⟨_, -, hxj⟩ := bind_eq_ok.1 hxj
    cases hxj
    exact ⟨rfl, rfl⟩
  obtain ⟨k, hreach⟩ := (hk.frames p).1 hp
  obtain ⟨v, hv⟩ := build_converted h3 hj (hjp.1 ▸ hreach)
  unfold convertJoint at hv
  obtain ⟨_, -, hv⟩ := bind_eq_ok.1 hv
  obtain ⟨_, -, hv⟩ := bind_eq_ok.1 hv
  obtain ⟨_, -, hv⟩ := bind_eq_ok.1 hv
  obtain ⟨_, -, hv⟩ := bind_eq_ok.1 hv
  obtain ⟨_, -, hv⟩ := bind_eq_ok.1 hv
  obtain ⟨_, hq, -⟩ := bind_eq_ok.1 hv
  rw [hjp.2] at hq
  unfold jointTypeMap at hq
  split_ifs at hq with a b c
  exacts [⟨_, by simp, a⟩, ⟨_, by simp, b⟩, ⟨_, by simp, c⟩]

/-- the slider, read with any type: the chain exists only for the three types -/
example (f : Frame) (h : buildChain exNum 2 (exSlider n!"0 0 1") = .ok (Chain.init f)) : f.name = n!"a" → HasChild (exSlider n!"0 0 1") n!"model" fun m =>
    ∀ x ∈ m.aggregate n!"joint", HasChild x n!"parent" (fun y => y.text = some n!"a") →
      ∃ t ∈ [n!"revolute", n!"prismatic", n!"fixed"], x.attr n!"type" = some t := by
  intro hn
  obtain ⟨f', h1, m, hm, h2⟩ := C103_sdf_joint_types exNum _ _ _ h
  have : f' = f := (congrArg Chain.root h1).symm
  subst this
  exact ⟨m, hm, fun x hx hp => h2 x hx _ hp (hn ▸ List.mem_map_of_mem (preorder_root_mem f'))⟩

/-- C105 (part), SDF: as `C105_urdf_no_root`. -/
theorem C105_sdf_no_root (num : NumParser) (doc : Xml) (fuel : ℕ) (links : List Name) (joints : List Decl)
    (hl : HasChild doc n!"model" fun m => List.Forall₂ (fun x l => x.attr n!"name" = some l) (m.aggregate n!"link") links)
    (hj : HasChild doc n!"model" fun m => List.Forall₂ Spec.Sdf.Declares (m.aggregate n!"joint") joints)
    (h : ∀ l ∈ links, ∃ j ∈ joints, j.child = l) : ∃ e, buildChain num fuel doc = .error e := by
  cases hb : buildChain num fuel doc with
  | error e => exact ⟨e, rfl⟩
  | ok c =>
    obtain ⟨f, -, h1, h2, -⟩ := C105_sdf_partial num doc fuel c hb links joints hl hj
    obtain ⟨j, hj, e⟩ := h _ (h1 f (preorder_root_mem f))
    exact absurd e (h2.root_top j hj)

end Sdf

end PK
