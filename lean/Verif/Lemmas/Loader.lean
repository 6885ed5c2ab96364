import Mathlib.Data.List.Nodup
import Mathlib.Data.List.Perm.Basic
import Mathlib.Data.Fintype.Card
import Verif.Lemmas.Exc
import Verif.Lemmas.Bfs
import Verif.Lemmas.Serial
import Verif.Model.Loader
import Verif.Spec.Desc

/-! # Facts about root detection and tree construction -/

namespace PK
open Spec
variable {J : Type} {par chi : J → Name} {joints : List J}

/-! ## reachability -/

theorem chi_inj (h1 : (joints.map chi).Nodup) {a b : J} (ha : a ∈ joints) (hb : b ∈ joints)
    (hab : chi a = chi b) : a = b := List.inj_on_of_nodup_map h1 ha hb hab

theorem Spec.Reach.trans {a b c : Name} {k m : ℕ} (h1 : Reach par chi joints a k b)
    (h2 : Reach par chi joints b m c) : Reach par chi joints a (k + m) c := by
  induction h2 with
  | here => exact h1
  | step m j hj _ ih => exact .step (k + m) j hj ih

/-- a link has one ancestor at each distance -/
theorem Spec.Reach.unique (h1 : (joints.map chi).Nodup) {a b c : Name} {k : ℕ} (ha : Reach par chi joints a k c)
    (hb : Reach par chi joints b k c) : a = b := by
  induction k generalizing c with
  | zero => cases ha; cases hb; rfl
  | succ k ih =>
    cases ha with
    | step _ j hj ha =>
      generalize hc : chi j = c' at hb
      cases hb with
      | step _ j' hj' hb =>
        have := chi_inj h1 hj hj' hc
        subst this
        exact ih ha hb

/-- the distance from the root is unique -/
theorem Spec.Reach.depth_unique (h1 : (joints.map chi).Nodup) {root : Name} (h2 : ∀ j ∈ joints, chi j ≠ root)
    {c : Name} {k m : ℕ} (ha : Reach par chi joints root k c) (hb : Reach par chi joints root m c) : k = m := by
  induction k generalizing c m with
  | zero =>
    cases ha
    generalize hr : root = r' at hb
    cases hb with
    | here => rfl
    | step _ j hj _ => exact absurd hr.symm (by subst hr; exact h2 j hj)
  | succ k ih =>
    cases ha with
    | step _ j hj ha =>
      generalize hc : chi j = c' at hb
      cases hb with
      | here => exact absurd hc (h2 j hj)
      | step _ j' hj' hb =>
        have := chi_inj h1 hj hj' hc
        subst this
        rw [ih ha hb]

theorem Spec.Reach.mem {links : List Name} {root : Name} (h : IsTree links par chi joints root) {k : ℕ} {c : Name}
    (hr : Reach par chi joints root k c) : c ∈ links := by
  cases hr with
  | here => exact h.root_mem
  | step _ j hj _ => exact h.child_mem j hj

/-- depths are below the number of links -/
theorem Spec.Reach.depth_lt {links : List Name} {root : Name} (h : IsTree links par chi joints root) {k : ℕ}
    {c : Name} (hr : Reach par chi joints root k c) : k < links.length := by
  have key : ∀ k c, Reach par chi joints root k c → ∃ p : List Name, p.length = k + 1 ∧ p.Nodup ∧
      ∀ x ∈ p, ∃ i, i ≤ k ∧ Reach par chi joints root i x := by
    intro k
    induction k with
    | zero => intro c hc; exact ⟨[c], rfl, by simp, by simpa using hc⟩
    | succ k ih =>
      intro c hc
      cases hc with
      | step _ j hj hc =>
        obtain ⟨p, h1, h2, h3⟩ := ih _ hc
        refine ⟨chi j :: p, by simp [h1], ?_, ?_⟩
        · refine List.nodup_cons.2 ⟨fun hm => ?_, h2⟩
          obtain ⟨i, hi, hri⟩ := h3 _ hm
          have := Reach.depth_unique h.one_parent h.root_top hri (.step k j hj hc)
          omega
        · intro x hx
          rcases List.mem_cons.1 hx with rfl | hx
          · exact ⟨k + 1, le_refl _, .step k j hj hc⟩
          · obtain ⟨i, hi, hri⟩ := h3 x hx
            exact ⟨i, by omega, hri⟩
  obtain ⟨p, h1, h2, h3⟩ := key k c hr
  have : p.length ≤ links.length := (List.Nodup.subperm h2 fun x hx => by
    obtain ⟨i, _, hri⟩ := h3 x hx
    exact hri.mem h).length_le
  omega

/-! ## root detection -/

/-- pair `(a, b)` of the double loop clears entry `i` -/
def Hits (par chi : J → Name) (joints : Array J) (i : ℕ) (p : ℕ × ℕ) : Prop :=
  ∃ a b, joints[p.1]? = some a ∧ joints[p.2]? = some b ∧
    ((i = p.1 ∧ par a = chi b) ∨ (i = p.2 ∧ par a ≠ chi b ∧ par b = chi a))

theorem markPair_get (js : Array J) (a b : ℕ) (hr : List Bool) (i : ℕ) :
    (markPair par chi js a b hr)[i]? = some true ↔ hr[i]? = some true ∧ ¬ Hits par chi js i (a, b) := by
  unfold markPair Hits
  split
  · next x y hx hy =>
    simp only [hx, hy, Option.some.injEq, exists_and_left, exists_eq_left']
    split
    · next h =>
      rw [List.getElem?_set]
      by_cases hi : a = i
      · subst hi; simp [h]
      · rw [if_neg hi]
        simp [h, Ne.symm hi]
    · next h =>
      split
      · next h2 =>
        rw [List.getElem?_set]
        by_cases hi : b = i
        · subst hi; simp [h, h2]
        · rw [if_neg hi]
          simp [h, h2, Ne.symm hi]
      · next h2 => simp [h, h2]
  · next h =>
    constructor
    · intro hh
      refine ⟨hh, ?_⟩
      rintro ⟨x, y, hx, hy, _⟩
      exact h x y hx hy
    · exact fun hh => hh.1

theorem foldl_mark (js : Array J) (ps : List (ℕ × ℕ)) (hr : List Bool) (i : ℕ) :
    (ps.foldl (fun hr p => markPair par chi js p.1 p.2 hr) hr)[i]? = some true ↔
      hr[i]? = some true ∧ ∀ p ∈ ps, ¬ Hits par chi js i p := by
  induction ps generalizing hr with
  | nil => simp
  | cons p ps ih =>
    rw [List.foldl_cons, ih, markPair_get]
    simp [and_assoc]

/-- the pairs visited by the double loop -/
def loopPairs (n : ℕ) : List (ℕ × ℕ) :=
  (List.range n).flatMap fun i => (List.range' (i + 1) (n - (i + 1))).map fun j => (i, j)

theorem hasRoot_eq (par chi : J → Name) (joints : List J) : hasRoot par chi joints =
    (loopPairs joints.length).foldl (fun hr p => markPair par chi joints.toArray p.1 p.2 hr)
      (List.replicate joints.length true) := by
  unfold hasRoot loopPairs
  rw [List.foldl_flatMap]
  simp only [List.foldl_map]

theorem mem_loopPairs {n i j : ℕ} : (i, j) ∈ loopPairs n ↔ i < j ∧ j < n := by
  unfold loopPairs
  simp only [List.mem_flatMap, List.mem_range, List.mem_map, List.mem_range'_1, Prod.mk.injEq]
  constructor
  · rintro ⟨a, ha, b, ⟨hb1, hb2⟩, rfl, rfl⟩; omega
  · rintro ⟨h1, h2⟩; exact ⟨i, by omega, j, ⟨by omega, by omega⟩, rfl, rfl⟩

theorem hasRoot_length (par chi : J → Name) (joints : List J) :
    (hasRoot par chi joints).length = joints.length := by
  rw [hasRoot_eq]
  generalize loopPairs joints.length = ps
  have : ∀ (hr : List Bool), (ps.foldl (fun hr p => markPair par chi joints.toArray p.1 p.2 hr) hr).length
      = hr.length := by
    induction ps with
    | nil => intro hr; rfl
    | cons p ps ih =>
      intro hr
      rw [List.foldl_cons, ih]
      unfold markPair
      split
      · split
        · simp
        · split <;> simp
      · rfl
  rw [this, List.length_replicate]

/-- In a tree, the entries left marked are those of the joints at the root. -/
theorem hasRoot_tree {links : List Name} {root : Name} (h : IsTree links par chi joints root) (i : ℕ)
    (hi : i < joints.length) :
    (hasRoot par chi joints)[i]? = some true ↔ par joints[i] = root := by
  rw [hasRoot_eq, foldl_mark]
  have acyc : ∀ a ∈ joints, ∀ b ∈ joints, par a = chi b → par b = chi a → False := by
    intro a ha b hb h1 h2
    obtain ⟨k, hk⟩ := h.reachable _ (h.parent_mem a ha)
    have e1 : Reach par chi joints root (k + 1) (chi a) := .step k a ha hk
    have e2 : Reach par chi joints root (k + 1 + 1) (chi b) := .step _ b hb (h2 ▸ e1)
    have := Reach.depth_unique h.one_parent h.root_top hk (h1 ▸ e2)
    omega
  constructor
  · rintro ⟨_, hn⟩
    by_contra hne
    obtain ⟨k, hk⟩ := h.reachable _ (h.parent_mem _ (List.getElem_mem hi))
    generalize hp : par joints[i] = p at hk
    cases hk with
    | here => exact hne hp
    | step k j hj _ =>
      obtain ⟨m, hm, rfl⟩ := List.getElem_of_mem hj
      rcases lt_trichotomy i m with hlt | heq | hgt
      · refine hn (i, m) (mem_loopPairs.2 ⟨hlt, hm⟩) ⟨joints[i], joints[m], by simp [hi], by simp [hm], ?_⟩
        exact Or.inl ⟨rfl, hp⟩
      · subst heq
        exact acyc _ hj _ hj hp hp
      · refine hn (m, i) (mem_loopPairs.2 ⟨hgt, hi⟩) ⟨joints[m], joints[i], by simp [hm], by simp [hi], ?_⟩
        exact Or.inr ⟨rfl, fun h' => acyc _ hj _ (List.getElem_mem hi) h' hp, hp⟩
  · intro hp
    refine ⟨by simp [hi], ?_⟩
    rintro ⟨a, b⟩ _ ⟨x, y, hx, hy, hh⟩
    simp only [List.getElem?_toArray] at hx hy
    obtain ⟨ha, rfl⟩ := List.getElem?_eq_some_iff.1 hx
    obtain ⟨hb, rfl⟩ := List.getElem?_eq_some_iff.1 hy
    rcases hh with ⟨rfl, e⟩ | ⟨rfl, _, e⟩
    · exact h.root_top _ (List.getElem_mem hb) (by rw [← e, hp])
    · exact h.root_top _ (List.getElem_mem ha) (by rw [← e, hp])

theorem Spec.Reach.first {a c : Name} {k : ℕ} (h : Reach par chi joints a (k + 1) c) :
    ∃ j ∈ joints, par j = a := by
  induction k generalizing c with
  | zero =>
    cases h with
    | step _ j hj h => cases h' : par j; all_goals (cases h; exact ⟨j, hj, rfl⟩)
  | succ k ih =>
    cases h with
    | step _ j hj h => exact ih h

/-- Root detection finds the root of a tree that has a joint. -/
theorem rootName_tree {links : List Name} {root : Name} (h : IsTree links par chi joints root)
    (hne : joints ≠ []) : rootName par chi joints = some root := by
  unfold rootName
  obtain ⟨j0, hj0⟩ := List.exists_mem_of_ne_nil _ hne
  obtain ⟨k, hk⟩ := h.reachable _ (h.child_mem j0 hj0)
  have hk' : ∃ m, k = m + 1 := by
    cases k with
    | zero => cases h' : chi j0; all_goals exact absurd (by cases hk; rfl) (h.root_top j0 hj0)
    | succ m => exact ⟨m, rfl⟩
  obtain ⟨m, rfl⟩ := hk'
  obtain ⟨j1, hj1, hp1⟩ := hk.first
  obtain ⟨i, hi, rfl⟩ := List.getElem_of_mem hj1
  have hlen := hasRoot_length par chi joints
  have ht := (hasRoot_tree h i hi).2 hp1
  cases hf : ((hasRoot par chi joints).zip joints).find? (fun p => p.1) with
  | none =>
    have := List.find?_eq_none.1 hf (true, joints[i]) (by
      rw [List.mem_iff_getElem?]
      exact ⟨i, by rw [List.getElem?_zip_eq_some]; exact ⟨ht, by simp [hi]⟩⟩)
    simp at this
  | some p =>
    obtain ⟨hp, _⟩ := List.find?_eq_some_iff_append.1 hf
    have hm := List.mem_of_find?_eq_some hf
    obtain ⟨n, hn⟩ := List.mem_iff_getElem?.1 hm
    rw [List.getElem?_zip_eq_some] at hn
    obtain ⟨hn1, hn2⟩ := hn
    obtain ⟨hlt, e⟩ := List.getElem?_eq_some_iff.1 hn2
    rw [hp] at hn1
    have := (hasRoot_tree h n hlt).1 hn1
    rw [Option.map_some, ← e, this]

/-! ## tree construction -/

theorem mapM_ok_map {α β : Type} (f : α → Except Err β) (g : α → β) (l : List α)
    (h : ∀ a ∈ l, f a = .ok (g a)) : l.mapM f = .ok (l.map g) := by
  induction l with
  | nil => rfl
  | cons a l ih =>
    rw [List.mapM_cons, h a (by simp), ok_bind, ih fun b hb => h b (by simp [hb]), ok_bind]
    rfl

/-- the frames built below link `name`, when every joint converts to `mk` -/
def pureBuild (par chi : J → Name) (mk : J → Joint × Link) (joints : List J) : ℕ → Name → List Frame
  | 0, _ => []
  | fuel + 1, name => (joints.filter fun j => decide (par j = name)).map fun j =>
      Frame.mk (chi j) (mk j).2 (mk j).1 (pureBuild par chi mk joints fuel (chi j))

variable {links : List Name} {root : Name}

theorem buildRecurse_ok (h : IsTree links par chi joints root) {mkE : J → Except Err (Joint × Link)}
    {mk : J → Joint × Link} (hmk : ∀ j ∈ joints, mkE j = .ok (mk j)) (fuel : ℕ) (name : Name) (k : ℕ)
    (hk : Reach par chi joints root k name) (hf : links.length ≤ fuel + k) :
    buildRecurse par chi mkE joints fuel name = .ok (pureBuild par chi mk joints fuel name) := by
  induction fuel generalizing name k with
  | zero => have := hk.depth_lt h; omega
  | succ fuel ih =>
    rw [buildRecurse, pureBuild]
    apply mapM_ok_map
    intro j hj
    obtain ⟨hj, hp⟩ := List.mem_filter.1 hj
    have hp : par j = name := by simpa using hp
    rw [hmk j hj, ok_bind, ih (chi j) (k + 1) (.step k j hj (hp ▸ hk)) (by omega), ok_bind]
    rfl

/-- every frame built is a joint's frame, with the frames of the next level as children -/
theorem mem_pureBuild (h : IsTree links par chi joints root) (mk : J → Joint × Link) (fuel : ℕ)
    (name : Name) (k : ℕ) (hk : Reach par chi joints root k name) (hf : links.length ≤ fuel + k)
    (g : Frame) (hg : g ∈ preorderL (pureBuild par chi mk joints fuel name)) :
    ∃ j ∈ joints, ∃ fuel' k', g = Frame.mk (chi j) (mk j).2 (mk j).1 (pureBuild par chi mk joints fuel' (chi j)) ∧
      Reach par chi joints root k' (chi j) ∧ links.length ≤ fuel' + k' ∧
      ∃ m, Reach par chi joints name (m + 1) (chi j) := by
  induction fuel generalizing name k with
  | zero => simp [pureBuild, preorderL] at hg
  | succ fuel ih =>
    rw [pureBuild] at hg
    have : ∀ l : List J, (∀ j ∈ l, j ∈ joints ∧ par j = name) → g ∈ preorderL (l.map fun j =>
        Frame.mk (chi j) (mk j).2 (mk j).1 (pureBuild par chi mk joints fuel (chi j))) → ∃ j ∈ joints,
        ∃ fuel' k', g = Frame.mk (chi j) (mk j).2 (mk j).1 (pureBuild par chi mk joints fuel' (chi j)) ∧
          Reach par chi joints root k' (chi j) ∧ links.length ≤ fuel' + k' ∧
          ∃ m, Reach par chi joints name (m + 1) (chi j) := by
      intro l
      induction l with
      | nil => intro _ hg; simp [preorderL] at hg
      | cons j l ihl =>
        intro hl hg
        obtain ⟨hj, hp⟩ := hl j (by simp)
        simp only [List.map_cons, preorderL, preorder, List.mem_append, List.mem_cons] at hg
        have hr : Reach par chi joints root (k + 1) (chi j) := .step k j hj (hp ▸ hk)
        have hn : Reach par chi joints name 1 (chi j) := .step 0 j hj (hp ▸ .here)
        rcases hg with (rfl | hg) | hg
        · exact ⟨j, hj, fuel, k + 1, rfl, hr, by omega, 0, hn⟩
        · obtain ⟨j', hj', f', k', e, h1, h2, m, hm⟩ := ih (chi j) (k + 1) hr (by omega) hg
          refine ⟨j', hj', f', k', e, h1, h2, 1 + m, ?_⟩
          have := hn.trans hm
          rwa [← add_assoc] at this
        · exact ihl (fun j' hj' => hl j' (by simp [hj'])) hg
    exact this _ (fun j hj => by
      obtain ⟨a, b⟩ := List.mem_filter.1 hj
      exact ⟨a, by simpa using b⟩) hg

theorem pureBuild_names (h : IsTree links par chi joints root) (mk : J → Joint × Link) (fuel : ℕ)
    (name : Name) (k : ℕ) (hk : Reach par chi joints root k name) (hf : links.length ≤ fuel + k) :
    (pureBuild par chi mk joints fuel name).map Frame.name =
      (joints.filter fun j => decide (par j = name)).map chi := by
  cases fuel with
  | zero => have := hk.depth_lt h; omega
  | succ fuel => rw [pureBuild, List.map_map]; rfl

theorem pureBuild_nodup (h : IsTree links par chi joints root) (mk : J → Joint × Link) (fuel : ℕ)
    (name : Name) (k : ℕ) (hk : Reach par chi joints root k name) (hf : links.length ≤ fuel + k) :
    ((preorderL (pureBuild par chi mk joints fuel name)).map Frame.name).Nodup := by
  induction fuel generalizing name k with
  | zero => simp [pureBuild, preorderL]
  | succ fuel ih =>
    rw [pureBuild]
    have key : ∀ l : List J, (∀ j ∈ l, j ∈ joints ∧ par j = name) → (l.map chi).Nodup →
        ((preorderL (l.map fun j => Frame.mk (chi j) (mk j).2 (mk j).1
          (pureBuild par chi mk joints fuel (chi j)))).map Frame.name).Nodup ∧
        ∀ n ∈ (preorderL (l.map fun j => Frame.mk (chi j) (mk j).2 (mk j).1
          (pureBuild par chi mk joints fuel (chi j)))).map Frame.name, ∃ j ∈ l, ∃ m,
            Reach par chi joints (chi j) m n := by
      intro l
      induction l with
      | nil => intro _ _; simp [preorderL]
      | cons j l ihl =>
        intro hl hnd
        obtain ⟨hj, hp⟩ := hl j (by simp)
        rw [List.map_cons, List.nodup_cons] at hnd
        obtain ⟨ih1, ih2⟩ := ihl (fun j' hj' => hl j' (by simp [hj'])) hnd.2
        have hr : Reach par chi joints root (k + 1) (chi j) := .step k j hj (hp ▸ hk)
        have hsub : ∀ n ∈ (preorderL (pureBuild par chi mk joints fuel (chi j))).map Frame.name,
            ∃ m, Reach par chi joints (chi j) (m + 1) n := by
          intro n hn
          obtain ⟨g, hg, rfl⟩ := List.mem_map.1 hn
          obtain ⟨j', _, _, _, e, _, _, m, hm⟩ := mem_pureBuild h mk fuel (chi j) (k + 1) hr (by omega) g hg
          exact ⟨m, by rw [e]; exact hm⟩
        have hmine : ∀ n ∈ chi j :: (preorderL (pureBuild par chi mk joints fuel (chi j))).map Frame.name,
            ∃ m, Reach par chi joints (chi j) m n := by
          intro n hn
          rcases List.mem_cons.1 hn with rfl | hn
          · exact ⟨0, .here⟩
          · obtain ⟨m, hm⟩ := hsub n hn; exact ⟨_, hm⟩
        simp only [List.map_cons, preorderL, preorder, List.map_append, Frame.name]
        refine ⟨?_, ?_⟩
        · refine List.nodup_append.2 ⟨List.nodup_cons.2 ⟨?_, ih (chi j) (k + 1) hr (by omega)⟩, ih1, ?_⟩
          · intro hm
            obtain ⟨m, hm⟩ := hsub _ hm
            have := Reach.depth_unique h.one_parent h.root_top hr (hr.trans hm)
            omega
          · rintro a ha b hb rfl
            obtain ⟨m, hm⟩ := hmine a ha
            obtain ⟨j', hj', m', hm'⟩ := ih2 a hb
            obtain ⟨hj'', hp'⟩ := hl j' (by simp [hj'])
            have hr' : Reach par chi joints root (k + 1) (chi j') := .step k j' hj'' (hp' ▸ hk)
            have e := Reach.depth_unique h.one_parent h.root_top (hr.trans hm) (hr'.trans hm')
            have e : m = m' := by omega
            subst e
            have := Reach.unique h.one_parent hm hm'
            exact hnd.1 (this ▸ List.mem_map_of_mem hj')
        · intro n hn
          rcases List.mem_append.1 hn with hn | hn
          · obtain ⟨m, hm⟩ := hmine n hn
            exact ⟨j, by simp, m, hm⟩
          · obtain ⟨j', hj', m, hm⟩ := ih2 n hn
            exact ⟨j', by simp [hj'], m, hm⟩
    refine (key _ (fun j hj => ?_) ?_).1
    · obtain ⟨a, b⟩ := List.mem_filter.1 hj
      exact ⟨a, by simpa using b⟩
    · exact (List.filter_sublist.map chi).nodup h.one_parent

theorem preorder_root_mem (f : Frame) : f ∈ preorder f := by cases f; simp [preorder]

theorem mem_preorderL {c : Frame} {fs : List Frame} (h : c ∈ fs) : c ∈ preorderL fs := by
  induction fs with
  | nil => simp at h
  | cons a fs ih =>
    simp only [preorderL, List.mem_append]
    rcases List.mem_cons.1 h with rfl | h
    · exact Or.inl (preorder_root_mem _)
    · exact Or.inr (ih h)

theorem preorder_children {f g c : Frame} (hg : g ∈ preorder f) (hc : c ∈ g.children) : c ∈ preorder f :=
  (preorder_sub f hg).subset (by rw [preorder_eq]; exact List.mem_cons_of_mem _ (mem_preorderL hc))

/-- What the loaders build from a tree: the root frame and, below it, one frame per joint. -/
theorem pureBuild_tree (h : IsTree links par chi joints root) (mk : J → Joint × Link) (fuel : ℕ)
    (hf : links.length ≤ fuel) (rl : Link) (rj : Joint) (f : Frame)
    (ef : f = Frame.mk root rl rj (pureBuild par chi mk joints fuel root)) :
    ((preorder f).map Frame.name).Perm links ∧
    (∀ g ∈ preorder f, g.children.map Frame.name = (joints.filter fun j => decide (par j = g.name)).map chi) ∧
    (∀ j ∈ joints, ∃ p ∈ preorder f, ∃ g ∈ p.children, p.name = par j ∧ g.name = chi j ∧
      g.joint = (mk j).1 ∧ g.link = (mk j).2) ∧
    (∀ g ∈ preorder f, g = f ∨ ∃ j ∈ joints, g.name = chi j ∧ g.joint = (mk j).1 ∧ g.link = (mk j).2) := by
  have hch : ∀ g ∈ preorder f, ∃ fuel' k', g.children = pureBuild par chi mk joints fuel' g.name ∧
      Reach par chi joints root k' g.name ∧ links.length ≤ fuel' + k' ∧
      (g = f ∨ ∃ j ∈ joints, g.name = chi j ∧ g.joint = (mk j).1 ∧ g.link = (mk j).2) := by
    intro g hg
    rw [preorder_eq, List.mem_cons] at hg
    rcases hg with rfl | hg
    · exact ⟨fuel, 0, by rw [ef]; rfl, by rw [ef]; exact .here, by omega, Or.inl rfl⟩
    · have : f.children = pureBuild par chi mk joints fuel root := by rw [ef]; rfl
      rw [this] at hg
      obtain ⟨j, hj, f', k', e, h1, h2, _⟩ := mem_pureBuild h mk fuel root 0 .here (by omega) g hg
      refine ⟨f', k', ?_, ?_, h2, Or.inr ⟨j, hj, ?_⟩⟩ <;> rw [e]
      · rfl
      · exact h1
      · exact ⟨rfl, rfl, rfl⟩
  have hnames : ∀ g ∈ preorder f,
      g.children.map Frame.name = (joints.filter fun j => decide (par j = g.name)).map chi := by
    intro g hg
    obtain ⟨f', k', e, h1, h2, _⟩ := hch g hg
    rw [e]
    exact pureBuild_names h mk f' _ k' h1 h2
  have hjoint : ∀ p ∈ preorder f, ∀ j ∈ joints, par j = p.name → ∃ g ∈ p.children, g.name = chi j ∧
      g.joint = (mk j).1 ∧ g.link = (mk j).2 := by
    intro p hp j hj hpn
    obtain ⟨f', k', e, h1, h2, _⟩ := hch p hp
    cases f' with
    | zero => have := h1.depth_lt h; omega
    | succ f' =>
      rw [e, pureBuild]
      refine ⟨Frame.mk (chi j) (mk j).2 (mk j).1 (pureBuild par chi mk joints f' (chi j)),
        List.mem_map.2 ⟨j, List.mem_filter.2 ⟨hj, by simpa using hpn⟩, rfl⟩, rfl, rfl, rfl⟩
  have hall : ∀ k l, Reach par chi joints root k l → ∃ p ∈ preorder f, p.name = l := by
    intro k l hl
    induction hl with
    | here => exact ⟨f, preorder_root_mem f, by rw [ef]; rfl⟩
    | step k j hj _ ih =>
      obtain ⟨p, hp, e⟩ := ih
      obtain ⟨g, hg, e', _⟩ := hjoint p hp j hj e.symm
      exact ⟨g, preorder_children hp hg, e'⟩
  refine ⟨?_, hnames, ?_, ?_⟩
  · have hnd : ((preorder f).map Frame.name).Nodup := by
      rw [preorder_eq, List.map_cons, List.nodup_cons]
      have hc : f.children = pureBuild par chi mk joints fuel root := by rw [ef]; rfl
      have hn : f.name = root := by rw [ef]; rfl
      rw [hc, hn]
      refine ⟨?_, pureBuild_nodup h mk fuel root 0 .here (by omega)⟩
      intro hm
      obtain ⟨g, hg, e⟩ := List.mem_map.1 hm
      obtain ⟨j, hj, _, _, e', _⟩ := mem_pureBuild h mk fuel root 0 .here (by omega) g hg
      exact h.root_top j hj (by rw [← e, e']; rfl)
    refine (List.perm_ext_iff_of_nodup hnd h.links_nodup).2 fun n => ⟨?_, ?_⟩
    · intro hn
      obtain ⟨g, hg, rfl⟩ := List.mem_map.1 hn
      obtain ⟨_, k', _, h1, _⟩ := hch g hg
      exact h1.mem h
    · intro hn
      obtain ⟨k, hk⟩ := h.reachable n hn
      obtain ⟨p, hp, rfl⟩ := hall k n hk
      exact List.mem_map_of_mem hp
  · intro j hj
    obtain ⟨k, hk⟩ := h.reachable _ (h.parent_mem j hj)
    obtain ⟨p, hp, e⟩ := hall k _ hk
    obtain ⟨g, hg, h1, h2, h3⟩ := hjoint p hp j hj e.symm
    exact ⟨p, hp, g, hg, e, h1, h2, h3⟩
  · intro g hg
    obtain ⟨_, _, _, _, _, h4⟩ := hch g hg
    exact h4

end PK
