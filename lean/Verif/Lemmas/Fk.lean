import Verif.Lemmas.Bfs
import Mathlib.Algebra.BigOperators.Group.List.Basic

/-!
# Chain tables and the level-by-level accumulation
-/

namespace PK
open Spec

theorem mapM_ok {α β : Type} (l : List α) (f : α → Except Err β) (g : α → β)
    (h : ∀ a ∈ l, f a = .ok (g a)) : l.mapM f = .ok (l.map g) := by
  induction l with
  | nil => rfl
  | cons a l ih =>
    rw [List.mapM_cons, h a (by simp), ih fun b hb => h b (by simp [hb])]
    rfl

/-- the state after the construction loop -/
def finalState (root : Frame) : BuildState :=
  buildLoop root.jointParamNames [(root, -1, 0)]
    { axes := List.replicate root.jointParamNames.length ![0, 0, 0] }

theorem finalState_eq (root : Frame) : finalState root = (visit root).foldl
    (BuildState.step root.jointParamNames) { axes := List.replicate root.jointParamNames.length ![0, 0, 0] } :=
  buildLoop_eq_foldl _ _ _

theorem finalState_tables (root : Frame) : Tables root.jointParamNames (visit root)
    { axes := List.replicate root.jointParamNames.length ![0, 0, 0] } (finalState root) := by
  rw [finalState_eq]; exact foldl_tables _ _ _

/-- index of the frames from the root to frame `j` -/
abbrev ancestors (root : Frame) : List (List ℕ) := (finalState root).parentsIndices

theorem ancestors_length (root : Frame) : (ancestors root).length = (visit root).length := by
  simpa using (finalState_tables root).parents_length

theorem ancestors_zero (root : Frame) : (ancestors root)[0]? = some [0] := by
  have := foldl_parents root.jointParamNames (visit root)
    { axes := List.replicate root.jointParamNames.length ![0, 0, 0] } rfl 0 _ (visit_zero root)
  rw [← finalState_eq] at this
  simpa using this

theorem ancestors_succ (root : Frame) {i j : ℕ} {e : QItem} (h : (visit root)[j]? = some e)
    (hp : e.2.1 = (i : ℤ)) (hij : i < j) :
    ∃ pi, (ancestors root)[i]? = some pi ∧ (ancestors root)[j]? = some (pi ++ [j]) := by
  have := foldl_parents root.jointParamNames (visit root)
    { axes := List.replicate root.jointParamNames.length ![0, 0, 0] } rfl j e h
  rw [← finalState_eq] at this
  have hj : j < (visit root).length := (List.getElem?_eq_some_iff.1 h).1
  have hi : i < (ancestors root).length := by rw [ancestors_length]; omega
  refine ⟨(ancestors root)[i], List.getElem?_eq_getElem hi, ?_⟩
  have hne : ¬ ((i : ℤ) = -1) := by omega
  simp only [Nat.zero_add, hp, hne, if_false, Int.toNat_natCast, List.getElem?_take, hij, if_true] at this
  rw [this, List.getElem?_eq_getElem hi]
  rfl

/-- frame visited at position `i` -/
def frameAt (root : Frame) (i : ℕ) : Option Frame := (visit root)[i]?.map (·.1)

theorem ancestors_isPath (root : Frame) (j : ℕ) : ∀ (e : QItem), (visit root)[j]? = some e →
    ∃ (pi : List ℕ) (path : List Frame), (ancestors root)[j]? = some pi ∧ IsPath root path ∧
      pi.map (frameAt root) = path.map some ∧ path.getLast? = some e.1 ∧ pi.getLast? = some j ∧
      pi.length = e.2.2 + 1 ∧ pi.Pairwise (· < ·) := by
  induction j using Nat.strong_induction_on with
  | _ j ih =>
    intro e h
    rcases Nat.eq_zero_or_pos j with rfl | hj
    · rw [visit_zero] at h
      simp only [Option.some.injEq] at h
      subst h
      refine ⟨[0], [root], ancestors_zero root, .single, ?_, by simp, by simp, by simp, by simp⟩
      simp [frameAt, visit_zero]
    · obtain ⟨i, hi, e', he', h1, h2, h3⟩ := visit_parent root h hj
      obtain ⟨pi, path, hp, hpath, hmap, hlast, hlast', hlen, hsort⟩ := ih i hi e' he'
      obtain ⟨pi', hpi', hj'⟩ := ancestors_succ root h h1 hi
      obtain rfl : pi = pi' := by rw [hp] at hpi'; exact Option.some.inj hpi'
      obtain ⟨p0, rfl⟩ := (List.getLast?_eq_some_iff.1 hlast)
      refine ⟨_, _, hj', IsPath.snoc p0 e'.1 e.1 hpath h3, ?_, by simp, by simp, by simp [hlen, h2], ?_⟩
      · rw [List.map_append, hmap]; simp [frameAt, h]
      · rw [List.pairwise_append]
        refine ⟨hsort, by simp, ?_⟩
        obtain ⟨q0, rfl⟩ := (List.getLast?_eq_some_iff.1 hlast')
        rw [List.pairwise_append] at hsort
        intro a ha b hb
        simp only [List.mem_singleton] at hb
        subst hb
        rcases List.mem_append.1 ha with ha | ha
        · exact (hsort.2.2 a ha i (by simp)).trans hi
        · simp at ha; omega

theorem isPath_ancestors (root : Frame) {p : List Frame} (hp : IsPath root p) :
    ∃ (j : ℕ) (e : QItem) (pi : List ℕ), (visit root)[j]? = some e ∧ (ancestors root)[j]? = some pi ∧
      pi.map (frameAt root) = p.map some ∧ p.getLast? = some e.1 := by
  induction hp with
  | single => exact ⟨0, _, [0], visit_zero root, ancestors_zero root, by simp [frameAt, visit_zero], by simp⟩
  | snoc p f c _ hc ih =>
    obtain ⟨i, e, pi, h1, h2, h3, h4⟩ := ih
    have hf : e.1 = f := by simpa using h4.symm
    obtain ⟨j, hij, hj⟩ := visit_child root h1 (hf ▸ hc)
    obtain ⟨pi', hpi', hj'⟩ := ancestors_succ root hj rfl hij
    obtain rfl : pi = pi' := by rw [h2] at hpi'; exact Option.some.inj hpi'
    exact ⟨j, _, _, hj, hj', by rw [List.map_append, h3]; simp [frameAt, hj], by simp⟩

/-! ## Levels -/

theorem le_foldl_max (l : List ℕ) (a : ℕ) : a ≤ l.foldl max a ∧ ∀ x ∈ l, x ≤ l.foldl max a := by
  induction l generalizing a with
  | nil => simp
  | cons b l ih =>
    obtain ⟨h1, h2⟩ := ih (max a b)
    simp only [List.foldl_cons]
    refine ⟨le_trans (le_max_left a b) h1, ?_⟩
    intro x hx
    rcases List.mem_cons.1 hx with rfl | hx
    · exact le_trans (le_max_right a x) h1
    · exact h2 x hx

/-- one level -/
def levelAt (depths : List ℕ) (d : ℕ) : List ℕ :=
  (List.range depths.length).filter fun i => depths[i]? == some d

theorem mem_levelAt {depths : List ℕ} {d i : ℕ} : i ∈ levelAt depths d ↔ depths[i]? = some d := by
  simp only [levelAt, List.mem_filter, List.mem_range, beq_iff_eq, and_iff_right_iff_imp]
  intro h; exact (List.getElem?_eq_some_iff.1 h).1

theorem bfsLevelsOf_eq (depths : List ℕ) : bfsLevelsOf depths =
    levelAt depths 0 :: (List.range (depths.foldl max 0)).map fun d => levelAt depths (d + 1) := by
  simp only [bfsLevelsOf, List.range_succ_eq_map, List.map_cons, List.map_map, Function.comp_def, levelAt,
    Nat.succ_eq_add_one]

theorem visit_depth_zero (root : Frame) {j : ℕ} {e : QItem} (h : (visit root)[j]? = some e) :
    e.2.2 = 0 ↔ j = 0 := by
  constructor
  · intro h0
    by_contra hj
    obtain ⟨i, -, e', -, -, h2, -⟩ := visit_parent root h (Nat.pos_of_ne_zero hj)
    omega
  · rintro rfl
    rw [visit_zero] at h
    simp only [Option.some.injEq] at h
    subst h; rfl

/-- product of the local transforms along the ancestors of `j` -/
def worldOf {M : Type} [Monoid M] (root : Frame) (locals : List M) (j : ℕ) : M :=
  ((((ancestors root)[j]?).getD []).map fun i => locals.getD i 1).prod

theorem fkAccum_visit {M : Type} [Monoid M] (root : Frame) (locals : List M)
    (hl : locals.length = (visit root).length) :
    fkAccum (visit root).length ((visit root).map fun e => e.2.1)
      (bfsLevelsOf ((visit root).map fun e => e.2.2)) locals =
      .ok ((List.range (visit root).length).map (worldOf root locals)) := by
  set L := visit root with hL
  set depths := L.map fun e => e.2.2 with hdep
  set parents := L.map fun e => e.2.1 with hpar
  have hdepth : ∀ (j : ℕ) (e : QItem), L[j]? = some e → depths[j]? = some e.2.2 := by
    intro j e h; simp [hdep, h]
  have hgetD : ∀ j, j < L.length → locals[j]? = some (locals.getD j 1) := by
    intro j hj
    rw [List.getElem?_eq_getElem (by omega)]
    simp [List.getD, List.getElem?_eq_getElem (show j < locals.length by omega)]
  rw [bfsLevelsOf_eq]
  simp only [fkAccum]
  have key : ∀ (d j : ℕ) (e : QItem), L[j]? = some e →
      ((List.range d).map fun d => levelAt depths (d + 1)).foldl (levelStep L.length parents locals)
        (fun i => if i ∈ levelAt depths 0 then locals[i]? else none) j =
      if e.2.2 ≤ d then some (worldOf root locals j) else none := by
    intro d
    induction d with
    | zero =>
      intro j e h
      have hj : j < L.length := (List.getElem?_eq_some_iff.1 h).1
      simp only [List.range_zero, List.map_nil, List.foldl_nil, mem_levelAt, hdepth j e h,
        Option.some.injEq, Nat.le_zero]
      by_cases h0 : e.2.2 = 0
      · have : j = 0 := (visit_depth_zero root h).1 h0
        subst this
        simp only [h0, if_true]
        rw [hgetD 0 hj, worldOf, ancestors_zero]
        simp
      · simp [h0]
    | succ d ih =>
      intro j e h
      have hj : j < L.length := (List.getElem?_eq_some_iff.1 h).1
      rw [List.range_succ, List.map_append, List.foldl_append]
      simp only [List.map_cons, List.map_nil, List.foldl_cons, List.foldl_nil]
      generalize hT : List.foldl (levelStep L.length parents locals)
        (fun i => if i ∈ levelAt depths 0 then locals[i]? else none)
        ((List.range d).map fun d => levelAt depths (d + 1)) = T at ih ⊢
      simp only [levelStep, mem_levelAt, hdepth j e h, Option.some.injEq]
      by_cases hd : e.2.2 = d + 1
      · have hjpos : 0 < j := by
          rcases Nat.eq_zero_or_pos j with hz | hz
          · have := (visit_depth_zero root h).2 hz; omega
          · exact hz
        obtain ⟨i, hi, e', he', h1, h2, h3⟩ := visit_parent root h hjpos
        obtain ⟨pi, hpi, hpj⟩ := ancestors_succ root h h1 hi
        have hp : parents[j]? = some (i : ℤ) := by simp [hpar, h, h1]
        have hil : i < L.length := by omega
        have hidx : pyIndex L.length (i : ℤ) = some i := by simp [pyIndex, hil]
        have hTi := ih i e' he'
        rw [if_pos (by omega)] at hTi
        simp only [hd, if_true, hp, Option.bind_eq_bind, Option.bind_some, hidx, hTi, hgetD j hj, le_refl]
        congr 1
        simp only [worldOf, hpi, hpj, Option.getD_some, List.map_append, List.prod_append, List.map_cons,
          List.map_nil, List.prod_singleton]
      · rw [if_neg hd, ih j e h]
        by_cases h' : e.2.2 ≤ d
        · rw [if_pos h', if_pos (by omega)]
        · rw [if_neg h', if_neg (by omega)]
  apply mapM_ok
  intro j hj
  have hj : j < L.length := by simpa using hj
  have hLj := List.getElem?_eq_getElem hj
  have := key (depths.foldl max 0) j _ hLj
  rw [this, if_pos]
  apply (le_foldl_max depths 0).2
  simp only [hdep, List.mem_map]
  exact ⟨L[j], List.getElem_mem hj, rfl⟩

end PK
