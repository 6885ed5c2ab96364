import Verif.Model.Chain
import Verif.Spec.Tree
import Mathlib.Data.List.Perm.Basic
import Mathlib.Data.List.GetD

/-!
# The breadth-first traversal of `Chain.__init__`
-/

namespace PK
open Spec

/-- The sequence of queue items popped by the loop. -/
def bfsOrder (q : List QItem) (k : ℕ) : List QItem :=
  match q with
  | [] => []
  | (f, p, d) :: q =>
    (f, p, d) :: bfsOrder (q ++ f.children.map fun c => (c, (k : ℤ), d + 1)) (k + 1)
termination_by queueSize q
decreasing_by exact queueSize_step f p d _ q

theorem buildLoop_eq_foldl (names : List (Option Name)) (q : List QItem) (st : BuildState) :
    buildLoop names q st = (bfsOrder q st.idx).foldl (BuildState.step names) st := by
  induction q, st using buildLoop.induct names with
  | case1 st => simp [buildLoop, bfsOrder]
  | case2 st f p d q ih =>
    rw [buildLoop, bfsOrder, ih]
    simp [BuildState.step]

/-- FIFO: the queue is a prefix of the visiting order. -/
theorem bfsOrder_prefix (q : List QItem) (k : ℕ) : ∃ r, bfsOrder q k = q ++ r := by
  induction q, k using bfsOrder.induct with
  | case1 k => exact ⟨[], by simp [bfsOrder]⟩
  | case2 k f p d q ih =>
    obtain ⟨r, hr⟩ := ih
    exact ⟨f.children.map (fun c => (c, (k : ℤ), d + 1)) ++ r, by rw [bfsOrder, hr]; simp⟩

/-- every child is visited later, with its parent's index and depth + 1 -/
theorem bfsOrder_child (q : List QItem) (k : ℕ) : ∀ (i : ℕ) (e : QItem), (bfsOrder q k)[i]? = some e →
    ∀ c ∈ e.1.children, ∃ j, i < j ∧ (bfsOrder q k)[j]? = some (c, ((k + i : ℕ) : ℤ), e.2.2 + 1) := by
  induction q, k using bfsOrder.induct with
  | case1 k => intro i e h; simp [bfsOrder] at h
  | case2 k f p d q ih =>
    intro i e h c hc
    rw [bfsOrder] at h ⊢
    cases i with
    | zero =>
      simp only [List.getElem?_cons_zero, Option.some.injEq] at h
      subst h
      obtain ⟨r, hr⟩ := bfsOrder_prefix (q ++ f.children.map fun c => (c, (k : ℤ), d + 1)) (k + 1)
      have hmem : (c, (k : ℤ), d + 1) ∈ q ++ f.children.map fun c => (c, (k : ℤ), d + 1) := by
        apply List.mem_append_right
        exact List.mem_map.2 ⟨c, hc, rfl⟩
      obtain ⟨j, hj⟩ := List.getElem?_of_mem hmem
      refine ⟨j + 1, by omega, ?_⟩
      rw [List.getElem?_cons_succ, hr, List.getElem?_append_left, hj]
      · simp
      · exact (List.getElem?_eq_some_iff.1 hj).1
    | succ i =>
      rw [List.getElem?_cons_succ] at h
      obtain ⟨j, hij, hj⟩ := ih i e h c hc
      refine ⟨j + 1, by omega, ?_⟩
      rw [List.getElem?_cons_succ, hj]
      congr 3
      push_cast; ring

/-- every visited item is from the initial queue or the child of an earlier one -/
theorem bfsOrder_parent (q : List QItem) (k : ℕ) : ∀ (j : ℕ) (e : QItem), (bfsOrder q k)[j]? = some e →
    (q[j]? = some e) ∨ (q.length ≤ j ∧ ∃ i, i < j ∧ ∃ e', (bfsOrder q k)[i]? = some e' ∧
      e.2.1 = ((k + i : ℕ) : ℤ) ∧ e.2.2 = e'.2.2 + 1 ∧ e.1 ∈ e'.1.children) := by
  induction q, k using bfsOrder.induct with
  | case1 k => intro i e h; simp [bfsOrder] at h
  | case2 k f p d q ih =>
    intro j e h
    rw [bfsOrder] at h ⊢
    cases j with
    | zero => left; simpa using h
    | succ j =>
      rw [List.getElem?_cons_succ] at h
      rcases ih j e h with hq | ⟨hl, i, hi, e', he', h1, h2, h3⟩
      · by_cases hj : j < q.length
        · left
          rwa [List.getElem?_append_left hj] at hq
        · right
          rw [List.getElem?_append_right (by omega)] at hq
          have hm := List.mem_of_getElem? hq
          obtain ⟨c, hc, rfl⟩ := List.mem_map.1 hm
          exact ⟨by simp; omega, 0, by omega, (f, p, d), by simp, by simp, by simp, hc⟩
      · right
        refine ⟨by simp at hl ⊢; omega, i + 1, by omega, e', by simpa using he', ?_, h2, h3⟩
        rw [h1]; push_cast; ring

theorem preorderL_append (a b : List Frame) : preorderL (a ++ b) = preorderL a ++ preorderL b := by
  induction a with
  | nil => simp [preorderL]
  | cons c cs ih => simp [preorderL, ih]

theorem preorder_eq (f : Frame) : preorder f = f :: preorderL f.children := by
  cases f; simp [preorder, Frame.children]

/-- the traversal visits every frame exactly once -/
theorem bfsOrder_perm (q : List QItem) (k : ℕ) :
    ((bfsOrder q k).map (·.1)).Perm (preorderL (q.map (·.1))) := by
  induction q, k using bfsOrder.induct with
  | case1 k => simp [bfsOrder, preorderL]
  | case2 k f p d q ih =>
    rw [bfsOrder, List.map_cons, List.map_cons, preorderL, preorder_eq]
    simp only [List.cons_append, List.perm_cons]
    refine ih.trans ?_
    simp only [List.map_append, preorderL_append, List.map_map, Function.comp_def, List.map_id']
    exact List.perm_append_comm

/-- The visiting order of a chain. -/
def visit (root : Frame) : List QItem := bfsOrder [(root, -1, 0)] 0

theorem visit_perm (root : Frame) : ((visit root).map (·.1)).Perm (preorder root) := by
  simpa [visit, preorderL] using bfsOrder_perm [(root, -1, 0)] 0

theorem visit_zero (root : Frame) : (visit root)[0]? = some (root, -1, 0) := by
  rw [visit, bfsOrder]; simp

theorem visit_child (root : Frame) {i : ℕ} {e : QItem} (h : (visit root)[i]? = some e) {c : Frame}
    (hc : c ∈ e.1.children) : ∃ j, i < j ∧ (visit root)[j]? = some (c, (i : ℤ), e.2.2 + 1) := by
  simpa [visit] using bfsOrder_child [(root, -1, 0)] 0 i e h c hc

theorem visit_parent (root : Frame) {j : ℕ} {e : QItem} (h : (visit root)[j]? = some e) (hj : 0 < j) :
    ∃ i, i < j ∧ ∃ e', (visit root)[i]? = some e' ∧ e.2.1 = (i : ℤ) ∧ e.2.2 = e'.2.2 + 1 ∧
      e.1 ∈ e'.1.children := by
  rcases bfsOrder_parent [(root, -1, 0)] 0 j e h with h' | ⟨-, i, hi, e', h1, h2, h3⟩
  · rw [List.getElem?_eq_some_iff] at h'
    obtain ⟨hl, -⟩ := h'
    simp at hl; omega
  · exact ⟨i, hi, e', h1, by simpa using h2, h3⟩

/-! ## The tables as functions of the visiting order -/

/-- tables after processing a list of items -/
structure Tables (names : List (Option Name)) (L : List QItem) (st0 st : BuildState) : Prop where
  idx : st.idx = st0.idx + L.length
  jointIndices : st.jointIndices = st0.jointIndices ++
    L.map fun e => if e.1.joint.jtype = .fixed then -1 else (names.idxOf e.1.joint.name : ℤ)
  linkOffsets : st.linkOffsets = st0.linkOffsets ++ L.map fun e => e.1.link.offset
  jointOffsets : st.jointOffsets = st0.jointOffsets ++ L.map fun e => e.1.joint.offset
  jointTypeIndices : st.jointTypeIndices = st0.jointTypeIndices ++ L.map fun e => e.1.joint.jtype.index
  directParents : st.directParents = st0.directParents ++ L.map fun e => e.2.1
  frameDepths : st.frameDepths = st0.frameDepths ++ L.map fun e => e.2.2
  parents_length : st.parentsIndices.length = st0.parentsIndices.length + L.length
  parents_prefix : ∃ r, st.parentsIndices = st0.parentsIndices ++ r

theorem foldl_tables (names : List (Option Name)) (L : List QItem) (st : BuildState) :
    Tables names L st (L.foldl (BuildState.step names) st) := by
  induction L generalizing st with
  | nil => constructor <;> simp
  | cons e L ih =>
    obtain ⟨h1, h2, h3, h4, h5, h6, h7, h8, r, h9⟩ := ih (st.step names e)
    constructor <;> simp only [List.foldl_cons]
    · rw [h1]; simp [BuildState.step]; omega
    · rw [h2]; simp [BuildState.step]
    · rw [h3]; simp [BuildState.step]
    · rw [h4]; simp [BuildState.step]
    · rw [h5]; simp [BuildState.step]
    · rw [h6]; simp [BuildState.step]
    · rw [h7]; simp [BuildState.step]
    · rw [h8]; simp [BuildState.step]; omega
    · rw [h9]
      exact ⟨_, by simp only [BuildState.step, List.append_assoc]; rfl⟩

theorem foldl_parents (names : List (Option Name)) (L : List QItem) (st : BuildState)
    (hidx : st.parentsIndices.length = st.idx) (j : ℕ) (e : QItem) (h : L[j]? = some e) :
    let P := (L.foldl (BuildState.step names) st).parentsIndices
    P[st.idx + j]? = some (if e.2.1 = -1 then [st.idx + j] else
      ((P.take (st.idx + j))[e.2.1.toNat]?).getD [] ++ [st.idx + j]) := by
  induction L generalizing st j with
  | nil => simp at h
  | cons a L ih =>
    cases j with
    | zero =>
      simp only [List.getElem?_cons_zero, Option.some.injEq] at h
      subst h
      simp only [List.foldl_cons]
      obtain ⟨r, hr⟩ := (foldl_tables names L (st.step names a)).parents_prefix
      rw [hr]
      simp only [BuildState.step, Nat.add_zero, List.append_assoc]
      rw [List.getElem?_append_right (by omega), List.take_append_of_le_length (by omega)]
      rw [List.take_of_length_le (by omega)]
      simp [hidx]
    | succ j =>
      have := ih (st.step names a) (by simp [BuildState.step, hidx]) j (by simpa using h)
      have hi : (st.step names a).idx + j = st.idx + (j + 1) := by simp [BuildState.step]; omega
      rw [hi] at this
      simpa using this

end PK
