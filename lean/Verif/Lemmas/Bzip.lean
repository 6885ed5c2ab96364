import Verif.Model.Transform3d
import Verif.Spec.T3

/-!
# Broadcasting
-/

namespace PK
open Matrix Spec

variable {α β γ δ ε ζ : Type}

theorem zipWith_replicate_left (f : α → β → γ) (x : α) (b : List β) :
    List.zipWith f (List.replicate b.length x) b = b.map (f x) := by
  induction b with
  | nil => rfl
  | cons y b ih => simp [List.replicate_succ, ih]

theorem zipWith_replicate_right (f : α → β → γ) (a : List α) (y : β) :
    List.zipWith f a (List.replicate a.length y) = a.map (f · y) := by
  induction a with
  | nil => rfl
  | cons y b ih => simp [List.replicate_succ, ih]

theorem bzip_left (f : α → β → γ) (x : α) (b : List β) : bzip f [x] b = .ok (b.map (f x)) := by
  match b with
  | [] => simp [bzip]
  | [y] => simp [bzip]
  | y :: y' :: b =>
    have := zipWith_replicate_left f x (y :: y' :: b)
    simpa [bzip] using this

theorem bzip_right (f : α → β → γ) (a : List α) (y : β) : bzip f a [y] = .ok (a.map (f · y)) := by
  match a with
  | [] => simp [bzip]
  | [x] => simp [bzip]
  | x :: x' :: a =>
    have := zipWith_replicate_right f (x :: x' :: a) y
    simpa [bzip] using this

theorem bzip_eq (f : α → β → γ) {a : List α} {b : List β} (h : a.length = b.length) :
    bzip f a b = .ok (List.zipWith f a b) := by
  unfold bzip; rw [if_neg (by simpa using h)]

theorem bzip_error (f : α → β → γ) {a : List α} {b : List β} (h : ¬ Compat a.length b.length) :
    bzip f a b = .error .valueError := by
  unfold Compat at h
  unfold bzip; rw [if_pos (by tauto), if_pos (by tauto)]

theorem bzip_ok_length {f : α → β → γ} {a : List α} {b : List β} {c : List γ} (h : bzip f a b = .ok c) :
    c.length = if a.length = 1 then b.length else a.length := by
  by_cases ha : a.length = 1
  · obtain ⟨x, rfl⟩ := List.length_eq_one_iff.1 ha
    rw [bzip_left] at h
    cases h; simp
  · rw [if_neg ha]
    by_cases hb : b.length = 1
    · obtain ⟨y, rfl⟩ := List.length_eq_one_iff.1 hb
      rw [bzip_right] at h
      cases h; simp
    · by_cases he : a.length = b.length
      · rw [bzip_eq f he] at h; cases h; simp [he]
      · rw [bzip_error f (by unfold Compat; tauto)] at h; cases h

/-- broadcasting is associative, including the sizes at which it fails -/
theorem bzip_assoc (f : α → β → δ) (g : δ → γ → ζ) (h : β → γ → ε) (k : α → ε → ζ)
    (a : List α) (b : List β) (c : List γ) (hfg : ∀ x ∈ a, ∀ y ∈ b, ∀ z ∈ c, g (f x y) z = k x (h y z)) :
    (bzip f a b >>= fun d => bzip g d c) = (bzip h b c >>= fun e => bzip k a e) := by
  by_cases ha : a.length = 1
  · obtain ⟨x, rfl⟩ := List.length_eq_one_iff.1 ha
    rw [bzip_left]
    simp only [ok_bind]
    have hk : (bzip h b c >>= fun e => bzip k [x] e) = (bzip h b c >>= fun e => .ok (e.map (k x))) := by
      congr 1; funext e; rw [bzip_left]
    rw [hk]
    by_cases hb : b.length = 1
    · obtain ⟨y, rfl⟩ := List.length_eq_one_iff.1 hb
      rw [bzip_left]
      simp only [List.map_cons, List.map_nil, ok_bind]
      rw [bzip_left]
      congr 1
      rw [List.map_map]
      apply List.map_congr_left
      intro z hz
      exact hfg x (by simp) y (by simp) z hz
    · by_cases hc : c.length = 1
      · obtain ⟨z, rfl⟩ := List.length_eq_one_iff.1 hc
        rw [bzip_right, bzip_right]
        simp only [ok_bind]
        congr 1
        rw [List.map_map, List.map_map]
        apply List.map_congr_left
        intro y hy
        exact hfg x (by simp) y hy z (by simp)
      · by_cases he : b.length = c.length
        · rw [bzip_eq g (by simpa using he), bzip_eq h he]
          simp only [ok_bind]
          congr 1
          rw [List.zipWith_map_left, List.map_zipWith]
          apply List.ext_getElem (by simp)
          intro i h1 h2
          simp only [List.getElem_zipWith]
          exact hfg x (by simp) _ (List.getElem_mem _) _ (List.getElem_mem _)
        · have hn : ¬ Compat b.length c.length := by unfold Compat; tauto
          rw [bzip_error g (by simpa using hn), bzip_error h hn]; rfl
  · by_cases hb : b.length = 1
    · obtain ⟨y, rfl⟩ := List.length_eq_one_iff.1 hb
      rw [bzip_right, bzip_left]
      simp only [ok_bind]
      by_cases hc : c.length = 1
      · obtain ⟨z, rfl⟩ := List.length_eq_one_iff.1 hc
        simp only [List.map_cons, List.map_nil]
        rw [bzip_right, bzip_right]
        congr 1
        rw [List.map_map]
        apply List.map_congr_left
        intro x hx
        exact hfg x hx y (by simp) z (by simp)
      · by_cases he : a.length = c.length
        · rw [bzip_eq g (by simpa using he), bzip_eq k (by simpa using he)]
          congr 1
          rw [List.zipWith_map_left, List.zipWith_map_right]
          apply List.ext_getElem (by simp)
          intro i h1 h2
          simp only [List.getElem_zipWith]
          exact hfg _ (List.getElem_mem _) y (by simp) _ (List.getElem_mem _)
        · have hn : ¬ Compat a.length c.length := by unfold Compat; tauto
          rw [bzip_error g (by simpa using hn), bzip_error k (by simpa using hn)]
    · by_cases he : a.length = b.length
      · rw [bzip_eq f he]
        simp only [ok_bind]
        by_cases hc : c.length = 1
        · obtain ⟨z, rfl⟩ := List.length_eq_one_iff.1 hc
          rw [bzip_right, bzip_right]
          simp only [ok_bind]
          rw [bzip_eq k (by simpa using he)]
          congr 1
          rw [List.map_zipWith, List.zipWith_map_right]
          apply List.ext_getElem (by simp)
          intro i h1 h2
          simp only [List.getElem_zipWith]
          exact hfg _ (List.getElem_mem _) _ (List.getElem_mem _) z (by simp)
        · by_cases hbc : b.length = c.length
          · rw [bzip_eq g (by simp [he, hbc]), bzip_eq h hbc]
            simp only [ok_bind]
            rw [bzip_eq k (by simp [he, hbc])]
            congr 1
            apply List.ext_getElem (by simp [he, hbc])
            intro i h1 h2
            simp only [List.getElem_zipWith]
            exact hfg _ (List.getElem_mem _) _ (List.getElem_mem _) _ (List.getElem_mem _)
          · have hn : ¬ Compat b.length c.length := by unfold Compat; tauto
            rw [bzip_error h hn, bzip_error g (by simp [he]; exact hn)]; rfl
      · have hn : ¬ Compat a.length b.length := by unfold Compat; tauto
        rw [bzip_error f hn]
        simp only [error_bind]
        by_cases hc : c.length = 1
        · obtain ⟨z, rfl⟩ := List.length_eq_one_iff.1 hc
          rw [bzip_right]
          simp only [ok_bind]
          rw [bzip_error k (by simpa using hn)]
        · by_cases hbc : b.length = c.length
          · rw [bzip_eq h hbc]
            simp only [ok_bind]
            rw [bzip_error k (by simp [hbc.symm]; exact hn)]
          · rw [bzip_error h (by unfold Compat; tauto)]; rfl

theorem bzip_mem {f : α → β → γ} {a : List α} {b : List β} {c : List γ} (h : bzip f a b = .ok c) :
    ∀ z ∈ c, ∃ x ∈ a, ∃ y ∈ b, z = f x y := by
  intro z hz
  by_cases ha : a.length = 1
  · obtain ⟨x, rfl⟩ := List.length_eq_one_iff.1 ha
    rw [bzip_left] at h
    cases h
    obtain ⟨y, hy, rfl⟩ := List.mem_map.1 hz
    exact ⟨x, by simp, y, hy, rfl⟩
  · by_cases hb : b.length = 1
    · obtain ⟨y, rfl⟩ := List.length_eq_one_iff.1 hb
      rw [bzip_right] at h
      cases h
      obtain ⟨x, hx, rfl⟩ := List.mem_map.1 hz
      exact ⟨x, hx, y, by simp, rfl⟩
    · by_cases he : a.length = b.length
      · rw [bzip_eq f he] at h
        cases h
        obtain ⟨i, hi, rfl⟩ := List.getElem_of_mem hz
        simp only [List.getElem_zipWith]
        exact ⟨_, List.getElem_mem _, _, List.getElem_mem _, rfl⟩
      · rw [bzip_error f (by unfold Compat; tauto)] at h; cases h

theorem bzip_error_value {f : α → β → γ} {a : List α} {b : List β} {e : Err} (h : bzip f a b = .error e) :
    e = .valueError ∧ ¬ Compat a.length b.length := by
  by_cases hc : Compat a.length b.length
  · exfalso
    rcases hc with hc | hc | hc
    · rw [bzip_eq f hc] at h; cases h
    · obtain ⟨x, rfl⟩ := List.length_eq_one_iff.1 hc
      rw [bzip_left] at h; cases h
    · obtain ⟨x, rfl⟩ := List.length_eq_one_iff.1 hc
      rw [bzip_right] at h; cases h
  · rw [bzip_error f hc] at h
    cases h
    exact ⟨rfl, hc⟩

theorem bzip_compat_ok (f : α → β → γ) {a : List α} {b : List β} (h : Compat a.length b.length) :
    ∃ c, bzip f a b = .ok c := by
  rcases e : bzip f a b with e' | c
  · exact absurd h (bzip_error_value e).2
  · exact ⟨c, rfl⟩

/-- elementwise description -/
theorem bzip_ok_get {f : α → β → γ} {a : List α} {b : List β} {c : List γ} (h : bzip f a b = .ok c) :
    c.length = bsize a.length b.length ∧
    ∀ i (hi : i < c.length), ∃ x y, pick a i = some x ∧ pick b i = some y ∧ c[i] = f x y := by
  refine ⟨bzip_ok_length h, ?_⟩
  intro i hi
  have hc : Compat a.length b.length := by
    by_contra hn
    rw [bzip_error f hn] at h; cases h
  by_cases ha : a.length = 1
  · obtain ⟨x, rfl⟩ := List.length_eq_one_iff.1 ha
    rw [bzip_left] at h
    cases h
    by_cases hb : b.length = 1
    · obtain ⟨y, rfl⟩ := List.length_eq_one_iff.1 hb
      simp only [List.map_cons, List.map_nil, List.length_singleton, Nat.lt_one_iff] at hi
      subst hi
      exact ⟨x, y, by simp [pick], by simp [pick], by simp⟩
    · simp only [List.length_map] at hi
      exact ⟨x, b[i], by simp [pick], by simp [pick, hb, hi], by simp⟩
  · by_cases hb : b.length = 1
    · obtain ⟨y, rfl⟩ := List.length_eq_one_iff.1 hb
      rw [bzip_right] at h
      cases h
      simp only [List.length_map] at hi
      exact ⟨a[i], y, by simp [pick, ha, hi], by simp [pick], by simp⟩
    · have he : a.length = b.length := by unfold Compat at hc; tauto
      rw [bzip_eq f he] at h
      cases h
      simp only [List.length_zipWith, lt_min_iff] at hi
      exact ⟨a[i], b[i], by simp [pick, ha, hi.1], by simp [pick, hb, hi.2], by simp⟩

theorem bzip_flip (f : α → β → γ) (a : List α) (b : List β) : bzip f a b = bzip (fun y x => f x y) b a := by
  by_cases ha : a.length = 1
  · obtain ⟨x, rfl⟩ := List.length_eq_one_iff.1 ha
    rw [bzip_left, bzip_right]
  · by_cases hb : b.length = 1
    · obtain ⟨y, rfl⟩ := List.length_eq_one_iff.1 hb
      rw [bzip_left, bzip_right]
    · by_cases he : a.length = b.length
      · rw [bzip_eq f he, bzip_eq _ he.symm]
        congr 1
        rw [List.zipWith_comm]
      · rw [bzip_error f (by unfold Compat; tauto), bzip_error _ (by unfold Compat; tauto)]

end PK
