import Verif.Lemmas.Tensor

/-!
# Reshaping, matrix products, writing and gathering, entry by entry
-/

namespace PK.Tn
variable {α β γ : Type} [Inhabited α] [Inhabited β] [Inhabited γ]

/-! ## reshape -/

theorem ravel_append : ∀ {s : Shape} {i : List ℕ} (t : Shape) (j : List ℕ), i.length = s.length →
    ravel (s ++ t) (i ++ j) = ravel s i * t.prod + ravel t j
  | [], [], t, j, _ => by simp [ravel]
  | a :: s, k :: i, t, j, h => by
    have ih := ravel_append (s := s) (i := i) t j (by simpa using h)
    simp only [List.cons_append, ravel, List.headD_cons, List.tail_cons, ih, List.prod_append]
    ring
  | [], _ :: _, _, _, h => by simp at h
  | _ :: _, [], _, _, h => by simp at h

theorem ravel_lt : ∀ {s : Shape} {i : List ℕ}, ValidIx i s → ravel s i < s.prod
  | _, _, .nil => by simp [ravel]
  | _, _, .cons (a := k) (b := a) (l₁ := i) (l₂ := s) h hs => by
    have ih := ravel_lt hs
    simp only [ravel, List.headD_cons, List.tail_cons, List.prod_cons]
    calc k * s.prod + ravel s i < k * s.prod + s.prod := by omega
      _ = (k + 1) * s.prod := by ring
      _ ≤ a * s.prod := Nat.mul_le_mul_right _ h

theorem unravel_ravel : ∀ {s : Shape} {i : List ℕ}, ValidIx i s → unravel s (ravel s i) = i
  | _, _, .nil => by simp [unravel]
  | _, _, .cons (a := k) (b := a) (l₁ := i) (l₂ := s) h hs => by
    have ih := unravel_ravel hs
    have hl := ravel_lt hs
    have hp : 0 < s.prod := by omega
    simp only [ravel, List.headD_cons, List.tail_cons, unravel]
    rw [Nat.add_comm, Nat.add_mul_div_right _ _ hp, Nat.div_eq_of_lt hl, Nat.zero_add, Nat.add_mul_mod_self_right,
      Nat.mod_eq_of_lt hl, ih]

theorem reshape_V9 (t : Tag) (s : Shape) (f : List ℕ → Fin 9 → ℝ) :
    reshape (ofV t s 9 f) (s ++ [3, 3]) = .ok (ofM t s 3 3 fun i r c => f i ⟨3 * r + c, by omega⟩) := by
  rw [reshape, if_pos (by simp [List.prod_append])]
  congr 1
  refine eq_ofM rfl rfl fun i r c hr hc hi => ?_
  have hk : 3 * r + c < 9 := by omega
  have e : ravel (s ++ [3, 3]) (i ++ [r, c]) = ravel (s ++ [9]) (i ++ [3 * r + c]) := by
    rw [ravel_append _ _ hi.length, ravel_append _ _ hi.length]
    simp [ravel]; ring
  rw [ofFn_get (validIx_two.2 ⟨hi, hr, hc⟩), ofV_shape, e, unravel_ravel (validIx_snoc.2 ⟨hi, hk⟩), ofV_get hi hk]

theorem reshape_M33 (t : Tag) (s : Shape) (f : List ℕ → Fin 3 → Fin 3 → ℝ) :
    reshape (ofM t s 3 3 f) (s ++ [9]) = .ok (ofV t s 9 fun i k => f i ⟨k / 3, by omega⟩ ⟨k % 3, by omega⟩) := by
  rw [reshape, if_pos (by simp [List.prod_append])]
  congr 1
  refine eq_ofV rfl rfl fun i k hk hi => ?_
  have hr : k / 3 < 3 := by omega
  have hc : k % 3 < 3 := by omega
  have e : ravel (s ++ [9]) (i ++ [k]) = ravel (s ++ [3, 3]) (i ++ [k / 3, k % 3]) := by
    rw [ravel_append _ _ hi.length, ravel_append _ _ hi.length]
    simp [ravel]; omega
  rw [ofFn_get (validIx_snoc.2 ⟨hi, hk⟩), ofM_shape, e, unravel_ravel (validIx_two.2 ⟨hi, hr, hc⟩), ofM_get hi hr hc]

theorem reshape_M23 (t : Tag) (s : Shape) (f : List ℕ → Fin 2 → Fin 3 → ℝ) :
    reshape (ofM t s 2 3 f) (s ++ [6]) = .ok (ofV t s 6 fun i k => f i ⟨k / 3, by omega⟩ ⟨k % 3, by omega⟩) := by
  rw [reshape, if_pos (by simp [List.prod_append])]
  congr 1
  refine eq_ofV rfl rfl fun i k hk hi => ?_
  have hr : k / 3 < 2 := by omega
  have hc : k % 3 < 3 := by omega
  have e : ravel (s ++ [6]) (i ++ [k]) = ravel (s ++ [2, 3]) (i ++ [k / 3, k % 3]) := by
    rw [ravel_append _ _ hi.length, ravel_append _ _ hi.length]
    simp [ravel]; omega
  rw [ofFn_get (validIx_snoc.2 ⟨hi, hk⟩), ofM_shape, e, unravel_ravel (validIx_two.2 ⟨hi, hr, hc⟩), ofM_get hi hr hc]

/-! ## matrices -/

theorem bin_M1 (f : α → β → γ) (t : Tag) (s : Shape) (n m : ℕ) (a : List ℕ → Fin n → Fin m → α) (b : List ℕ → Fin n → Fin 1 → β) :
    bin f (ofM t s n m a) (ofM t s n 1 b) = .ok (ofM t s n m fun i r c => f (a i r c) (b i r 0)) := by
  have e1 : ∀ k, s ++ [n, k] = (s ++ [n]) ++ [k] := fun k => by simp
  have hb : bshape (s ++ [n, m]) (s ++ [n, 1]) = .ok (s ++ [n, m]) := by
    rw [e1, e1]; exact bshape_snoc (bshape_self _) (.inr (.inr ⟨rfl, rfl⟩))
  rw [bin_bcast (t := t) (s := s ++ [n, m]) (s' := s ++ [n, 1]) f rfl rfl rfl rfl hb]
  congr 1
  refine eq_ofM rfl rfl fun i r c hr hc hi => ?_
  have hv := validIx_two.2 ⟨hi, hr, hc⟩
  have e2 : bidx (s ++ [n, 1]) (i ++ [r, c]) = i ++ [r, 0] := by
    rw [e1, show i ++ [r, c] = (i ++ [r]) ++ [c] by simp, bidx_snoc, bidx_valid (validIx_snoc.2 ⟨hi, hr⟩), if_pos rfl]
    simp
  rw [ofFn_get hv, bidx_valid hv, e2, ofM_get hi hr hc, ofM_get hi hr Nat.one_pos]
  rfl

/-- an operand without dimensions -/
theorem bin_Mfull (f : ℝ → ℝ → ℝ) (t : Tag) (s : Shape) (n m : ℕ) (a : List ℕ → Fin n → Fin m → ℝ) (x : ℝ) :
    bin f (ofM t s n m a) (full t [] x) = .ok (ofM t s n m fun i r c => f (a i r c) x) := by
  rw [bin_bcast (t := t) (s := s ++ [n, m]) (s' := []) f rfl rfl rfl rfl (bshape_nil_right _)]
  congr 1
  refine eq_ofM rfl rfl fun i r c hr hc hi => ?_
  have hv := validIx_two.2 ⟨hi, hr, hc⟩
  rw [ofFn_get hv, bidx_valid hv, bidx_nil, ofM_get hi hr hc, full, ofFn_get (validIx_nil.2 rfl)]

theorem map_M (f : ℝ → ℝ) (d : DType) (v : Device) (s : Shape) (n m : ℕ) (a : List ℕ → Fin n → Fin m → ℝ) :
    map f (ofM (flTag d v) s n m a) = ofM (flTag d v) s n m fun i r c => f (a i r c) := by
  refine eq_ofM rfl rfl fun i r c hr hc hi => ?_
  rw [map, ofFn_get (by exact validIx_two.2 ⟨hi, hr, hc⟩), ofM_get hi hr hc]

theorem fullLike_S (t : Tag) (s : Shape) (f : List ℕ → ℝ) (x : ℝ) : fullLike (ofFn t s f) x = ofFn t s fun _ => x := rfl

theorem full_S (t : Tag) (s : Shape) (x : ℝ) : full t s x = ofFn t s fun _ => x := rfl

theorem full_V (t : Tag) (s : Shape) (n : ℕ) (x : ℝ) : full t (s ++ [n]) x = ofV t s n fun _ _ => x :=
  eq_ofV rfl rfl fun _ _ hk hi => by rw [full, ofFn_get (validIx_snoc.2 ⟨hi, hk⟩)]

theorem full_M (t : Tag) (s : Shape) (n m : ℕ) (x : ℝ) : full t (s ++ [n, m]) x = ofM t s n m fun _ _ _ => x :=
  eq_ofM rfl rfl fun _ _ _ hr hc hi => by rw [full, ofFn_get (validIx_two.2 ⟨hi, hr, hc⟩)]

theorem matmulT_M (t : Tag) (s : Shape) (n k m : ℕ) (f : List ℕ → Fin n → Fin k → ℝ) (g : List ℕ → Fin k → Fin m → ℝ) :
    matmulT (ofM t s n k f) (ofM t s k m g) = .ok (ofM t s n m fun i r c => ∑ l, f i r l * g i l c) := by
  rw [matmulT]
  simp only [ofM_shape, shape_rev2, ofM_tag, if_true, List.reverse_reverse, bshape_self, ok_bind, PK.matmul]
  show Except.ok _ = _
  congr 1
  refine eq_ofM rfl rfl fun i r c hr hc hi => ?_
  rw [ofFn_get (validIx_two.2 ⟨hi, hr, hc⟩), Finset.sum_range]
  refine Finset.sum_congr rfl fun l _ => ?_
  simp only [dropLast_two, List.dropLast_concat, getLastD_two, List.getLastD_concat, bidx_valid hi, List.append_assoc,
    List.singleton_append]
  rw [ofM_get hi hr l.2, ofM_get hi l.2 hc]

theorem crossT_V (t : Tag) (s : Shape) (f g : List ℕ → Fin 3 → ℝ) :
    crossT (ofV t s 3 f) (ofV t s 3 g) = .ok (ofV t s 3 fun i => cross (f i) (g i)) := by
  rw [crossT]
  simp only [ofV_shape, ofV_tag, List.getLast?_append, List.getLast?_singleton, Option.some_or, and_self, if_true,
    bshape_self, ok_bind, resTag_self]
  show Except.ok _ = _
  congr 1
  refine eq_ofV rfl rfl fun i k hk hi => ?_
  have hb : ∀ l, l < 3 → bidx (s ++ [3]) (i ++ [l]) = i ++ [l] := fun l hl => bidx_valid (validIx_snoc.2 ⟨hi, hl⟩)
  rw [ofFn_get (validIx_snoc.2 ⟨hi, hk⟩)]
  simp only [List.dropLast_concat, List.getLastD_concat]
  rw [hb _ (Nat.mod_lt _ (by norm_num)), hb _ (Nat.mod_lt _ (by norm_num)), ofV_get hi (Nat.mod_lt _ (by norm_num)),
    ofV_get hi (Nat.mod_lt _ (by norm_num)), ofV_get hi (Nat.mod_lt _ (by norm_num)),
    ofV_get hi (Nat.mod_lt _ (by norm_num))]
  obtain rfl | rfl | rfl : k = 0 ∨ k = 1 ∨ k = 2 := by omega
  all_goals rfl

/-! ## expanding, gathering -/

theorem expand_V1 (t : Tag) (s : Shape) (n : ℕ) (f : List ℕ → Fin 1 → α) :
    expand (ofV t s 1 f) (s ++ [n]) = .ok (ofV t s n fun i _ => f i 0) := by
  have hb : bshape (s ++ [1]) (s ++ [n]) = .ok (s ++ [n]) := bshape_snoc (bshape_self s) (.inr (.inl ⟨rfl, rfl⟩))
  rw [expand, ofV_shape, if_pos hb]
  congr 1
  refine eq_ofV rfl rfl fun i k hk hi => ?_
  rw [ofFn_get (validIx_snoc.2 ⟨hi, hk⟩), bidx_snoc, bidx_valid hi, if_pos rfl, ofV_get hi Nat.one_pos]
  rfl

theorem expand_M11 (t : Tag) (s : Shape) (n : ℕ) (f : List ℕ → Fin 1 → Fin 1 → α) :
    expand (ofM t s 1 1 f) (s ++ [1, n]) = .ok (ofM t s 1 n fun i _ _ => f i 0 0) := by
  have e1 : ∀ k, s ++ [1, k] = (s ++ [1]) ++ [k] := fun k => by simp
  have hb : bshape (s ++ [1, 1]) (s ++ [1, n]) = .ok (s ++ [1, n]) := by
    rw [e1, e1]; exact bshape_snoc (bshape_self _) (.inr (.inl ⟨rfl, rfl⟩))
  rw [expand, ofM_shape, if_pos hb]
  congr 1
  refine eq_ofM rfl rfl fun i r c hr hc hi => ?_
  have e2 : bidx (s ++ [1, 1]) (i ++ [r, c]) = i ++ [0, 0] := by
    rw [e1, show i ++ [r, c] = (i ++ [r]) ++ [c] by simp, bidx_snoc, bidx_snoc, bidx_valid hi, if_pos rfl]
    simp
  rw [ofFn_get (validIx_two.2 ⟨hi, hr, hc⟩), e2, ofM_get hi Nat.one_pos Nat.one_pos]
  rfl

theorem expand_same {a : Tn α} {s : Shape} (h : a.shape = s) : expand a s = .ok a := by
  rw [expand, h, if_pos (bshape_self s)]
  congr 1
  refine ext' h.symm rfl fun i hi => ?_
  rw [ofFn_shape] at hi
  rw [ofFn_get hi, bidx_valid hi]

theorem argmaxLast4_V (t : Tag) (s : Shape) (f : List ℕ → Fin 4 → ℝ) :
    argmaxLast4 (ofV t s 4 f) = .ok (ofFn ⟨.i64, t.dev⟩ s fun i => (argmax4 (f i)).val) := by
  rw [argmaxLast4]
  simp only [ofV_shape, List.getLast?_append, List.getLast?_singleton, Option.some_or, ofV_tag, List.dropLast_concat, if_true]
  congr 1
  refine ofFn_congr fun i hi => ?_
  congr 2
  funext k
  exact ofV_get hi k.2

theorem gatherRow_M (t : Tag) (s : Shape) (n m : ℕ) (f : List ℕ → Fin n → Fin m → ℝ) (k : List ℕ → Fin n) :
    gatherRow (ofM t s n m f) (ofM ⟨.i64, t.dev⟩ s 1 m fun i _ _ => (k i).val) =
      .ok (ofM t s 1 m fun i _ c => f i (k i) c) := by
  rw [gatherRow]
  simp only [ofM_shape, shape_rev2, ofM_tag]
  refine (if_pos ⟨rfl, rfl, ⟨rfl, rfl⟩, ?_⟩).trans ?_
  · congr 1
    refine eq_ofM rfl rfl fun i r c hr hc hi => ?_
    rw [ofFn_get (validIx_two.2 ⟨hi, hr, hc⟩), ofM_get hi hr hc, dropLast_two, List.dropLast_concat, getLastD_two,
      List.append_assoc, List.singleton_append, ofM_get hi (k i).2 hc]
  · intro i hi
    obtain ⟨j, r, c, rfl, hj, hr, hc⟩ := validIx_two_cases hi
    rw [ofM_get hj hr hc]
    exact (k j).2

theorem squeezeRow_M (t : Tag) (s : Shape) (m : ℕ) (f : List ℕ → Fin 1 → Fin m → ℝ) :
    squeezeRow (ofM t s 1 m f) = .ok (ofV t s m fun i c => f i 0 c) := by
  rw [squeezeRow]
  simp only [ofM_shape, shape_rev2, ofM_tag, List.reverse_reverse]
  congr 1
  refine eq_ofV rfl rfl fun i c hc hi => ?_
  rw [ofFn_get (validIx_snoc.2 ⟨hi, hc⟩), List.dropLast_concat, List.getLastD_concat, List.append_assoc,
    List.singleton_append, ofM_get hi Nat.one_pos hc]
  rfl

/-! ## writing -/

theorem valueFor_same {v : Tn ℝ} {s : Shape} (h : v.shape = s) : valueFor v s = .ok v := by
  have e : ofFn v.tag v.shape v.get = v := ofFn_eta v
  simp only [valueFor, h, Nat.sub_self, List.take_zero, List.all_nil, if_true, List.drop_zero, List.replicate_zero,
    List.nil_append]
  rw [← h, e]
  exact expand_same rfl

theorem setBlock_M (t t' : Tag) (s : Shape) (f : List ℕ → Fin 4 → Fin 4 → ℝ) (g : List ℕ → Fin 3 → Fin 3 → ℝ) :
    setBlock (ofM t s 4 4 f) 3 3 (ofM t' s 3 3 g) = .ok (ofM t s 4 4 fun i r c =>
      if h : r.val < 3 ∧ c.val < 3 then g i ⟨r, h.1⟩ ⟨c, h.2⟩ else f i r c) := by
  rw [setBlock]
  simp only [ofM_shape, shape_rev2, List.reverse_reverse, ofM_tag]
  rw [if_pos (by omega), valueFor_same (by rfl), ok_bind]
  show Except.ok _ = _
  congr 1
  refine eq_ofM rfl rfl fun i r c hr hc hi => ?_
  rw [ofFn_get (validIx_two.2 ⟨hi, hr, hc⟩), dropLast_two, List.getLastD_concat, getLastD_two]
  by_cases h : r < 3 ∧ c < 3
  · rw [if_pos h, dif_pos h, ofM_get hi h.1 h.2]
  · rw [if_neg h, dif_neg h, ofM_get hi hr hc]

theorem setColumn_M (t t' : Tag) (s : Shape) (f : List ℕ → Fin 4 → Fin 4 → ℝ) (g : List ℕ → Fin 3 → ℝ) :
    setColumn (ofM t s 4 4 f) 3 3 (ofV t' s 3 g) = .ok (ofM t s 4 4 fun i r c =>
      if h : r.val < 3 ∧ c.val = 3 then g i ⟨r, h.1⟩ else f i r c) := by
  rw [setColumn]
  simp only [ofM_shape, shape_rev2, List.reverse_reverse, ofM_tag]
  rw [if_pos (by omega), if_pos (by omega), valueFor_same (by rfl), ok_bind]
  show Except.ok _ = _
  congr 1
  refine eq_ofM rfl rfl fun i r c hr hc hi => ?_
  rw [ofFn_get (validIx_two.2 ⟨hi, hr, hc⟩), dropLast_two, List.getLastD_concat, getLastD_two]
  by_cases h : r < 3 ∧ c = 3
  · rw [if_pos h, dif_pos h, ofV_get hi h.1]
  · rw [if_neg h, dif_neg h, ofM_get hi hr hc]

theorem setEntry_M (t : Tag) (s : Shape) (n m : ℕ) (f : List ℕ → Fin n → Fin m → ℝ) (a b : ℕ) (x : ℝ) (ha : a < n) (hb : b < m) :
    setEntry (ofM t s n m f) a b x = .ok (ofM t s n m fun i r c => if r.val = a ∧ c.val = b then x else f i r c) := by
  rw [setEntry]
  simp only [ofM_shape, shape_rev2, ofM_tag]
  rw [if_pos ⟨ha, hb⟩]
  congr 1
  refine eq_ofM rfl rfl fun i r c hr hc hi => ?_
  rw [ofFn_get (validIx_two.2 ⟨hi, hr, hc⟩), dropLast_two, List.getLastD_concat, getLastD_two]
  split_ifs with h
  · rfl
  · rw [ofM_get hi hr hc]

theorem setLast_V (t t' : Tag) (s : Shape) (n : ℕ) (f : List ℕ → Fin n → ℝ) (k : ℕ) (g : List ℕ → ℝ) (hk : k < n) :
    setLast (ofV t s n f) k (ofFn t' s g) = .ok (ofV t s n fun i => Function.update (f i) ⟨k, hk⟩ (g i)) := by
  rw [setLast]
  simp only [ofV_shape, List.getLast?_append, List.getLast?_singleton, Option.some_or, ofV_tag, List.dropLast_concat]
  rw [if_pos hk, valueFor_same (by rfl), ok_bind]
  show Except.ok _ = _
  congr 1
  refine eq_ofV rfl rfl fun i l hl hi => ?_
  rw [ofFn_get (validIx_snoc.2 ⟨hi, hl⟩), List.getLastD_concat, List.dropLast_concat]
  by_cases h : l = k
  · subst h
    rw [if_pos rfl, ofFn_get hi, Function.update_self]
  · rw [if_neg h, ofV_get hi hl, Function.update_of_ne (by simpa using h)]

theorem zipWith_mul_ones (s : Shape) : ∀ l : List ℕ, l.length = s.length → List.zipWith (· * ·) s (List.replicate l.length 1) = s := by
  intro l hl
  rw [hl]
  clear hl
  induction s with
  | nil => rfl
  | cons a s ih => simpa [List.replicate_succ] using ih

theorem eyes_M (t : Tag) (s : Shape) : eyes t s = .ok (ofM t s 4 4 fun _ r c => if r = c then 1 else 0) := by
  rw [eyes, repeatT, if_neg (by simp [eye4])]
  have hp : (s ++ [1, 1]).length - (eye4 t).shape.length = s.length := by simp [eye4]
  simp only [hp]
  have hsh : List.zipWith (· * ·) (s ++ [1, 1]) (List.replicate s.length 1 ++ (eye4 t).shape) = s ++ [4, 4] := by
    rw [List.zipWith_append (by simp), zipWith_mul_ones s s rfl]
    rfl
  rw [hsh]
  congr 1
  refine eq_ofM rfl rfl fun i r c hr hc hi => ?_
  rw [ofFn_get (validIx_two.2 ⟨hi, hr, hc⟩), List.zipWith_append (by simp [hi.length]), List.drop_append]
  have hl : (List.zipWith (· % ·) i (List.replicate s.length 1)).length = s.length := by simp [hi.length]
  rw [hl, Nat.sub_self, List.drop_of_length_le (by rw [hl]), List.nil_append, List.drop_zero]
  have e : List.zipWith (· % ·) [r, c] (eye4 t).shape = [r, c] := by
    simp [eye4, Nat.mod_eq_of_lt hr, Nat.mod_eq_of_lt hc]
  rw [e, eye4, ofFn_get (List.Forall₂.cons hr (List.Forall₂.cons hc List.Forall₂.nil))]
  simp [Fin.ext_iff]

end PK.Tn
