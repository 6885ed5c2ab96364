import Verif.Lemmas.TensorTab

/-!
# The solver on tensors, entry by entry
-/

namespace PK.Tn
variable {n m k : ℕ} (t : Tag)

/-! ## Operations of the line search -/

/-- `t.squeeze()` of a tensor with one entry per row: no dimension for one row -/
noncomputable def sq {α : Type} [Inhabited α] (t : Tag) (f : Fin n → α) : Tn α :=
  if n = 1 then ofFn t [] fun _ => at1 f 0 else tab1 t f

theorem normSq (a : Fin n → Fin 6 → Fl) :
    normLast (squeezeAll (tab3 t fun b k (_ : Fin 1) => a b k)) = .ok (sq t fun b => Fl.norm (List.ofFn (a b))) := by
  by_cases h : n = 1
  · subst h
    have e : squeezeAll (tab3 t fun b k (_ : Fin 1) => a b k) = tab1 t (a 0) := by
      refine eq_tab1 rfl rfl fun i => ?_
      refine (ofFn_get (s := [6]) (valid1.2 i.2)).trans ?_
      exact tab3_get t (fun b k (_ : Fin 1) => a b k) 0 i 0
    rw [e, normLast]
    show Except.ok _ = _
    refine congrArg Except.ok ?_
    rw [sq, if_pos rfl]
    refine ext' rfl rfl fun i hi => ?_
    have hi' : ValidIx i [] := hi
    refine (ofFn_get hi').trans ((ofFn_get hi').trans ?_).symm
    rw [validIx_nil.1 hi', at1_lt _ (by omega : 0 < 1)]
    congr 1
    refine List.ext_getElem (by simp) fun l h1 h2 => ?_
    simp only [List.getElem_map, List.getElem_range, List.getElem_ofFn, List.nil_append]
    exact (tab1_get t (a 0) ⟨l, by simpa using h1⟩).symm
  · have e : squeezeAll (tab3 t fun b k (_ : Fin 1) => a b k) = tab2 t a := by
      have hs : [n, 6, 1].filter (fun x => decide (x ≠ 1)) = [n, 6] := by simp [h]
      refine eq_tab2 hs rfl fun i j => ?_
      refine (ofFn_get (by rw [tab3_shape, hs]; exact valid2.2 ⟨i.2, j.2⟩)).trans ?_
      have : unsq [n, 6, 1] [i.val, j.val] = [i.val, j.val, (0 : Fin 1).val] := by simp [unsq, h]
      rw [tab3_shape, this]
      exact tab3_get t (fun b k (_ : Fin 1) => a b k) i j 0
    rw [e, norm_2, sq, if_neg h]

variable {α β γ : Type} [Inhabited α] [Inhabited β] [Inhabited γ]

theorem bin_sq (g : α → β → γ) (a : Fin n → α) (b : Fin n → β) : bin g (sq t a) (sq t b) = .ok (sq t fun i => g (a i) (b i)) := by
  unfold sq
  split_ifs with h
  · subst h
    rw [bin_S]
    simp [at1_lt _ (by omega : 0 < 1)]
  · exact bin_1 t g a b

open Classical in
theorem testG_sq (p : α → Prop) (a : Fin n → α) : testG p (sq t a) = sq (eqT t) fun i => decide (p (a i)) := by
  unfold sq
  split_ifs with h
  · subst h
    refine ext' rfl rfl fun i hi => ?_
    have hi' : ValidIx i [] := hi
    refine (ofFn_get hi').trans ((ofFn_get hi').trans ?_).symm
    rw [ofFn_get hi', at1_lt _ (by omega : 0 < 1), at1_lt _ (by omega : 0 < 1)]
  · exact eq_tab1 rfl rfl fun i => (ofFn_get (valid1.2 i.2)).trans (by rw [tab1_get])

theorem notB_sq (a : Fin n → Bool) : notB (sq t a) = sq t fun i => !a i := by
  unfold sq
  split_ifs with h
  · subst h
    refine ext' rfl rfl fun i hi => ?_
    have hi' : ValidIx i [] := hi
    refine (ofFn_get hi').trans ((ofFn_get hi').trans ?_).symm
    rw [ofFn_get hi', at1_lt _ (by omega : 0 < 1), at1_lt _ (by omega : 0 < 1)]
  · exact notB_1 t a

theorem mulWhere_sq (t' : Tag) (a : Fin n → ℝ) (p : Fin n → Bool) (c : ℝ) :
    mulWhere (tab1 t a) (sq t' p) c = .ok (tab1 t fun i => bif p i then a i * c else a i) := by
  by_cases h : n = 1
  · subst h
    rw [sq, if_pos rfl, mulWhere, if_pos (.inr rfl)]
    refine congrArg Except.ok (eq_tab1 rfl rfl fun i => ?_)
    refine (ofFn_get (valid1.2 i.2)).trans ?_
    obtain rfl : i = 0 := Subsingleton.elim _ _
    rw [if_pos (c := (ofFn t' [] fun _ => at1 p 0).shape = []) rfl, ofFn_get (validIx_nil.2 rfl), at1_lt _ (by omega : 0 < 1), tab1_get]
    cases h : p 0 <;> simp [h]
  · rw [sq, if_neg h, mulWhere, if_pos (.inl (by simp))]
    refine congrArg Except.ok (eq_tab1 rfl rfl fun i => ?_)
    refine (ofFn_get (valid1.2 i.2)).trans ?_
    rw [if_neg (c := (tab1 t' p).shape = []) (by simp), tab1_get, tab1_get]
    cases p i <;> rfl

theorem and_sq (a b : Fin n → Bool) : andB (tab1 t a) (sq t b) = .ok (tab1 t fun i => a i && b i) := by
  unfold sq andB
  split_ifs with h
  · subst h
    rw [bin_bcast (t := t) (s := [1]) (s' := []) (r := [1]) _ rfl rfl rfl rfl rfl]
    refine congrArg Except.ok (eq_tab1 rfl rfl fun i => ?_)
    refine (ofFn_get (valid1.2 i.2)).trans ?_
    obtain rfl : i = 0 := Subsingleton.elim _ _
    rw [bidx_valid (valid1.2 (0 : Fin 1).2), bidx_nil, ofFn_get (validIx_nil.2 rfl), at1_lt _ (by omega : 0 < 1), tab1_get]
    rfl
  · exact bin_1 t _ a b

theorem putFalse_2 (t' : Tag) (a : Fin n → Fin m → Bool) (p : Fin n → Bool) :
    putFalse (tab2 t a) (tab1 t' p) = .ok (tab2 t fun i j => a i j && !p i) := by
  rw [putFalse, if_pos (by simp)]
  refine congrArg Except.ok (eq_tab2 rfl rfl fun i j => (ofFn_get (valid2.2 ⟨i.2, j.2⟩)).trans ?_)
  rw [tab2_get]
  have : [i.val, j.val].take 1 = [i.val] := rfl
  rw [this, tab1_get]

theorem stepRows (d : DType) (v : Device) (q dq : Fin n → Fin m → Fl) (lr : Fin n → ℝ) :
    stepRowsT (tab2 (flTag d v) q) (tab2 (flTag d v) dq) (tab1 (flTag .f32 v) lr) =
      .ok (tab2 (flTag d v) fun i j => Fl.add (q i j) (Fl.mulReal (lr i) (dq i j))) := by
  have e : unsqueezeAt (tab1 (flTag .f32 v) lr) 1 = tab2 (flTag .f32 v) fun i (_ : Fin 1) => lr i :=
    eq_tab2 rfl rfl fun i j => (ofFn_get (valid2.2 ⟨i.2, j.2⟩)).trans (tab1_get _ lr i)
  have hb : bshape [n, 1] [n, m] = .ok [n, m] := bshape_snoc (s := [n]) (bshape_self [n]) (.inr (.inl ⟨rfl, rfl⟩))
  have hr : resTag (flTag .f32 v) (flTag d v) 2 2 = .ok (flTag d v) := by
    simp only [resTag, flTag, if_true, ok_bind]
    cases d <;> rfl
  have e2 : bin Fl.mulReal (unsqueezeAt (tab1 (flTag .f32 v) lr) 1) (tab2 (flTag d v) dq) =
      .ok (tab2 (flTag d v) fun i j => Fl.mulReal (lr i) (dq i j)) := by
    rw [e, bin]
    simp only [tab2_shape, tab2_tag, hb, ok_bind, List.length_cons, List.length_nil, Nat.zero_add, Nat.reduceAdd, hr]
    refine congrArg Except.ok (eq_tab2 rfl rfl fun i j => (ofFn_get (valid2.2 ⟨i.2, j.2⟩)).trans ?_)
    rw [bidx_valid (valid2.2 ⟨i.2, j.2⟩), tab2_get]
    have : bidx [n, 1] [i.val, j.val] = [i.val, (0 : Fin 1).val] := by
      have hi := i.2
      simp only [bidx, bidxR, List.reverse_cons, List.reverse_nil, List.nil_append, List.cons_append, if_true]
      split_ifs <;> simp <;> omega
    rw [this, tab2_get]
  rw [stepRowsT, e2, ok_bind, bin_2]

/-! ## Masks of the last dimension -/

theorem hits_tab1 (p : Fin n → Bool) : hits (tab1 t p) = (List.range n).filter fun k => at1 p k := by
  unfold hits
  refine List.filter_congr fun k hk => ?_
  have hk' : k < n := by simpa using hk
  rw [at1_lt _ hk', ← tab1_get t p ⟨k, hk'⟩]

theorem hits_lt {p : Fin n → Bool} {x : ℕ} (h : x ∈ hits (tab1 t p)) : ∃ h : x < n, p ⟨x, h⟩ = true := by
  rw [hits_tab1, List.mem_filter] at h
  have hx : x < n := by simpa using h.1
  exact ⟨hx, by rw [← at1_lt p hx]; exact h.2⟩

theorem mem_hits {p : Fin n → Bool} (j : Fin n) : j.val ∈ hits (tab1 t p) ↔ p j = true := by
  refine ⟨fun h => (hits_lt t h).2, fun h => ?_⟩
  rw [hits_tab1, List.mem_filter]
  exact ⟨by simp, by rw [at1_val]; exact h⟩

/-- The column that position `l` of a selection came from -/
noncomputable def hit {p : Fin n → Bool} (l : Fin (hits (tab1 t p)).length) : Fin n :=
  ⟨(hits (tab1 t p))[l], (hits_lt t (List.getElem_mem l.2)).1⟩

theorem takeMask_2 (t' : Tag) (a : Fin k → Fin n → α) (p : Fin n → Bool) :
    takeMask (tab2 t a) (tab1 t' p) = .ok (tab2 t fun i l => a i (hit t' (p := p) l)) := by
  rw [takeMask, if_pos (by simp)]
  refine congrArg Except.ok (eq_tab2 rfl rfl fun i l => (ofFn_get (valid2.2 ⟨i.2, l.2⟩)).trans ?_)
  have : (hits (tab1 t' p)).getD ([i.val, l.val].getLastD 0) 0 = (hit t' (p := p) l).val := by
    simp [hit, List.getD_eq_getElem?_getD]
  rw [this]
  exact tab2_get t a i _

theorem putMask_2 (t' : Tag) (a : Fin k → Fin n → α) (p : Fin n → Bool) (f : Fin k → Fin n → α) :
    putMask (tab2 t a) (tab1 t' p) (tab2 t fun i l => f i (hit t' (p := p) l)) =
      .ok (tab2 t fun i j => if p j then f i j else a i j) := by
  rw [putMask, if_pos (by simp), if_pos ⟨by simp, rfl⟩]
  refine congrArg Except.ok (eq_tab2 rfl rfl fun i j => (ofFn_get (valid2.2 ⟨i.2, j.2⟩)).trans ?_)
  have e : [i.val, j.val].getLastD 0 = j.val := rfl
  rw [e]
  by_cases h : p j = true
  · have hm := (mem_hits t' j).2 h
    rw [if_pos hm, if_pos h]
    have hl : (hits (tab1 t' p)).idxOf j.val < (hits (tab1 t' p)).length := List.idxOf_lt_length_of_mem hm
    refine (tab2_get t (fun i l => f i (hit t' (p := p) l)) i ⟨_, hl⟩).trans ?_
    congr 1
    apply Fin.ext
    simp [hit]
  · rw [if_neg (fun hm => h ((mem_hits t' j).1 hm)), if_neg h, tab2_get]

end PK.Tn
