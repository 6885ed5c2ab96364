import Verif.Model.TensorChain
import Verif.Lemmas.TensorRot
import Verif.Lemmas.Good
import Verif.Lemmas.Fk

/-!
# Indexing, permuting, expanding and writing rows, entry by entry
-/

namespace PK

theorem validIx_cons_cases {i : List ℕ} {s : Shape} {n : ℕ} (h : ValidIx i (n :: s)) : ∃ k j, i = k :: j ∧ k < n ∧ ValidIx j s := by
  cases h with
  | cons h1 h2 => exact ⟨_, _, rfl, h1, h2⟩

theorem validIx_cons {i : List ℕ} {s : Shape} {n k : ℕ} : ValidIx (k :: i) (n :: s) ↔ k < n ∧ ValidIx i s :=
  List.forall₂_cons

theorem validIx_one {i : List ℕ} {n : ℕ} (h : ValidIx i [n]) : ∃ k, i = [k] ∧ k < n := by
  obtain ⟨k, j, rfl, hk, hj⟩ := validIx_cons_cases h
  exact ⟨k, by rw [validIx_nil.1 hj], hk⟩

theorem validIx_pair {i : List ℕ} {n m : ℕ} (h : ValidIx i [n, m]) : ∃ a b, i = [a, b] ∧ a < n ∧ b < m := by
  obtain ⟨a, j, rfl, ha, hj⟩ := validIx_cons_cases h
  obtain ⟨b, rfl, hb⟩ := validIx_one hj
  exact ⟨a, b, rfl, ha, hb⟩

theorem validIx_pair_iff {a b n m : ℕ} : ValidIx [a, b] [n, m] ↔ a < n ∧ b < m := by
  rw [validIx_cons, validIx_cons, validIx_nil]; simp

theorem validIx_one_iff {a n : ℕ} : ValidIx [a] [n] ↔ a < n := by
  rw [validIx_cons, validIx_nil]; simp

namespace Tn
variable {α β γ : Type} [Inhabited α] [Inhabited β] [Inhabited γ]

/-! ## Broadcasting of leading dimensions -/

theorem bshape_F1 (F B : ℕ) : bshape [F, 1] [F, B] = .ok [F, B] :=
  bshape_snoc (s := [F]) (t := [F]) (r := [F]) (bshape_self [F]) (.inr (.inl ⟨rfl, rfl⟩))

theorem bshape_FB1 (F B : ℕ) : bshape [F, B] [F, 1] = .ok [F, B] :=
  bshape_snoc (s := [F]) (t := [F]) (r := [F]) (bshape_self [F]) (.inr (.inr ⟨rfl, rfl⟩))

theorem bshape_1 (F : ℕ) : bshape [1] [F] = .ok [F] :=
  bshape_snoc (s := []) (t := []) (r := []) (bshape_self []) (.inr (.inl ⟨rfl, rfl⟩))

theorem bshape_11 (F B : ℕ) : bshape [1, 1] [F, B] = .ok [F, B] :=
  bshape_snoc (s := [1]) (t := [F]) (r := [F]) (bshape_1 F) (.inr (.inl ⟨rfl, rfl⟩))

theorem bshape_1B (F B : ℕ) : bshape [1, B] [F, B] = .ok [F, B] :=
  bshape_snoc (s := [1]) (t := [F]) (r := [F]) (bshape_1 F) (.inl ⟨rfl, rfl⟩)

theorem bidx_1 (F f : ℕ) : bidx [1] [f] = [0] := by simp [bidx, bidxR]

theorem bidx_F1 {F B f b : ℕ} (hf : f < F) : bidx [F, 1] [f, b] = [f, 0] := by
  have := bidx_snoc [F] [f] 1 b
  simp only [List.singleton_append, if_true, bidx_valid (validIx_one_iff.2 hf)] at this
  exact this

theorem bidx_11 (f b : ℕ) : bidx [1, 1] [f, b] = [0, 0] := by simp [bidx, bidxR]

theorem bidx_1B {B f b : ℕ} (hb : b < B) : bidx [1, B] [f, b] = [0, b] := by
  have := bidx_snoc [1] [f] B b
  simp only [List.singleton_append, bidx_1 1] at this
  rw [this]
  split_ifs with h
  · subst h; simp at hb; simp [hb]
  · rfl

theorem bshape_two {s t r : Shape} {a b c a' b' c' : ℕ} (h : bshape s t = .ok r)
    (h1 : (a = b ∧ c = a) ∨ (a = 1 ∧ c = b) ∨ (b = 1 ∧ c = a))
    (h2 : (a' = b' ∧ c' = a') ∨ (a' = 1 ∧ c' = b') ∨ (b' = 1 ∧ c' = a')) :
    bshape (s ++ [a, a']) (t ++ [b, b']) = .ok (r ++ [c, c']) := by
  have := bshape_snoc (bshape_snoc h h1) h2
  simpa using this

theorem bidx_two (s : Shape) (i : List ℕ) (a b k l : ℕ) :
    bidx (s ++ [a, b]) (i ++ [k, l]) = bidx s i ++ [if a = 1 then 0 else k, if b = 1 then 0 else l] := by
  rw [show s ++ [a, b] = (s ++ [a]) ++ [b] by simp, show i ++ [k, l] = (i ++ [k]) ++ [l] by simp, bidx_snoc, bidx_snoc]
  simp

theorem if_one {n k : ℕ} (hk : k < n) : (if n = 1 then 0 else k) = k := by
  split_ifs with h
  · omega
  · rfl

theorem matmulT_MB (t : Tag) {s s' r : Shape} (n k m : ℕ) (f : List ℕ → Fin n → Fin k → ℝ)
    (g : List ℕ → Fin k → Fin m → ℝ) (h : bshape s s' = .ok r) :
    matmulT (ofM t s n k f) (ofM t s' k m g) =
      .ok (ofM t r n m fun i a c => ∑ l, f (bidx s i) a l * g (bidx s' i) l c) := by
  rw [matmulT]
  simp only [ofM_shape, shape_rev2, ofM_tag, if_true, List.reverse_reverse, h, ok_bind, PK.matmul]
  show Except.ok _ = _
  congr 1
  refine eq_ofM rfl rfl fun i a c ha hc hi => ?_
  rw [ofFn_get (validIx_two.2 ⟨hi, ha, hc⟩), Finset.sum_range]
  refine Finset.sum_congr rfl fun l _ => ?_
  simp only [dropLast_two, List.dropLast_concat, getLastD_two, List.getLastD_concat, List.append_assoc,
    List.singleton_append]
  rw [ofM_get (bidx_left h hi) ha l.2, ofM_get (bidx_right h hi) l.2 hc]

theorem bin_VB (f : α → β → γ) (t : Tag) {s s' r : Shape} (n : ℕ) (a : List ℕ → Fin n → α) (b : List ℕ → Fin n → β)
    (h : bshape s s' = .ok r) :
    bin f (ofV t s n a) (ofV t s' n b) = .ok (ofV t r n fun i k => f (a (bidx s i) k) (b (bidx s' i) k)) := by
  have hb := bshape_snoc (a := n) (b := n) (c := n) h (.inl ⟨rfl, rfl⟩)
  rw [bin_bcast (t := t) (s := s ++ [n]) (s' := s' ++ [n]) f rfl rfl rfl rfl hb]
  congr 1
  refine eq_ofV rfl rfl fun i k hk hi => ?_
  rw [ofFn_get (validIx_snoc.2 ⟨hi, hk⟩), bidx_snoc, bidx_snoc, if_one hk, ofV_get (bidx_left h hi) hk,
    ofV_get (bidx_right h hi) hk]

/-- a choice per frame -/
theorem sel_FB {t c : Tag} (hc : c.dev = t.dev) (F B n m : ℕ) (p : List ℕ → Fin 1 → Fin 1 → Bool)
    (a b : List ℕ → Fin n → Fin m → ℝ) :
    sel (ofM c [F, 1] 1 1 p) (ofM t [F, B] n m a) (ofM t [F, B] n m b) =
      .ok (ofM t [F, B] n m fun i => bif p [i.headD 0, 0] 0 0 then a i else b i) := by
  have hb : bshape ([F, 1] ++ [1, 1]) ([F, B] ++ [n, m]) = .ok ([F, B] ++ [n, m]) :=
    bshape_two (bshape_F1 F B) (.inr (.inl ⟨rfl, rfl⟩)) (.inr (.inl ⟨rfl, rfl⟩))
  rw [sel]
  simp only [ofM_shape, ofM_tag, bshape_self, ok_bind, whereT_fl _ _ hc]
  rw [hb, ok_bind]
  show Except.ok _ = _
  congr 1
  refine eq_ofM rfl rfl fun i r c hr hc hi => ?_
  obtain ⟨f, e, rfl, hf, he⟩ := validIx_pair hi
  rw [ofFn_get (validIx_two.2 ⟨hi, hr, hc⟩), bidx_two, bidx_F1 (B := B) hf, if_pos rfl, if_pos rfl,
    bidx_valid (validIx_two.2 ⟨hi, hr, hc⟩), ofM_get hi hr hc, ofM_get hi hr hc,
    ofM_get (validIx_pair_iff.2 ⟨hf, Nat.one_pos⟩) Nat.one_pos Nat.one_pos]
  show _ = (bif p [f, 0] 0 0 then a [f, e] else b [f, e]) _ _
  rw [show (⟨0, Nat.one_pos⟩ : Fin 1) = 0 from rfl]
  cases p [f, 0] 0 0 <;> rfl

theorem sel_FV {t c : Tag} (hc : c.dev = t.dev) (F B n : ℕ) (p : List ℕ → Fin 1 → Bool)
    (a b : List ℕ → Fin n → ℝ) :
    sel (ofV c [F, 1] 1 p) (ofV t [F, B] n a) (ofV t [F, B] n b) =
      .ok (ofV t [F, B] n fun i => bif p [i.headD 0, 0] 0 then a i else b i) := by
  have hb : bshape ([F, 1] ++ [1]) ([F, B] ++ [n]) = .ok ([F, B] ++ [n]) :=
    bshape_snoc (bshape_F1 F B) (.inr (.inl ⟨rfl, rfl⟩))
  rw [sel]
  simp only [ofV_shape, ofV_tag, bshape_self, ok_bind, whereT_fl _ _ hc]
  rw [hb, ok_bind]
  show Except.ok _ = _
  congr 1
  refine eq_ofV rfl rfl fun i r hr hi => ?_
  obtain ⟨f, e, rfl, hf, he⟩ := validIx_pair hi
  rw [ofFn_get (validIx_snoc.2 ⟨hi, hr⟩), bidx_snoc, bidx_F1 (B := B) hf, if_pos rfl,
    bidx_valid (validIx_snoc.2 ⟨hi, hr⟩), ofV_get hi hr, ofV_get hi hr,
    ofV_get (validIx_pair_iff.2 ⟨hf, Nat.one_pos⟩) Nat.one_pos]
  show _ = (bif p [f, 0] 0 then a [f, e] else b [f, e]) _
  rw [show (⟨0, Nat.one_pos⟩ : Fin 1) = 0 from rfl]
  cases p [f, 0] 0 <;> rfl

/-! ## Indices -/

theorem getD_of_lt {β : Type} (l : List β) (x : β) {k : ℕ} (h : k < l.length) : l.getD k x = l[k] := by
  rw [List.getD_eq_getElem?_getD, List.getElem?_eq_getElem h]; rfl

@[simp] theorem ofList_shape (t : Tag) (l : List α) : (ofList t l).shape = [l.length] := rfl
@[simp] theorem ofList_tag (t : Tag) (l : List α) : (ofList t l).tag = t := rfl
theorem ofList_get (t : Tag) (l : List α) {k : ℕ} (hk : k < l.length) : (ofList t l).get [k] = l[k] := by
  rw [ofList, ofFn_get (validIx_one_iff.2 hk)]; simp [hk]

theorem pyIndex_nat {n k : ℕ} (h : k < n) : pyIndex n (Int.ofNat k) = some k := by
  simp [pyIndex, h]

theorem picks_ofList (t : Tag) (n : ℕ) (l : List ℤ) (g : ℤ → ℕ) (h : ∀ z ∈ l, pyIndex n z = some (g z)) :
    picks n (ofList t l) = .ok (l.map g) := by
  rw [picks]
  simp only [ofList_shape]
  rw [mapM_ok (List.range l.length) _ (fun j => g (l.getD j 0))]
  · congr 1
    apply List.ext_getElem
    · simp
    · intro k h1 h2
      simp only [List.length_map, List.length_range] at h1
      simp [h1]
  · intro j hj
    have hj' : j < l.length := by simpa using hj
    rw [ofList_get t l hj', h _ (List.getElem_mem hj')]
    simp [hj']

theorem picks_nat (t : Tag) (n : ℕ) (l : List ℕ) (h : ∀ k ∈ l, k < n) : picks n (ofList t (l.map Int.ofNat)) = .ok l := by
  rw [picks_ofList t n _ Int.toNat]
  · simp [List.map_map, Function.comp_def]
  · intro z hz
    obtain ⟨k, hk, rfl⟩ := List.mem_map.1 hz
    rw [pyIndex_nat (h k hk)]; rfl

theorem index_fl {t i : Tag} (h : i.dev = t.dev) : PK.index t i = .ok t := by rw [PK.index, if_pos (.inl h)]

theorem index0_M {t : Tag} {ix : Tn ℤ} (hx : ix.tag.dev = t.dev) {n : ℕ} {l : List ℕ} (hp : picks n ix = .ok l)
    (hl : ∀ k ∈ l, k < n) (s : Shape) (p q : ℕ) (f : List ℕ → Fin p → Fin q → α) :
    index0 (ofM t (n :: s) p q f) ix = .ok (ofM t (l.length :: s) p q fun i => f (l.getD (i.headD 0) 0 :: i.tail)) := by
  rw [index0]
  simp only [ofM_shape, List.cons_append, hp, ok_bind, ofM_tag, index_fl hx]
  show Except.ok _ = _
  congr 1
  refine eq_ofM rfl rfl fun i r c hr hc hi => ?_
  obtain ⟨k, j, rfl, hk, hj⟩ := validIx_cons_cases hi
  have e : ValidIx ((k :: j) ++ [r, c]) (l.length :: (s ++ [p, q])) := validIx_two.2 ⟨hi, hr, hc⟩
  rw [ofFn_get e]
  simp only [List.cons_append, List.headD_cons, List.tail_cons]
  have hv : ValidIx (l.getD k 0 :: j) (n :: s) := validIx_cons.2 ⟨by
    rw [getD_of_lt _ _ hk]; exact hl _ (List.getElem_mem hk), hj⟩
  exact ofM_get hv hr hc

theorem index0_L {t : Tag} {ix : Tn ℤ} (hx : ix.tag.dev = t.dev) {l : List ℕ} (a : List α) (hp : picks a.length ix = .ok l)
    (hl : ∀ k ∈ l, k < a.length) : index0 (ofList t a) ix = .ok (ofList t (l.map fun k => a.getD k default)) := by
  rw [index0]
  simp only [ofList_shape, hp, ok_bind, ofList_tag, index_fl hx]
  show Except.ok _ = _
  congr 1
  refine ext' (by simp) rfl fun i hi => ?_
  obtain ⟨k, rfl, hk⟩ := validIx_one hi
  rw [ofFn_get (validIx_one_iff.2 hk), ofList_get _ _ (by simpa using hk)]
  simp only [List.headD_cons, List.tail_cons, List.getElem_map]
  have hlt : l[k] < a.length := hl _ (List.getElem_mem hk)
  rw [getD_of_lt _ _ hk, ofList_get _ _ hlt, getD_of_lt _ _ hlt]

theorem index1_M {t : Tag} {ix : Tn ℤ} (hx : ix.tag.dev = t.dev) {n b : ℕ} {l : List ℕ} (hp : picks n ix = .ok l)
    (hl : ∀ k ∈ l, k < n) (p q : ℕ) (f : List ℕ → Fin p → Fin q → α) :
    index1 (ofM t [b, n] p q f) ix = .ok (ofM t [b, l.length] p q fun i => f [i.headD 0, l.getD (i.getD 1 0) 0]) := by
  rw [index1]
  simp only [ofM_shape, List.cons_append, List.nil_append, hp, ok_bind, ofM_tag, index_fl hx]
  show Except.ok _ = _
  congr 1
  refine eq_ofM rfl rfl fun i r c hr hc hi => ?_
  obtain ⟨k, j, rfl, hk, hj⟩ := validIx_pair hi
  have e : ValidIx ([k, j] ++ [r, c]) [b, l.length, p, q] := validIx_two.2 ⟨hi, hr, hc⟩
  rw [ofFn_get e]
  simp only [List.cons_append, List.headD_cons, List.tail_cons, List.nil_append]
  have hv : ValidIx [k, l.getD j 0] [b, n] := validIx_pair_iff.2 ⟨hk, by
    rw [getD_of_lt _ _ hj]; exact hl _ (List.getElem_mem hj)⟩
  exact ofM_get hv hr hc

theorem select0_M (t : Tag) (n : ℕ) (s : Shape) (p q : ℕ) (f : List ℕ → Fin p → Fin q → ℝ) {k : ℕ} (hk : k < n) :
    select0 (ofM t (n :: s) p q f) k = .ok (ofM t s p q fun i => f (k :: i)) := by
  rw [select0]
  simp only [ofM_shape, List.cons_append, if_pos hk]
  congr 1
  refine eq_ofM rfl rfl fun i r c hr hc hi => ?_
  rw [ofFn_get (validIx_two.2 ⟨hi, hr, hc⟩)]
  exact ofM_get (validIx_cons.2 ⟨hk, hi⟩) hr hc

/-! ## Permutations and new dimensions -/

theorem permute_M1023 (t : Tag) (a b p q : ℕ) (f : List ℕ → Fin p → Fin q → ℝ) :
    permute (ofM t [a, b] p q f) [1, 0, 2, 3] = .ok (ofM t [b, a] p q fun i => f [i.getD 1 0, i.headD 0]) := by
  have hp : [1, 0, 2, 3].Perm (List.range (ofM t [a, b] p q f).shape.length) := by
    show [1, 0, 2, 3].Perm (List.range 4); decide
  rw [permute, if_pos hp]
  congr 1
  refine eq_ofM rfl rfl fun i r c hr hc hi => ?_
  obtain ⟨k, j, rfl, hk, hj⟩ := validIx_pair hi
  have e : ValidIx ([k, j] ++ [r, c]) [b, a, p, q] := validIx_two.2 ⟨hi, hr, hc⟩
  have hv : ValidIx [j, k] [a, b] := validIx_pair_iff.2 ⟨hj, hk⟩
  refine (ofFn_get (f := fun i => (ofM t [a, b] p q f).get ((List.range 4).map fun k => i.getD (List.idxOf k [1, 0, 2, 3]) 0))
    (s := [b, a, p, q]) e).trans ?_
  exact ofM_get hv hr hc

theorem permute_V120 (t : Tag) (a b n : ℕ) (f : List ℕ → Fin n → ℝ) :
    permute (ofV t [a, b] n f) [1, 2, 0] = .ok (ofM t [b] n a fun i r c => f [c.val, i.headD 0] r) := by
  have hp : [1, 2, 0].Perm (List.range (ofV t [a, b] n f).shape.length) := by
    show [1, 2, 0].Perm (List.range 3); decide
  rw [permute, if_pos hp]
  congr 1
  refine eq_ofM rfl rfl fun i r c hr hc hi => ?_
  obtain ⟨k, rfl, hk⟩ := validIx_one hi
  have e : ValidIx ([k] ++ [r, c]) [b, n, a] := validIx_two.2 ⟨hi, hr, hc⟩
  have hv : ValidIx [c, k] [a, b] := validIx_pair_iff.2 ⟨hc, hk⟩
  refine (ofFn_get (f := fun i => (ofV t [a, b] n f).get ((List.range 3).map fun k => i.getD (List.idxOf k [1, 2, 0]) 0))
    (s := [b, n, a]) e).trans ?_
  exact ofV_get hv hr

theorem transposeLast_M (t : Tag) (s : Shape) (n m : ℕ) (f : List ℕ → Fin n → Fin m → ℝ) :
    transposeLast (ofM t s n m f) = .ok (ofM t s m n fun i r c => f i c r) := by
  rw [transposeLast]
  simp only [ofM_shape, shape_rev2, List.reverse_reverse, ofM_tag]
  congr 1
  refine eq_ofM rfl rfl fun i r c hr hc hi => ?_
  rw [ofFn_get (validIx_two.2 ⟨hi, hr, hc⟩), dropLast_two, List.dropLast_concat, getLastD_two, List.getLastD_concat]
  exact ofM_get hi hc hr

theorem transposeLast_S (t : Tag) (a b : ℕ) (f : List ℕ → ℝ) :
    transposeLast (ofFn t [a, b] f) = .ok (ofFn t [b, a] fun i => f [i.getD 1 0, i.headD 0]) := by
  rw [transposeLast]
  simp only [ofFn_shape, List.reverse_cons, List.reverse_nil, List.nil_append, List.singleton_append, ofFn_tag]
  congr 1
  refine ofFn_congr fun i hi => ?_
  obtain ⟨k, j, rfl, hk, hj⟩ := validIx_pair hi
  exact ofFn_get (validIx_pair_iff.2 ⟨hj, hk⟩)

theorem unsqueezeAt_M1 (t : Tag) (n p q : ℕ) (f : List ℕ → Fin p → Fin q → α) :
    unsqueezeAt (ofM t [n] p q f) 1 = ofM t [n, 1] p q fun i => f [i.headD 0] := by
  refine eq_ofM rfl rfl fun i r c hr hc hi => ?_
  obtain ⟨k, j, rfl, hk, hj⟩ := validIx_pair hi
  have e : ValidIx ([k, j] ++ [r, c]) [n, 1, p, q] := validIx_two.2 ⟨hi, hr, hc⟩
  refine (ofFn_get (s := [n, 1, p, q]) e).trans ?_
  exact ofM_get (validIx_one_iff.2 hk) hr hc

theorem unsqueezeAt_V0 (t : Tag) (s : Shape) (p : ℕ) (f : List ℕ → Fin p → α) :
    unsqueezeAt (ofV t s p f) 0 = ofV t (1 :: s) p fun i => f i.tail := by
  refine eq_ofV (by simp [unsqueezeAt]) rfl fun i r hr hi => ?_
  obtain ⟨k, j, rfl, hk, hj⟩ := validIx_cons_cases hi
  have e : ValidIx ((k :: j) ++ [r]) (1 :: (s ++ [p])) := validIx_snoc.2 ⟨hi, hr⟩
  refine (ofFn_get (s := 1 :: (s ++ [p])) e).trans ?_
  simp only [List.take_zero, List.nil_append, List.cons_append, List.drop_succ_cons, List.drop_zero, Nat.zero_add,
    List.tail_cons]
  exact ofV_get hj hr

theorem expand_VB (t : Tag) {s r : Shape} (h : bshape s r = .ok r) (p : ℕ) (f : List ℕ → Fin p → α) :
    expand (ofV t s p f) (r ++ [p]) = .ok (ofV t r p fun i => f (bidx s i)) := by
  rw [expand, ofV_shape, if_pos (bshape_snoc h (.inl ⟨rfl, rfl⟩))]
  congr 1
  refine eq_ofV rfl rfl fun i k hk hi => ?_
  rw [ofFn_get (validIx_snoc.2 ⟨hi, hk⟩), bidx_snoc, if_one hk]
  exact ofV_get (bidx_left h hi) hk

theorem expand_MB (t : Tag) {s r : Shape} (h : bshape s r = .ok r) (p q : ℕ) (f : List ℕ → Fin p → Fin q → α) :
    expand (ofM t s p q f) (r ++ [p, q]) = .ok (ofM t r p q fun i => f (bidx s i)) := by
  rw [expand, ofM_shape, if_pos (bshape_two h (.inl ⟨rfl, rfl⟩) (.inl ⟨rfl, rfl⟩))]
  congr 1
  refine eq_ofM rfl rfl fun i k l hk hl hi => ?_
  rw [ofFn_get (validIx_two.2 ⟨hi, hk, hl⟩), bidx_two, if_one hk, if_one hl]
  exact ofM_get (bidx_left h hi) hk hl

theorem expandFirst_V (t : Tag) (n p B : ℕ) (f : List ℕ → Fin p → α) :
    expandFirst (ofV t [1, n] p f) B = .ok (ofV t [B, n] p fun i => f [0, i.getD 1 0]) := by
  rw [expandFirst]
  have := expand_VB t (bshape_1B B n) p f
  refine this.trans ?_
  congr 1
  refine ofV_congr fun i hi => ?_
  obtain ⟨k, j, rfl, hk, hj⟩ := validIx_pair hi
  rw [bidx_1B hj]; rfl

theorem squeezeLast_M (t : Tag) (s : Shape) (n : ℕ) (f : List ℕ → Fin n → Fin 1 → ℝ) :
    squeezeLast (ofM t s n 1 f) = ofV t s n fun i r => f i r 0 := by
  rw [squeezeLast, ofM_shape, if_pos (by simp), dropLast_two]
  refine eq_ofV rfl rfl fun i r hr hi => ?_
  rw [ofFn_get (validIx_snoc.2 ⟨hi, hr⟩), List.append_assoc, List.singleton_append]
  exact ofM_get hi hr Nat.one_pos

/-! ## reshape with an inferred size -/

theorem reshapeInfer_L (t : Tag) (F : ℕ) (f : List ℕ → α) :
    reshapeInfer (ofFn t [F] f) [1, 1, 1] = .ok (ofM t [F, 1] 1 1 fun i _ _ => f [i.headD 0]) := by
  rw [reshapeInfer, if_neg (by simp), reshape, if_pos (by simp)]
  congr 1
  refine eq_ofM (by simp) rfl fun i r c hr hc hi => ?_
  obtain ⟨k, j, rfl, hk, hj⟩ := validIx_pair hi
  have e : ValidIx ([k, j] ++ [r, c]) [F, 1, 1, 1] := validIx_two.2 ⟨hi, hr, hc⟩
  simp only [ofFn_shape, List.prod_cons, List.prod_nil, mul_one, Nat.div_one, ofFn_tag]
  rw [ofFn_get e]
  obtain rfl : j = 0 := by omega
  obtain rfl : r = 0 := by omega
  obtain rfl : c = 0 := by omega
  rw [show unravel [F] (ravel [F, 1, 1, 1] ([k, 0] ++ [0, 0])) = [k] by simp [ravel, unravel]]
  exact ofFn_get (validIx_one_iff.2 hk)

theorem reshapeInfer_L2 (t : Tag) (F : ℕ) (f : List ℕ → α) :
    reshapeInfer (ofFn t [F] f) [1, 1] = .ok (ofV t [F, 1] 1 fun i _ => f [i.headD 0]) := by
  rw [reshapeInfer, if_neg (by simp), reshape, if_pos (by simp)]
  congr 1
  refine eq_ofV (by simp) rfl fun i r hr hi => ?_
  obtain ⟨k, j, rfl, hk, hj⟩ := validIx_pair hi
  have e : ValidIx ([k, j] ++ [r]) [F, 1, 1] := validIx_snoc.2 ⟨hi, hr⟩
  simp only [ofFn_shape, List.prod_cons, List.prod_nil, mul_one, Nat.div_one, ofFn_tag]
  rw [ofFn_get e]
  obtain rfl : j = 0 := by omega
  obtain rfl : r = 0 := by omega
  rw [show unravel [F] (ravel [F, 1, 1] ([k, 0] ++ [0])) = [k] by simp [ravel, unravel]]
  exact ofFn_get (validIx_one_iff.2 hk)

theorem eqZ_L (t : Tag) (l : List ℤ) (k : ℤ) :
    eqZ (ofList t l) k = ofFn (eqT t) [l.length] fun i => decide (l.getD (i.headD 0) 0 = k) := by
  refine ofFn_congr fun i hi => ?_
  obtain ⟨j, rfl, hj⟩ := validIx_one hi
  rw [ofList_get _ _ hj]
  simp only [List.headD_cons, getD_of_lt _ _ hj]

end Tn
end PK
