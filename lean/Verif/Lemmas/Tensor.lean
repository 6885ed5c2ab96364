import Verif.Model.TensorRot
import Verif.Lemmas.Exc

/-!
# The operations on tensors, entry by entry
-/

namespace PK

theorem validIx_nil {i : List ℕ} : ValidIx i [] ↔ i = [] := by
  constructor
  · intro h; cases h; rfl
  · rintro rfl; exact List.Forall₂.nil

theorem ValidIx.length {i : List ℕ} {s : Shape} (h : ValidIx i s) : i.length = s.length := List.Forall₂.length_eq h

theorem ValidIx.reverse {i : List ℕ} {s : Shape} (h : ValidIx i s) : List.Forall₂ (· < ·) i.reverse s.reverse :=
  List.rel_reverse h

theorem validIx_append {i j : List ℕ} {s t : Shape} (h : ValidIx i s) (h' : ValidIx j t) : ValidIx (i ++ j) (s ++ t) :=
  List.rel_append h h'

theorem validIx_snoc {i : List ℕ} {s : Shape} {k n : ℕ} : ValidIx (i ++ [k]) (s ++ [n]) ↔ ValidIx i s ∧ k < n := by
  constructor
  · intro h
    have hl : i.length = s.length := by
      have := h.length
      simpa using this
    have h1 := List.forall₂_iff_get.1 h
    refine ⟨List.forall₂_iff_get.2 ⟨hl, fun a ha hb => ?_⟩, ?_⟩
    · have := h1.2 a (by simp; omega) (by simp; omega)
      simpa [List.getElem_append_left, ha, hb] using this
    · have := h1.2 i.length (by simp) (by simp [hl])
      simpa [hl] using this
  · rintro ⟨h, hk⟩
    exact validIx_append h (List.Forall₂.cons hk List.Forall₂.nil)

theorem validIx_snoc_cases {i : List ℕ} {s : Shape} {n : ℕ} (h : ValidIx i (s ++ [n])) :
    ∃ j k, i = j ++ [k] ∧ ValidIx j s ∧ k < n := by
  rcases List.eq_nil_or_concat i with rfl | ⟨j, k, rfl⟩
  · have := h.length; simp at this
  · rw [List.concat_eq_append] at h ⊢
    exact ⟨j, k, rfl, validIx_snoc.1 h⟩

theorem validIx_two {i : List ℕ} {s : Shape} {a b n m : ℕ} :
    ValidIx (i ++ [a, b]) (s ++ [n, m]) ↔ ValidIx i s ∧ a < n ∧ b < m := by
  have e1 : i ++ [a, b] = (i ++ [a]) ++ [b] := by simp
  have e2 : s ++ [n, m] = (s ++ [n]) ++ [m] := by simp
  rw [e1, e2, validIx_snoc, validIx_snoc, and_assoc]

theorem validIx_two_cases {i : List ℕ} {s : Shape} {n m : ℕ} (h : ValidIx i (s ++ [n, m])) :
    ∃ j a b, i = j ++ [a, b] ∧ ValidIx j s ∧ a < n ∧ b < m := by
  have e2 : s ++ [n, m] = (s ++ [n]) ++ [m] := by simp
  rw [e2] at h
  obtain ⟨j', b, rfl, h', hb⟩ := validIx_snoc_cases h
  obtain ⟨j, a, rfl, h'', ha⟩ := validIx_snoc_cases h'
  exact ⟨j, a, b, by simp, h'', ha, hb⟩

namespace Tn
variable {α β γ : Type} [Inhabited α] [Inhabited β] [Inhabited γ]

theorem ext' {a b : Tn α} (hs : a.shape = b.shape) (ht : a.tag = b.tag) (hg : ∀ i, ValidIx i a.shape → a.get i = b.get i) :
    a = b := by
  obtain ⟨s, t, g, o⟩ := a
  obtain ⟨s', t', g', o'⟩ := b
  simp only at hs ht hg
  subst hs ht
  have : g = g' := by
    funext i
    by_cases h : ValidIx i s
    · exact hg i h
    · rw [o i h, o' i h]
  subst this
  rfl

@[simp] theorem ofFn_shape (t : Tag) (s : Shape) (f : List ℕ → α) : (ofFn t s f).shape = s := rfl
@[simp] theorem ofFn_tag (t : Tag) (s : Shape) (f : List ℕ → α) : (ofFn t s f).tag = t := rfl
theorem ofFn_get {t : Tag} {s : Shape} {f : List ℕ → α} {i : List ℕ} (h : ValidIx i s) : (ofFn t s f).get i = f i :=
  if_pos h

theorem ofFn_congr {t : Tag} {s : Shape} {f g : List ℕ → α} (h : ∀ i, ValidIx i s → f i = g i) :
    ofFn t s f = ofFn t s g :=
  ext' rfl rfl fun i hi => by
    rw [ofFn_shape] at hi
    rw [ofFn_get hi, ofFn_get hi, h i hi]

theorem ofFn_eta (a : Tn α) : ofFn a.tag a.shape a.get = a := ext' rfl rfl fun _ hi => ofFn_get hi

/-- A tensor of shape `s + (n,)` -/
noncomputable def ofV (t : Tag) (s : Shape) (n : ℕ) (f : List ℕ → Fin n → α) : Tn α :=
  ofFn t (s ++ [n]) fun i => if h : i.getLastD 0 < n then f i.dropLast ⟨i.getLastD 0, h⟩ else default

/-- A tensor of shape `s + (n, m)` -/
noncomputable def ofM (t : Tag) (s : Shape) (n m : ℕ) (f : List ℕ → Fin n → Fin m → α) : Tn α :=
  ofFn t (s ++ [n, m]) fun i =>
    if h : i.dropLast.getLastD 0 < n ∧ i.getLastD 0 < m then
      f i.dropLast.dropLast ⟨i.dropLast.getLastD 0, h.1⟩ ⟨i.getLastD 0, h.2⟩ else default

@[simp] theorem ofV_shape (t : Tag) (s : Shape) (n : ℕ) (f : List ℕ → Fin n → α) : (ofV t s n f).shape = s ++ [n] := rfl
@[simp] theorem ofV_tag (t : Tag) (s : Shape) (n : ℕ) (f : List ℕ → Fin n → α) : (ofV t s n f).tag = t := rfl
@[simp] theorem ofM_shape (t : Tag) (s : Shape) (n m : ℕ) (f : List ℕ → Fin n → Fin m → α) :
    (ofM t s n m f).shape = s ++ [n, m] := rfl
@[simp] theorem ofM_tag (t : Tag) (s : Shape) (n m : ℕ) (f : List ℕ → Fin n → Fin m → α) : (ofM t s n m f).tag = t := rfl

theorem ofV_get {t : Tag} {s : Shape} {n : ℕ} {f : List ℕ → Fin n → α} {i : List ℕ} {k : ℕ} (h : ValidIx i s) (hk : k < n) :
    (ofV t s n f).get (i ++ [k]) = f i ⟨k, hk⟩ := by
  rw [ofV, ofFn_get (validIx_snoc.2 ⟨h, hk⟩)]
  simp [hk]

theorem ofM_get {t : Tag} {s : Shape} {n m : ℕ} {f : List ℕ → Fin n → Fin m → α} {i : List ℕ} {a b : ℕ} (h : ValidIx i s)
    (ha : a < n) (hb : b < m) : (ofM t s n m f).get (i ++ [a, b]) = f i ⟨a, ha⟩ ⟨b, hb⟩ := by
  rw [ofM, ofFn_get (validIx_two.2 ⟨h, ha, hb⟩)]
  have e1 : (i ++ [a, b]).dropLast = i ++ [a] := by
    rw [show i ++ [a, b] = (i ++ [a]) ++ [b] by simp, List.dropLast_concat]
  have e2 : (i ++ [a, b]).getLastD 0 = b := by simp
  simp [e1, ha, hb]

/-- A tensor that has the entries of `ofV` is `ofV`. -/
theorem eq_ofV {a : Tn α} {t : Tag} {s : Shape} {n : ℕ} {f : List ℕ → Fin n → α} (hs : a.shape = s ++ [n]) (ht : a.tag = t)
    (h : ∀ i k (hk : k < n), ValidIx i s → a.get (i ++ [k]) = f i ⟨k, hk⟩) : a = ofV t s n f := by
  refine ext' hs ht fun i hi => ?_
  rw [hs] at hi
  obtain ⟨j, k, rfl, hj, hk⟩ := validIx_snoc_cases hi
  rw [h j k hk hj, ofV_get hj hk]

theorem eq_ofM {a : Tn α} {t : Tag} {s : Shape} {n m : ℕ} {f : List ℕ → Fin n → Fin m → α} (hs : a.shape = s ++ [n, m])
    (ht : a.tag = t)
    (h : ∀ i r c (hr : r < n) (hc : c < m), ValidIx i s → a.get (i ++ [r, c]) = f i ⟨r, hr⟩ ⟨c, hc⟩) :
    a = ofM t s n m f := by
  refine ext' hs ht fun i hi => ?_
  rw [hs] at hi
  obtain ⟨j, r, c, rfl, hj, hr, hc⟩ := validIx_two_cases hi
  rw [h j r c hr hc hj, ofM_get hj hr hc]

theorem eq_ofS {a : Tn α} {t : Tag} {s : Shape} {f : List ℕ → α} (hs : a.shape = s) (ht : a.tag = t)
    (h : ∀ i, ValidIx i s → a.get i = f i) : a = ofFn t s f :=
  ext' hs ht fun i hi => by rw [hs] at hi; rw [h i hi, ofFn_get hi]

/-! ## Broadcasting -/

theorem bshapeR_self : ∀ s : Shape, bshapeR s s = .ok s
  | [] => rfl
  | a :: s => by rw [bshapeR, bshapeR_self s]; simp [ok_bind]

theorem bshape_self (s : Shape) : bshape s s = .ok s := by
  rw [bshape, bshapeR_self]; simp [ok_bind]

theorem bidxR_valid : ∀ {i : List ℕ} {s : Shape}, List.Forall₂ (· < ·) i s → bidxR s i = i
  | _, _, .nil => rfl
  | _, _, .cons (a := i) (b := a) h hs => by
    rw [bidxR, bidxR_valid hs]
    split_ifs with h1
    · subst h1; rw [Nat.lt_one_iff.1 h]
    · rfl

theorem bidx_valid {i : List ℕ} {s : Shape} (h : ValidIx i s) : bidx s i = i := by
  rw [bidx, bidxR_valid h.reverse, List.reverse_reverse]

theorem bidxR_forall : ∀ {s t r : Shape} {i : List ℕ}, bshapeR s t = .ok r → List.Forall₂ (· < ·) i r →
    List.Forall₂ (· < ·) (bidxR s i) s ∧ List.Forall₂ (· < ·) (bidxR t i) t
  | [], t, r, i, h, hi => by
    rw [bshapeR] at h
    cases h
    exact ⟨by simp [bidxR], by rw [bidxR_valid hi]; exact hi⟩
  | a :: s, [], r, i, h, hi => by
    rw [bshapeR] at h
    · cases h
      exact ⟨by rw [bidxR_valid hi]; exact hi, by simp [bidxR]⟩
    · simp
  | a :: s, b :: t, r, i, h, hi => by
    rw [bshapeR] at h
    cases hr : bshapeR s t with
    | error e => rw [hr] at h; cases h
    | ok r' =>
      rw [hr, ok_bind] at h
      have key : ∀ c, r = c :: r' → (a = 1 ∨ a = c) → (b = 1 ∨ b = c) →
          List.Forall₂ (· < ·) (bidxR (a :: s) i) (a :: s) ∧ List.Forall₂ (· < ·) (bidxR (b :: t) i) (b :: t) := by
        rintro c rfl h1 h2
        cases hi with
        | cons hk hrest =>
          obtain ⟨g1, g2⟩ := bidxR_forall hr hrest
          rw [bidxR, bidxR]
          refine ⟨List.Forall₂.cons ?_ g1, List.Forall₂.cons ?_ g2⟩
          · split_ifs with q
            · omega
            · rcases h1 with h1 | h1
              · exact absurd h1 q
              · rw [h1]; exact hk
          · split_ifs with q
            · omega
            · rcases h2 with h2 | h2
              · exact absurd h2 q
              · rw [h2]; exact hk
      split_ifs at h with h1 h2 h3
      · cases h; exact key a rfl (.inr rfl) (.inr h1.symm)
      · cases h; exact key b rfl (.inl h2) (.inr rfl)
      · cases h; exact key a rfl (.inr rfl) (.inl h3)

theorem bshape_iff {s t r : Shape} : bshape s t = .ok r ↔ bshapeR s.reverse t.reverse = .ok r.reverse := by
  rw [bshape]
  cases h : bshapeR s.reverse t.reverse with
  | error e => simp [error_bind]
  | ok r' =>
    rw [ok_bind]
    constructor
    · intro h'
      have : r'.reverse = r := by simpa [pure, Except.pure] using h'
      rw [← this, List.reverse_reverse]
    · intro h'
      have : r' = r.reverse := by simpa using h'
      rw [this, List.reverse_reverse]; rfl

theorem bidx_left {s t r : Shape} {i : List ℕ} (h : bshape s t = .ok r) (hi : ValidIx i r) : ValidIx (bidx s i) s := by
  have := (bidxR_forall (bshape_iff.1 h) hi.reverse).1
  have := List.rel_reverse this
  rwa [List.reverse_reverse] at this

theorem bidx_right {s t r : Shape} {i : List ℕ} (h : bshape s t = .ok r) (hi : ValidIx i r) : ValidIx (bidx t i) t := by
  have := (bidxR_forall (bshape_iff.1 h) hi.reverse).2
  have := List.rel_reverse this
  rwa [List.reverse_reverse] at this

/-- The result of broadcasting broadcasts with both operands to itself. -/
theorem bshapeR_absorb : ∀ {s t r : Shape}, bshapeR s t = .ok r →
    (bshapeR r s = .ok r ∧ bshapeR s r = .ok r) ∧ (bshapeR r t = .ok r ∧ bshapeR t r = .ok r)
  | [], t, r, h => by
    rw [bshapeR] at h
    cases h
    refine ⟨⟨?_, ?_⟩, bshapeR_self _, bshapeR_self _⟩
    · cases t <;> simp [bshapeR]
    · simp [bshapeR]
  | a :: s, [], r, h => by
    rw [bshapeR] at h
    · cases h
      refine ⟨⟨bshapeR_self _, bshapeR_self _⟩, ?_, ?_⟩ <;> simp [bshapeR]
    · simp
  | a :: s, b :: t, r, h => by
    rw [bshapeR] at h
    cases hr : bshapeR s t with
    | error e => rw [hr] at h; cases h
    | ok r' =>
      rw [hr, ok_bind] at h
      obtain ⟨⟨g1, g2⟩, g3, g4⟩ := bshapeR_absorb hr
      split_ifs at h with h1 h2 h3
      · cases h
        subst h1
        refine ⟨⟨?_, ?_⟩, ?_, ?_⟩ <;> rw [bshapeR] <;> simp +contextual [g1, g2, g3, g4, ok_bind, eq_comm]
      · cases h
        subst h2
        refine ⟨⟨?_, ?_⟩, ?_, ?_⟩ <;> rw [bshapeR] <;> simp +contextual [g1, g2, g3, g4, ok_bind, eq_comm]
      · cases h
        subst h3
        refine ⟨⟨?_, ?_⟩, ?_, ?_⟩ <;> rw [bshapeR] <;> simp +contextual [g1, g2, g3, g4, ok_bind, eq_comm]

theorem bshape_absorb {s t r : Shape} (h : bshape s t = .ok r) :
    (bshape r s = .ok r ∧ bshape s r = .ok r) ∧ (bshape r t = .ok r ∧ bshape t r = .ok r) := by
  obtain ⟨⟨a, b⟩, c, d⟩ := bshapeR_absorb (bshape_iff.1 h)
  exact ⟨⟨bshape_iff.2 a, bshape_iff.2 b⟩, bshape_iff.2 c, bshape_iff.2 d⟩

theorem bshape_snoc {s t r : Shape} {a b c : ℕ} (h : bshape s t = .ok r) (h' : (a = b ∧ c = a) ∨ (a = 1 ∧ c = b) ∨ (b = 1 ∧ c = a)) :
    bshape (s ++ [a]) (t ++ [b]) = .ok (r ++ [c]) := by
  rw [bshape_iff] at h ⊢
  simp only [List.reverse_append, List.reverse_cons, List.reverse_nil, List.nil_append, List.singleton_append]
  rw [bshapeR, h, ok_bind]
  rcases h' with ⟨rfl, rfl⟩ | ⟨rfl, rfl⟩ | ⟨rfl, rfl⟩
  · simp
  · split_ifs with q <;> simp_all
  · split_ifs with q <;> simp_all

theorem bidx_snoc (s : Shape) (i : List ℕ) (a k : ℕ) : bidx (s ++ [a]) (i ++ [k]) = bidx s i ++ [if a = 1 then 0 else k] := by
  simp [bidx, bidxR]

theorem bidx_nil (i : List ℕ) : bidx [] i = [] := rfl

theorem bshape_nil_left (s : Shape) : bshape [] s = .ok s := by
  rw [bshape_iff]; simp [bshapeR]

theorem bshape_nil_right (s : Shape) : bshape s [] = .ok s := by
  rw [bshape_iff]; cases s.reverse <;> simp [bshapeR]

/-! ## dtype and device -/

theorem promote_self (d : Dt) : d.promote d = d := by
  rcases d with _ | _ | d
  · rfl
  · rfl
  · cases d <;> rfl

theorem resTag_self (t : Tag) (a b : ℕ) : resTag t t a b = .ok t := by
  rw [resTag, if_pos rfl]
  simp only [ok_bind, promote_self]
  obtain ⟨d, v⟩ := t
  split_ifs
  · rfl
  · rcases d with _ | _ | d <;> rfl
  · rcases d with _ | _ | d <;> rfl

theorem trig_fl (d : DType) (v : Device) : trig (flTag d v) = flTag d v := rfl

theorem whereT_fl (c : Tag) (t : Tag) (h : c.dev = t.dev) : whereT c t t = .ok t := by
  rw [whereT, if_pos ⟨h, rfl⟩, promote_self]

theorem ew_self (t : Tag) : ew t t = .ok t := by rw [ew, if_pos rfl, promote_self]

theorem foldlM_ew (t : Tag) : ∀ l : List Tag, (∀ a ∈ l, a = t) → l.foldlM ew t = .ok t
  | [], _ => rfl
  | a :: l, h => by
    rw [List.foldlM_cons, h a (by simp), ew_self, ok_bind]
    exact foldlM_ew t l fun b hb => h b (by simp [hb])

theorem tags_eq {l : List (Tn α)} {t : Tag} (h0 : l ≠ []) (h : ∀ a ∈ l, a.tag = t) : tags l = .ok t := by
  cases l with
  | nil => exact absurd rfl h0
  | cons a l =>
    rw [tags, List.map_cons, stackT, h a (by simp)]
    exact foldlM_ew t _ fun b hb => by
      obtain ⟨c, hc, rfl⟩ := List.mem_map.1 hb
      exact h c (by simp [hc])

/-! ## Elementwise operations -/

theorem bin_bcast {t : Tag} {s s' r : Shape} (f : α → β → γ) {a : Tn α} {b : Tn β} (ha : a.shape = s) (hb : b.shape = s')
    (ta : a.tag = t) (tb : b.tag = t) (h : bshape s s' = .ok r) :
    bin f a b = .ok (ofFn t r fun i => f (a.get (bidx s i)) (b.get (bidx s' i))) := by
  rw [bin, ha, hb, ta, tb, h, ok_bind, resTag_self, ok_bind]; rfl

theorem bin_same {t : Tag} {s : Shape} (f : α → β → γ) {a : Tn α} {b : Tn β} (ha : a.shape = s) (hb : b.shape = s)
    (ta : a.tag = t) (tb : b.tag = t) : bin f a b = .ok (ofFn t s fun i => f (a.get i) (b.get i)) := by
  rw [bin_bcast f ha hb ta tb (bshape_self s)]
  congr 1
  exact ofFn_congr fun i hi => by rw [bidx_valid hi]

/-- entries of the same shape -/
theorem bin_S (f : α → β → γ) (t : Tag) (s : Shape) (a : List ℕ → α) (b : List ℕ → β) :
    bin f (ofFn t s a) (ofFn t s b) = .ok (ofFn t s fun i => f (a i) (b i)) := by
  rw [bin_same (t := t) (s := s) f rfl rfl rfl rfl]
  congr 1
  exact ofFn_congr fun i hi => by rw [ofFn_get hi, ofFn_get hi]

theorem bin_SB (f : α → β → γ) (t : Tag) {s s' r : Shape} (a : List ℕ → α) (b : List ℕ → β) (h : bshape s s' = .ok r) :
    bin f (ofFn t s a) (ofFn t s' b) = .ok (ofFn t r fun i => f (a (bidx s i)) (b (bidx s' i))) := by
  rw [bin_bcast (t := t) (s := s) (s' := s') f rfl rfl rfl rfl h]
  congr 1
  exact ofFn_congr fun i hi => by rw [ofFn_get (bidx_left h hi), ofFn_get (bidx_right h hi)]

theorem bin_V (f : α → β → γ) (t : Tag) (s : Shape) (n : ℕ) (a : List ℕ → Fin n → α) (b : List ℕ → Fin n → β) :
    bin f (ofV t s n a) (ofV t s n b) = .ok (ofV t s n fun i k => f (a i k) (b i k)) := by
  rw [bin_same (t := t) (s := s ++ [n]) f rfl rfl rfl rfl]
  congr 1
  refine eq_ofV rfl rfl fun i k hk hi => ?_
  rw [ofFn_get (validIx_snoc.2 ⟨hi, hk⟩), ofV_get hi hk, ofV_get hi hk]

/-- vectors and factors -/
theorem bin_V1 (f : α → β → γ) (t : Tag) (s : Shape) (n : ℕ) (a : List ℕ → Fin n → α) (b : List ℕ → Fin 1 → β) :
    bin f (ofV t s n a) (ofV t s 1 b) = .ok (ofV t s n fun i k => f (a i k) (b i 0)) := by
  have hb : bshape (s ++ [n]) (s ++ [1]) = .ok (s ++ [n]) := bshape_snoc (bshape_self s) (.inr (.inr ⟨rfl, rfl⟩))
  rw [bin_bcast (t := t) (s := s ++ [n]) (s' := s ++ [1]) f rfl rfl rfl rfl hb]
  congr 1
  refine eq_ofV rfl rfl fun i k hk hi => ?_
  rw [ofFn_get (validIx_snoc.2 ⟨hi, hk⟩), bidx_valid (validIx_snoc.2 ⟨hi, hk⟩), bidx_snoc, bidx_valid hi, if_pos rfl,
    ofV_get hi hk, ofV_get hi Nat.one_pos]
  rfl

theorem bin_1V (f : α → β → γ) (t : Tag) (s : Shape) (n : ℕ) (a : List ℕ → Fin 1 → α) (b : List ℕ → Fin n → β) :
    bin f (ofV t s 1 a) (ofV t s n b) = .ok (ofV t s n fun i k => f (a i 0) (b i k)) := by
  have hb : bshape (s ++ [1]) (s ++ [n]) = .ok (s ++ [n]) := bshape_snoc (bshape_self s) (.inr (.inl ⟨rfl, rfl⟩))
  rw [bin_bcast (t := t) (s := s ++ [1]) (s' := s ++ [n]) f rfl rfl rfl rfl hb]
  congr 1
  refine eq_ofV rfl rfl fun i k hk hi => ?_
  rw [ofFn_get (validIx_snoc.2 ⟨hi, hk⟩), bidx_valid (validIx_snoc.2 ⟨hi, hk⟩), bidx_snoc, bidx_valid hi, if_pos rfl,
    ofV_get hi hk, ofV_get hi Nat.one_pos]
  rfl

theorem sel_S {t : Tag} {c : Tag} (hc : c.dev = t.dev) (s : Shape) (p : List ℕ → Bool) (a b : List ℕ → ℝ) :
    sel (ofFn c s p) (ofFn t s a) (ofFn t s b) = .ok (ofFn t s fun i => bif p i then a i else b i) := by
  rw [sel]
  simp only [ofFn_shape, ofFn_tag, bshape_self, ok_bind, whereT_fl _ _ hc]
  show Except.ok _ = _
  congr 1
  refine ofFn_congr fun i hi => ?_
  rw [bidx_valid hi, ofFn_get hi, ofFn_get hi, ofFn_get hi]

theorem sel_V {t : Tag} {c : Tag} (hc : c.dev = t.dev) (s : Shape) (n : ℕ) (p : List ℕ → Fin n → Bool)
    (a b : List ℕ → Fin n → ℝ) :
    sel (ofV c s n p) (ofV t s n a) (ofV t s n b) = .ok (ofV t s n fun i k => bif p i k then a i k else b i k) := by
  rw [sel]
  simp only [ofV_shape, ofV_tag, bshape_self, ok_bind, whereT_fl _ _ hc]
  show Except.ok _ = _
  congr 1
  refine eq_ofV rfl rfl fun i k hk hi => ?_
  have hv := validIx_snoc.2 ⟨hi, hk⟩
  rw [ofFn_get hv, bidx_valid hv, ofV_get hi hk, ofV_get hi hk, ofV_get hi hk]

theorem sel_1V {t : Tag} {c : Tag} (hc : c.dev = t.dev) (s : Shape) (n : ℕ) (p : List ℕ → Fin 1 → Bool)
    (a b : List ℕ → Fin n → ℝ) :
    sel (ofV c s 1 p) (ofV t s n a) (ofV t s n b) = .ok (ofV t s n fun i k => bif p i 0 then a i k else b i k) := by
  have hb : bshape (s ++ [1]) (s ++ [n]) = .ok (s ++ [n]) := bshape_snoc (bshape_self s) (.inr (.inl ⟨rfl, rfl⟩))
  rw [sel]
  simp only [ofV_shape, ofV_tag, bshape_self, hb, ok_bind, whereT_fl _ _ hc]
  show Except.ok _ = _
  congr 1
  refine eq_ofV rfl rfl fun i k hk hi => ?_
  have hv := validIx_snoc.2 ⟨hi, hk⟩
  rw [ofFn_get hv, bidx_valid hv, bidx_snoc, bidx_valid hi, if_pos rfl, ofV_get hi hk, ofV_get hi hk,
    ofV_get hi Nat.one_pos]
  rfl

theorem map_S (f : ℝ → ℝ) (d : DType) (v : Device) (s : Shape) (a : List ℕ → ℝ) :
    map f (ofFn (flTag d v) s a) = ofFn (flTag d v) s fun i => f (a i) :=
  ofFn_congr fun i hi => by rw [ofFn_shape] at hi; rw [ofFn_get hi]

theorem map_V (f : ℝ → ℝ) (d : DType) (v : Device) (s : Shape) (n : ℕ) (a : List ℕ → Fin n → ℝ) :
    map f (ofV (flTag d v) s n a) = ofV (flTag d v) s n fun i k => f (a i k) := by
  refine eq_ofV rfl rfl fun i k hk hi => ?_
  rw [map, ofFn_get (by simpa using validIx_snoc.2 ⟨hi, hk⟩), ofV_get hi hk]

theorem test_S (p : ℝ → Prop) (t : Tag) (s : Shape) (a : List ℕ → ℝ) :
    test p (ofFn t s a) = ofFn (eqT t) s fun i => open Classical in decide (p (a i)) :=
  ofFn_congr fun i hi => by rw [ofFn_shape] at hi; rw [ofFn_get hi]

theorem test_V (p : ℝ → Prop) (t : Tag) (s : Shape) (n : ℕ) (a : List ℕ → Fin n → ℝ) :
    test p (ofV t s n a) = ofV (eqT t) s n fun i k => open Classical in decide (p (a i k)) := by
  refine eq_ofV rfl rfl fun i k hk hi => ?_
  rw [test, ofFn_get (by simpa using validIx_snoc.2 ⟨hi, hk⟩), ofV_get hi hk]

/-! ## Taking apart and putting together -/

theorem unbind_V (t : Tag) (s : Shape) (n : ℕ) (f : List ℕ → Fin n → ℝ) :
    unbind (ofV t s n f) = .ok ((List.finRange n).map fun k => ofFn t s fun i => f i k) := by
  rw [unbind]
  simp only [ofV_shape, List.getLast?_append, List.getLast?_singleton, Option.some_or, ofV_tag, List.dropLast_concat]
  congr 1
  apply List.ext_getElem
  · simp
  · intro k h1 h2
    simp only [List.getElem_map, List.getElem_range, List.getElem_finRange]
    exact ofFn_congr fun i hi => ofV_get hi (by simpa using h1)

theorem unbind_V3 (t : Tag) (s : Shape) (f : List ℕ → Fin 3 → ℝ) :
    unbind (ofV t s 3 f) = .ok [ofFn t s fun i => f i 0, ofFn t s fun i => f i 1, ofFn t s fun i => f i 2] := by
  rw [unbind_V]; rfl

theorem unbind_V4 (t : Tag) (s : Shape) (f : List ℕ → Fin 4 → ℝ) :
    unbind (ofV t s 4 f) = .ok [ofFn t s fun i => f i 0, ofFn t s fun i => f i 1, ofFn t s fun i => f i 2,
      ofFn t s fun i => f i 3] := by
  rw [unbind_V]; rfl

theorem unbind_V9 (t : Tag) (s : Shape) (f : List ℕ → Fin 9 → ℝ) :
    unbind (ofV t s 9 f) = .ok [ofFn t s fun i => f i 0, ofFn t s fun i => f i 1, ofFn t s fun i => f i 2,
      ofFn t s fun i => f i 3, ofFn t s fun i => f i 4, ofFn t s fun i => f i 5, ofFn t s fun i => f i 6,
      ofFn t s fun i => f i 7, ofFn t s fun i => f i 8] := by
  rw [unbind_V]; rfl

theorem stackLast_S (t : Tag) (s : Shape) (n : ℕ) (f : List ℕ → Fin (n + 1) → ℝ) :
    stackLast ((List.finRange (n + 1)).map fun k => ofFn t s fun i => f i k) = .ok (ofV t s (n + 1) f) := by
  have hl : ∀ b ∈ (List.finRange (n + 1)).map fun k => ofFn t s fun i => f i k, b.shape = s ∧ b.tag = t := by
    intro b hb
    obtain ⟨k, -, rfl⟩ := List.mem_map.1 hb
    exact ⟨rfl, rfl⟩
  have hlen : ((List.finRange (n + 1)).map fun k => ofFn t s fun i => f i k).length = n + 1 := by simp
  have hget : ∀ k (hk : k < n + 1), ((List.finRange (n + 1)).map fun k => ofFn t s fun i => f i k)[k]? =
      some (ofFn t s fun i => f i ⟨k, hk⟩) := by
    intro k hk
    rw [List.getElem?_map, List.getElem?_eq_getElem (by simpa using hk)]
    simp
  generalize hL : (List.finRange (n + 1)).map (fun k => ofFn t s fun i => f i k) = L at hl hlen hget
  cases L with
  | nil => simp at hlen
  | cons a L =>
    have ha := (hl a (by simp)).1
    rw [stackLast, if_pos (fun b hb => by rw [(hl b hb).1, ha]), tags_eq (by simp) (fun b hb => (hl b hb).2), ok_bind]
    show Except.ok _ = _
    congr 1
    refine eq_ofV (by rw [ofFn_shape, ha, hlen]) rfl fun i k hk hi => ?_
    rw [ofFn_get (by rw [ha, hlen]; exact validIx_snoc.2 ⟨hi, hk⟩)]
    simp only [List.getLastD_concat, List.dropLast_concat, hget k hk]
    rw [ofFn_get hi]

theorem stackLast_S3 (t : Tag) (s : Shape) (a b c : List ℕ → ℝ) :
    stackLast [ofFn t s a, ofFn t s b, ofFn t s c] = .ok (ofV t s 3 fun i => ![a i, b i, c i]) :=
  stackLast_S t s 2 fun i => ![a i, b i, c i]

theorem stackLast_S4 (t : Tag) (s : Shape) (a b c d : List ℕ → ℝ) :
    stackLast [ofFn t s a, ofFn t s b, ofFn t s c, ofFn t s d] = .ok (ofV t s 4 fun i => ![a i, b i, c i, d i]) :=
  stackLast_S t s 3 fun i => ![a i, b i, c i, d i]

theorem stackLast_S9 (t : Tag) (s : Shape) (a b c d e f g h k : List ℕ → ℝ) :
    stackLast [ofFn t s a, ofFn t s b, ofFn t s c, ofFn t s d, ofFn t s e, ofFn t s f, ofFn t s g, ofFn t s h, ofFn t s k]
      = .ok (ofV t s 9 fun i => ![a i, b i, c i, d i, e i, f i, g i, h i, k i]) :=
  stackLast_S t s 8 fun i => ![a i, b i, c i, d i, e i, f i, g i, h i, k i]

theorem dropLast_two (i : List ℕ) (a b : ℕ) : (i ++ [a, b]).dropLast = i ++ [a] := by
  rw [show i ++ [a, b] = (i ++ [a]) ++ [b] by simp, List.dropLast_concat]

theorem getLastD_two (i : List ℕ) (a b : ℕ) : (i ++ [a, b]).getLastD 0 = b := by
  rw [show i ++ [a, b] = (i ++ [a]) ++ [b] by simp, List.getLastD_concat]

theorem stackRows_V (t : Tag) (s : Shape) (n m : ℕ) (f : List ℕ → Fin (n + 1) → Fin m → ℝ) :
    stackRows ((List.finRange (n + 1)).map fun k => ofV t s m fun i => f i k) = .ok (ofM t s (n + 1) m f) := by
  have hl : ∀ b ∈ (List.finRange (n + 1)).map fun k => ofV t s m fun i => f i k, b.shape = s ++ [m] ∧ b.tag = t := by
    intro b hb
    obtain ⟨k, -, rfl⟩ := List.mem_map.1 hb
    exact ⟨rfl, rfl⟩
  have hlen : ((List.finRange (n + 1)).map fun k => ofV t s m fun i => f i k).length = n + 1 := by simp
  have hget : ∀ k (hk : k < n + 1), ((List.finRange (n + 1)).map fun k => ofV t s m fun i => f i k)[k]? =
      some (ofV t s m fun i => f i ⟨k, hk⟩) := by
    intro k hk
    rw [List.getElem?_map, List.getElem?_eq_getElem (by simpa using hk)]
    simp
  generalize hL : (List.finRange (n + 1)).map (fun k => ofV t s m fun i => f i k) = L at hl hlen hget
  cases L with
  | nil => simp at hlen
  | cons a L =>
    have ha := (hl a (by simp)).1
    rw [stackRows]
    simp only [ha, List.getLast?_append, List.getLast?_singleton, Option.some_or, List.dropLast_concat]
    rw [if_pos (fun b hb => (hl b hb).1), tags_eq (by simp) (fun b hb => (hl b hb).2), ok_bind]
    show Except.ok _ = _
    congr 1
    refine eq_ofM (by rw [ofFn_shape, hlen]) rfl fun i r c hr hc hi => ?_
    rw [ofFn_get (by rw [hlen]; exact validIx_two.2 ⟨hi, hr, hc⟩)]
    simp only [dropLast_two, getLastD_two, List.getLastD_concat, List.dropLast_concat, hget r hr]
    rw [ofV_get hi hc]

theorem stackRows_V3 (t : Tag) (s : Shape) (m : ℕ) (a b c : List ℕ → Fin m → ℝ) :
    stackRows [ofV t s m a, ofV t s m b, ofV t s m c] = .ok (ofM t s 3 m fun i => ![a i, b i, c i]) :=
  stackRows_V t s 2 m fun i => ![a i, b i, c i]

theorem stackRows_V4 (t : Tag) (s : Shape) (m : ℕ) (a b c d : List ℕ → Fin m → ℝ) :
    stackRows [ofV t s m a, ofV t s m b, ofV t s m c, ofV t s m d] = .ok (ofM t s 4 m fun i => ![a i, b i, c i, d i]) :=
  stackRows_V t s 3 m fun i => ![a i, b i, c i, d i]

theorem sum_V (t : Tag) (s : Shape) (n : ℕ) (f : List ℕ → Fin n → ℝ) :
    sum (ofV t s n f) = .ok (ofFn t s fun i => ∑ k, f i k) := by
  rw [sum]
  simp only [ofV_shape, List.getLast?_append, List.getLast?_singleton, Option.some_or, ofV_tag, List.dropLast_concat]
  congr 1
  refine ofFn_congr fun i hi => ?_
  rw [Finset.sum_range]
  exact Finset.sum_congr rfl fun k _ => ofV_get hi k.2

theorem sumKeep_V (t : Tag) (s : Shape) (n : ℕ) (f : List ℕ → Fin n → ℝ) :
    sumKeep (ofV t s n f) = .ok (ofV t s 1 fun i _ => ∑ k, f i k) := by
  rw [sumKeep]
  simp only [ofV_shape, List.getLast?_append, List.getLast?_singleton, Option.some_or, ofV_tag, List.dropLast_concat]
  congr 1
  refine eq_ofV rfl rfl fun i k hk hi => ?_
  rw [ofFn_get (validIx_snoc.2 ⟨hi, hk⟩), Finset.sum_range, List.dropLast_concat]
  exact Finset.sum_congr rfl fun k _ => ofV_get hi k.2

theorem norm_V (d : DType) (v : Device) (s : Shape) (n : ℕ) (f : List ℕ → Fin n → ℝ) :
    norm (ofV (flTag d v) s n f) = .ok (ofV (flTag d v) s 1 fun i _ => Real.sqrt (∑ k, f i k * f i k)) := by
  rw [norm, map_V, sumKeep_V, ok_bind, map_V]; rfl

theorem unsqueeze_S (t : Tag) (s : Shape) (f : List ℕ → α) : unsqueeze (ofFn t s f) = ofV t s 1 fun i _ => f i := by
  refine eq_ofV rfl rfl fun i k hk hi => ?_
  rw [unsqueeze, ofFn_get (by exact validIx_snoc.2 ⟨hi, hk⟩), List.dropLast_concat, ofFn_get hi]

theorem unsqueeze_V (t : Tag) (s : Shape) (n : ℕ) (f : List ℕ → Fin n → α) :
    unsqueeze (ofV t s n f) = ofM t s n 1 fun i k _ => f i k := by
  refine eq_ofM (by simp [unsqueeze]) rfl fun i r c hr hc hi => ?_
  have e : i ++ [r, c] = (i ++ [r]) ++ [c] := by simp
  rw [unsqueeze, ofFn_get (by rw [e]; exact validIx_snoc.2 ⟨validIx_snoc.2 ⟨hi, hr⟩, hc⟩), dropLast_two, ofV_get hi hr]

theorem lastNone_V (t : Tag) (s : Shape) (n : ℕ) (f : List ℕ → Fin (n + 1) → ℝ) :
    lastNone (ofV t s (n + 1) f) = .ok (ofV t s 1 fun i _ => f i (Fin.last n)) := by
  rw [lastNone]
  simp only [ofV_shape, List.getLast?_append, List.getLast?_singleton, Option.some_or, ofV_tag, List.dropLast_concat]
  congr 1
  refine eq_ofV rfl rfl fun i k hk hi => ?_
  rw [ofFn_get (validIx_snoc.2 ⟨hi, hk⟩), List.dropLast_concat, ofV_get hi (Nat.lt_succ_self n)]
  rfl

theorem selectLast_V (t : Tag) (s : Shape) (n : ℕ) (f : List ℕ → Fin n → ℝ) {k : ℕ} (hk : k < n) :
    selectLast (ofV t s n f) k = .ok (ofFn t s fun i => f i ⟨k, hk⟩) := by
  rw [selectLast]
  simp only [ofV_shape, List.getLast?_append, List.getLast?_singleton, Option.some_or, ofV_tag, List.dropLast_concat, if_pos hk]
  congr 1
  exact ofFn_congr fun i hi => ofV_get hi hk

theorem selectLast_M (t : Tag) (s : Shape) (n m : ℕ) (f : List ℕ → Fin n → Fin m → ℝ) {k : ℕ} (hk : k < m) :
    selectLast (ofM t s n m f) k = .ok (ofV t s n fun i r => f i r ⟨k, hk⟩) := by
  rw [selectLast]
  have e : s ++ [n, m] = (s ++ [n]) ++ [m] := by simp
  simp only [ofM_shape, ofM_tag, e, List.getLast?_append, List.getLast?_singleton, Option.some_or, List.dropLast_concat, if_pos hk]
  congr 1
  refine eq_ofV rfl rfl fun i r hr hi => ?_
  rw [ofFn_get (validIx_snoc.2 ⟨hi, hr⟩), List.append_assoc]
  exact ofM_get hi hr hk

theorem shape_rev2 (s : Shape) (n m : ℕ) : (s ++ [n, m]).reverse = m :: n :: s.reverse := by simp

theorem selectRow_M (t : Tag) (s : Shape) (n m : ℕ) (f : List ℕ → Fin n → Fin m → ℝ) {k : ℕ} (hk : k < n) :
    selectRow (ofM t s n m f) k = .ok (ofV t s m fun i c => f i ⟨k, hk⟩ c) := by
  rw [selectRow]
  simp only [ofM_shape, ofM_tag, shape_rev2, if_pos hk, List.reverse_reverse]
  congr 1
  refine eq_ofV rfl rfl fun i c hc hi => ?_
  rw [ofFn_get (validIx_snoc.2 ⟨hi, hc⟩), List.dropLast_concat, List.getLastD_concat, List.append_assoc]
  exact ofM_get hi hk hc

theorem sliceLast_V (t : Tag) (s : Shape) (n : ℕ) (f : List ℕ → Fin n → ℝ) (a b : ℕ) (hb : b ≤ n) {l : ℕ} (hl : b - a = l)
    (hab : a ≤ b) :
    sliceLast (ofV t s n f) a b = .ok (ofV t s l fun i k => f i ⟨a + k, by omega⟩) := by
  rw [sliceLast]
  simp only [ofV_shape, List.getLast?_append, List.getLast?_singleton, Option.some_or, ofV_tag, List.dropLast_concat]
  have hm : min b n - a = l := by omega
  congr 1
  refine eq_ofV (by rw [ofFn_shape, hm]) rfl fun i k hk hi => ?_
  rw [ofFn_get (by rw [hm]; exact validIx_snoc.2 ⟨hi, hk⟩), List.dropLast_concat, List.getLastD_concat]
  exact ofV_get hi (by omega)

theorem sliceLast_M (t : Tag) (s : Shape) (n m : ℕ) (f : List ℕ → Fin n → Fin m → ℝ) (b : ℕ) (hb : b ≤ m) :
    sliceLast (ofM t s n m f) 0 b = .ok (ofM t s n b fun i r k => f i r ⟨k, by omega⟩) := by
  rw [sliceLast]
  have e : s ++ [n, m] = (s ++ [n]) ++ [m] := by simp
  simp only [ofM_shape, ofM_tag, e, List.getLast?_append, List.getLast?_singleton, Option.some_or, List.dropLast_concat]
  have hm : min b m - 0 = b := by omega
  congr 1
  refine eq_ofM (by rw [ofFn_shape, hm]; simp) rfl fun i r c hr hc hi => ?_
  have e' : i ++ [r, c] = (i ++ [r]) ++ [c] := by simp
  rw [ofFn_get (by rw [hm, e']; exact validIx_snoc.2 ⟨validIx_snoc.2 ⟨hi, hr⟩, hc⟩), dropLast_two, getLastD_two,
    List.append_assoc, Nat.zero_add]
  exact ofM_get hi hr (by omega)

theorem sliceRows_M (t : Tag) (s : Shape) (n m : ℕ) (f : List ℕ → Fin n → Fin m → ℝ) (b : ℕ) (hb : b ≤ n) :
    sliceRows (ofM t s n m f) b = .ok (ofM t s b m fun i r c => f i ⟨r, by omega⟩ c) := by
  rw [sliceRows]
  simp only [ofM_shape, ofM_tag, shape_rev2, List.reverse_reverse]
  have hm : min b n = b := by omega
  congr 1
  refine eq_ofM (by rw [ofFn_shape, hm]) rfl fun i r c hr hc hi => ?_
  rw [ofFn_get (by rw [hm]; exact validIx_two.2 ⟨hi, hr, hc⟩)]
  exact ofM_get hi (by omega) hc

theorem cat_V (t : Tag) (s : Shape) (n m : ℕ) (f : List ℕ → Fin n → ℝ) (g : List ℕ → Fin m → ℝ) :
    cat (ofV t s n f) (ofV t s m g) = .ok (ofV t s (n + m) fun i => Fin.append (f i) (g i)) := by
  rw [cat]
  simp only [ofV_shape, List.getLast?_append, List.getLast?_singleton, Option.some_or, List.dropLast_concat, if_true]
  rw [tags_eq (t := t) (by simp) (by simp), ok_bind]
  show Except.ok _ = _
  congr 1
  refine eq_ofV rfl rfl fun i k hk hi => ?_
  rw [ofFn_get (validIx_snoc.2 ⟨hi, hk⟩), List.getLastD_concat, List.dropLast_concat]
  split_ifs with h
  · rw [ofV_get hi h]
    exact (Fin.append_left (f i) (g i) ⟨k, h⟩).symm
  · rw [ofV_get hi (by omega : k - n < m)]
    have := Fin.append_right (f i) (g i) ⟨k - n, by omega⟩
    rw [← this]
    congr 1
    apply Fin.ext
    simp
    omega

end Tn
end PK
