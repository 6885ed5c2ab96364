import Verif.Lemmas.TensorOps

/-!
# Arithmetic expressions of tensors, entry by entry
-/

namespace PK.Tn

/-- `bidx` does not notice a detour over a larger shape. -/
theorem bidxR_bidxR : ∀ {x r : Shape} {i : List ℕ}, bshapeR x r = .ok r → i.length ≥ r.length →
    bidxR x (bidxR r i) = bidxR x i
  | [], r, i, _, _ => by simp [bidxR]
  | a :: x, [], i, h, _ => by
    rw [bshapeR] at h
    · cases h
    · simp
  | a :: x, b :: r, [], _, hl => by simp at hl
  | a :: x, b :: r, k :: i, h, hl => by
    rw [bshapeR] at h
    cases hr : bshapeR x r with
    | error e => rw [hr] at h; cases h
    | ok r' =>
      rw [hr, ok_bind] at h
      have key : r' = r ∧ (a = b ∨ a = 1) := by
        split_ifs at h with h1 h2 h3
        · injection h with h; injection h with _ h; exact ⟨h, .inl h1⟩
        · injection h with h; injection h with _ h; exact ⟨h, .inr h2⟩
        · injection h with h; injection h with h0 h; exact ⟨h, .inl h0⟩
      obtain ⟨rfl, hab⟩ := key
      rw [bidxR, bidxR, bidxR, bidxR_bidxR hr (by simpa using hl)]
      congr 1
      rcases hab with rfl | rfl
      · split_ifs <;> rfl
      · simp

theorem bidx_bidx {x r : Shape} {i : List ℕ} (h : bshape x r = .ok r) (hl : r.length ≤ i.length) :
    bidx x (bidx r i) = bidx x i := by
  rw [bidx, bidx, bidx, List.reverse_reverse, bidxR_bidxR (bshape_iff.1 h) (by simpa using hl)]

namespace TE

/-- The shape of an expression. -/
def shp : TE → Except Err Shape
  | .leaf t => .ok t.shape
  | .un _ a => a.shp
  | .bin _ a b => do bshape (← a.shp) (← b.shp)

/-- The entry of an expression at an index. -/
noncomputable def atB : TE → List ℕ → ℝ
  | .leaf t, i => t.get (bidx t.shape i)
  | .un f a, i => f (a.atB i)
  | .bin f a b, i => f (a.atB i) (b.atB i)

/-- All tensors of an expression have one tag. -/
def Tags (t : Tag) : TE → Prop
  | .leaf a => a.tag = t
  | .un _ a => a.Tags t
  | .bin _ a b => a.Tags t ∧ b.Tags t

/-- All tensors of an expression broadcast to the shape. -/
def Fits (r : Shape) : TE → Prop
  | .leaf a => bshape a.shape r = .ok r
  | .un _ a => a.Fits r
  | .bin _ a b => a.Fits r ∧ b.Fits r

end TE

theorem bshapeR_trans : ∀ {x r q : Shape}, bshapeR x r = .ok r → bshapeR r q = .ok q → bshapeR x q = .ok q
  | [], _, _, _, _ => by simp [bshapeR]
  | a :: x, [], q, h, _ => by
    rw [bshapeR] at h
    · cases h
    · simp
  | a :: x, b :: r, [], _, h => by
    rw [bshapeR] at h
    · cases h
    · simp
  | a :: x, b :: r, c :: q, h, h' => by
    rw [bshapeR] at h h'
    cases hr : bshapeR x r with
    | error e => rw [hr] at h; cases h
    | ok r' =>
      cases hq : bshapeR r q with
      | error e => rw [hq] at h'; cases h'
      | ok q' =>
        rw [hr, ok_bind] at h
        rw [hq, ok_bind] at h'
        have key : r' = r ∧ (a = b ∨ a = 1) := by
          split_ifs at h with h1 h2 h3
          · injection h with h; injection h with _ h; exact ⟨h, .inl h1⟩
          · injection h with h; injection h with _ h; exact ⟨h, .inr h2⟩
          · injection h with h; injection h with h0 h; exact ⟨h, .inl h0⟩
        have key' : q' = q ∧ (b = c ∨ b = 1) := by
          split_ifs at h' with h1 h2 h3
          · injection h' with h; injection h with _ h; exact ⟨h, .inl h1⟩
          · injection h' with h; injection h with _ h; exact ⟨h, .inr h2⟩
          · injection h' with h; injection h with h0 h; exact ⟨h, .inl h0⟩
        obtain ⟨rfl, hab⟩ := key
        obtain ⟨rfl, hbc⟩ := key'
        rw [bshapeR, bshapeR_trans hr hq, ok_bind]
        have : a = c ∨ a = 1 := by omega
        rcases this with rfl | rfl
        · simp
        · split_ifs <;> simp_all

theorem bshape_trans {x r q : Shape} (h : bshape x r = .ok r) (h' : bshape r q = .ok q) : bshape x q = .ok q :=
  bshape_iff.2 (bshapeR_trans (bshape_iff.1 h) (bshape_iff.1 h'))

theorem TE.fits_mono {r q : Shape} (h : bshape r q = .ok q) : ∀ {e : TE}, e.Fits r → e.Fits q
  | .leaf _, hf => bshape_trans hf h
  | .un _ a, hf => TE.fits_mono (e := a) h hf
  | .bin _ a b, hf => ⟨TE.fits_mono (e := a) h hf.1, TE.fits_mono (e := b) h hf.2⟩

theorem TE.fits_of_shp : ∀ {e : TE} {r : Shape}, e.shp = .ok r → e.Fits r
  | .leaf t, r, h => by
    have : t.shape = r := by simpa [TE.shp] using h
    show bshape t.shape r = _
    rw [this, bshape_self]
  | .un _ a, _, h => TE.fits_of_shp (e := a) h
  | .bin _ a b, r, h => by
    rw [TE.shp] at h
    cases ha : a.shp with
    | error e => rw [ha] at h; cases h
    | ok ra =>
      cases hb : b.shp with
      | error e => rw [ha, hb] at h; cases h
      | ok rb =>
        rw [ha, hb, ok_bind, ok_bind] at h
        have hab := bshape_absorb h
        exact ⟨TE.fits_mono hab.1.2 (TE.fits_of_shp ha), TE.fits_mono hab.2.2 (TE.fits_of_shp hb)⟩

theorem TE.atB_bidx {r : Shape} {i : List ℕ} (hl : r.length ≤ i.length) : ∀ {e : TE}, e.Fits r → e.atB (bidx r i) = e.atB i
  | .leaf t, h => by rw [TE.atB, TE.atB, bidx_bidx h hl]
  | .un f a, h => by rw [TE.atB, TE.atB, TE.atB_bidx hl (e := a) h]
  | .bin f a b, h => by rw [TE.atB, TE.atB, TE.atB_bidx hl (e := a) h.1, TE.atB_bidx hl (e := b) h.2]

theorem bshapeR_len : ∀ {s t r : Shape}, bshapeR s t = .ok r → s.length ≤ r.length ∧ t.length ≤ r.length
  | [], t, r, h => by rw [bshapeR] at h; cases h; simp
  | a :: s, [], r, h => by
    rw [bshapeR] at h
    · cases h; simp
    · simp
  | a :: s, b :: t, r, h => by
    rw [bshapeR] at h
    cases hr : bshapeR s t with
    | error e => rw [hr] at h; cases h
    | ok r' =>
      rw [hr, ok_bind] at h
      have := bshapeR_len hr
      split_ifs at h <;> (cases h; simpa using this)

theorem bshape_len {s t r : Shape} (h : bshape s t = .ok r) : s.length ≤ r.length ∧ t.length ≤ r.length := by
  have := bshapeR_len (bshape_iff.1 h)
  simpa using this

/-- An expression of tensors of one dtype and device evaluates to the tensor of its entries. -/
theorem TE.eval_eq {d : DType} {v : Device} : ∀ {e : TE} {r : Shape}, e.Tags (flTag d v) → e.shp = .ok r →
    e.eval = .ok (ofFn (flTag d v) r e.atB)
  | .leaf t, r, ht, hs => by
    have h1 : t.shape = r := by simpa [TE.shp] using hs
    have h2 : t.tag = flTag d v := ht
    rw [TE.eval]
    congr 1
    refine eq_ofS h1 h2 fun i hi => ?_
    rw [TE.atB, h1, bidx_valid hi]
  | .un f a, r, ht, hs => by
    rw [TE.eval, TE.eval_eq (e := a) ht hs, ok_bind, map_S]
    rfl
  | .bin f a b, r, ht, hs => by
    have hs' := hs
    rw [TE.shp] at hs
    cases ha : a.shp with
    | error e => rw [ha] at hs; cases hs
    | ok ra =>
      cases hb : b.shp with
      | error e => rw [ha, hb] at hs; cases hs
      | ok rb =>
        rw [ha, hb, ok_bind, ok_bind] at hs
        rw [TE.eval, TE.eval_eq (e := a) ht.1 ha, ok_bind, TE.eval_eq (e := b) ht.2 hb, ok_bind, bin_SB f _ _ _ hs]
        congr 1
        have hlen := bshape_len hs
        refine ofFn_congr fun i hi => ?_
        have hi' := hi.length
        rw [TE.atB, TE.atB_bidx (by omega) (TE.fits_of_shp ha), TE.atB_bidx (by omega) (TE.fits_of_shp hb)]

theorem stackE_eq {d : DType} {v : Device} {r : Shape} {l : List TE} (h : ∀ e ∈ l, e.Tags (flTag d v) ∧ e.shp = .ok r) :
    stackE l = stackLast (l.map fun e => ofFn (flTag d v) r e.atB) := by
  rw [stackE]
  have : l.mapM TE.eval = .ok (l.map fun e => ofFn (flTag d v) r e.atB) := by
    induction l with
    | nil => rfl
    | cons e l ih =>
      rw [List.mapM_cons, TE.eval_eq (h e (by simp)).1 (h e (by simp)).2, ok_bind, ih fun e' he => h e' (by simp [he]), ok_bind]
      rfl
  rw [this, ok_bind]

@[simp] theorem TE.atB_add (a b : TE) (i : List ℕ) : (a + b).atB i = a.atB i + b.atB i := rfl
@[simp] theorem TE.atB_sub (a b : TE) (i : List ℕ) : (a - b).atB i = a.atB i - b.atB i := rfl
@[simp] theorem TE.atB_mul (a b : TE) (i : List ℕ) : (a * b).atB i = a.atB i * b.atB i := rfl
@[simp] theorem TE.atB_div (a b : TE) (i : List ℕ) : (a / b).atB i = a.atB i / b.atB i := rfl
@[simp] theorem TE.atB_neg (a : TE) (i : List ℕ) : (-a).atB i = -a.atB i := rfl
@[simp] theorem TE.atB_un (f : ℝ → ℝ) (a : TE) (i : List ℕ) : (TE.un f a).atB i = f (a.atB i) := rfl
theorem TE.atB_leaf {t : Tag} {s r : Shape} {f : List ℕ → ℝ} {i : List ℕ} (h : bshape s r = .ok r) (hi : ValidIx i r) :
    (TE.leaf (ofFn t s f)).atB i = f (bidx s i) := by
  rw [TE.atB, ofFn_shape, ofFn_get (bidx_left h hi)]

@[simp] theorem TE.tags_add (t : Tag) (a b : TE) : (a + b).Tags t ↔ a.Tags t ∧ b.Tags t := Iff.rfl
@[simp] theorem TE.tags_sub (t : Tag) (a b : TE) : (a - b).Tags t ↔ a.Tags t ∧ b.Tags t := Iff.rfl
@[simp] theorem TE.tags_mul (t : Tag) (a b : TE) : (a * b).Tags t ↔ a.Tags t ∧ b.Tags t := Iff.rfl
@[simp] theorem TE.tags_un (t : Tag) (f : ℝ → ℝ) (a : TE) : (TE.un f a).Tags t ↔ a.Tags t := Iff.rfl
@[simp] theorem TE.tags_leaf (t : Tag) (a : Tn ℝ) : (TE.leaf a).Tags t ↔ a.tag = t := Iff.rfl

@[simp] theorem TE.shp_add (a b : TE) : (a + b).shp = (do bshape (← a.shp) (← b.shp)) := rfl
@[simp] theorem TE.shp_sub (a b : TE) : (a - b).shp = (do bshape (← a.shp) (← b.shp)) := rfl
@[simp] theorem TE.shp_mul (a b : TE) : (a * b).shp = (do bshape (← a.shp) (← b.shp)) := rfl
@[simp] theorem TE.shp_un (f : ℝ → ℝ) (a : TE) : (TE.un f a).shp = a.shp := rfl
@[simp] theorem TE.shp_leaf (a : Tn ℝ) : (TE.leaf a).shp = .ok a.shape := rfl

end PK.Tn
