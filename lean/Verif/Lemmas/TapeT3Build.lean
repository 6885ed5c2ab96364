import Verif.Lemmas.TapeT3
import Verif.Lemmas.Good

/-!
# The records compute what the calls return
-/

namespace PK.AD
open Sum
open scoped Classical

noncomputable section

variable {ι α β γ δ : Type}

theorem bzip_post (u : γ → δ) (f : α → β → γ) (a : List α) (b : List β) :
    PK.bzip (fun a b => u (f a b)) a b = (PK.bzip f a b).map (List.map u) := by
  unfold PK.bzip
  split_ifs with h1 h2
  · simp [Except.map, List.map_zipWith]
  · rfl
  · simp [Except.map, List.map_zipWith]

theorem catLast_map {α' β' : Type} (f : α → β → γ) (u : α' → α) (v : β' → β) (a : List α') (b : List β') :
    PK.catLast f (a.map u) (b.map v) = PK.catLast (fun i j => f (u i) (v j)) a b := by
  unfold PK.catLast
  simp only [List.length_map, List.zipWith_map]

theorem catLast_post (u : γ → δ) (f : α → β → γ) (a : List α) (b : List β) :
    PK.catLast (fun a b => u (f a b)) a b = (PK.catLast f a b).map (List.map u) := by
  unfold PK.catLast
  split_ifs with h1
  · simp [Except.map, List.map_zipWith]
  · rfl

/-- outcomes of the same call: the record, and the value through the conversion `u` of elements -/
def MatchU (x : ι → ℝ) (u : (α → ℝ) → δ) (r : Except Err (Rec ι α)) (b : Except Err (List δ)) : Prop :=
  match r, b with
  | .ok r, .ok l => (r.vals x).map u = l
  | .error e, .error e' => e = e'
  | _, _ => False

theorem Match.post {x : ι → ℝ} {r : Except Err (Rec ι α)} {b : Except Err (List (α → ℝ))} (h : Match x r b) (u : (α → ℝ) → δ) :
    MatchU x u r (b.map (List.map u)) := by
  cases r <;> cases b <;> simp only [Match, MatchU, Except.map] at h ⊢ <;> first | exact h.elim | skip
  · exact h
  · rw [h]

theorem Rec.bzip_matchU {δ₁ δ₂ : Type} (op : Prog (α ⊕ β) γ) (f : δ₁ → δ₂ → δ) (u : (α → ℝ) → δ₁) (v : (β → ℝ) → δ₂) (w : (γ → ℝ) → δ)
    (h : ∀ a b, w (op.runR (Sum.elim a b)) = f (u a) (v b)) (r : Rec ι α) (s : Rec ι β) (x : ι → ℝ) :
    MatchU x w (r.bzip op s) (PK.bzip f ((r.vals x).map u) ((s.vals x).map v)) := by
  have := (Rec.bzip_match op r s x).post w
  rw [← bzip_post] at this
  rw [bzip_map]
  simpa only [h] using this

theorem Rec.catLast_matchU {δ₁ δ₂ : Type} (op : Prog (α ⊕ β) γ) (f : δ₁ → δ₂ → δ) (u : (α → ℝ) → δ₁) (v : (β → ℝ) → δ₂) (w : (γ → ℝ) → δ)
    (h : ∀ a b, w (op.runR (Sum.elim a b)) = f (u a) (v b)) (r : Rec ι α) (s : Rec ι β) (x : ι → ℝ) :
    MatchU x w (r.catLast op s) (PK.catLast f ((r.vals x).map u) ((s.vals x).map v)) := by
  have := (Rec.catLast_match op r s x).post w
  rw [← catLast_post] at this
  rw [catLast_map]
  simpa only [h] using this

/-! ## Arguments -/

theorem handleCoordS_at (x : ι → ℝ) (c : CoordS ι) : handleCoord (c.at x) = (handleCoordS c).map (List.map (Src.at x)) := by
  cases c <;> rfl

theorem expandS_at (x : ι → ℝ) (n : ℕ) (l : List (Src ι)) : expandVec n (l.map (Src.at x)) = (expandS n l).map (Src.at x) := by
  rcases l with _ | ⟨a, _ | ⟨b, l⟩⟩ <;> simp [expandVec, expandS]

theorem handleInputS_at (x : ι → ℝ) (a : CoordXS ι) (b c : CoordS ι) (s : Bool) :
    handleInput (a.at x) (b.at x) (c.at x) s = (handleInputS a b c s).map (List.map (v3At x)) := by
  have key : ∀ a b c : CoordS ι, (do
      let xs ← handleCoord (a.at x)
      let ys ← handleCoord (b.at x)
      let zs ← handleCoord (c.at x)
      let n := max xs.length (max ys.length zs.length)
      if (xs.length ≠ 1 ∧ xs.length ≠ n) ∨ (ys.length ≠ 1 ∧ ys.length ≠ n) ∨ (zs.length ≠ 1 ∧ zs.length ≠ n) then
        .error .valueError
      else
        return List.zipWith (fun a bc => ![a, bc.1, bc.2]) (expandVec n xs) ((expandVec n ys).zip (expandVec n zs)) : Except Err (List V3))
    = (do
      let xs ← handleCoordS a
      let ys ← handleCoordS b
      let zs ← handleCoordS c
      let n := max xs.length (max ys.length zs.length)
      if (xs.length ≠ 1 ∧ xs.length ≠ n) ∨ (ys.length ≠ 1 ∧ ys.length ≠ n) ∨ (zs.length ≠ 1 ∧ zs.length ≠ n) then
        .error .valueError
      else
        return List.zipWith (fun a bc => ![a, bc.1, bc.2]) (expandS n xs) ((expandS n ys).zip (expandS n zs)) :
          Except Err (List (Fin 3 → Src ι))).map (List.map (v3At x)) := by
    intro a b c
    simp only [handleCoordS_at]
    cases handleCoordS a with
    | error e => rfl
    | ok xs =>
      cases handleCoordS b with
      | error e => rfl
      | ok ys =>
        cases handleCoordS c with
        | error e => rfl
        | ok zs =>
          simp only [Except.map, ok_bind, List.length_map, expandS_at]
          split_ifs
          · rfl
          · simp only [pure_ok, List.map_zipWith, List.zip_map, List.zipWith_map]
            congr 2
            funext a bc
            funext i
            fin_cases i <;> rfl
  cases a with
  | matBad => rfl
  | mat3 rows => cases b <;> cases c <;> rfl
  | coord a =>
    rcases b with _ | b | b <;> rcases c with _ | c | c
    · cases s
      · exact key a .none .none
      · exact key a a a
    · cases s <;> exact key a .none (.scalar c)
    · cases s <;> exact key a .none (.vec c)
    all_goals cases s <;> exact key _ _ _

theorem handleAngleS_at (x : ι → ℝ) (c : AngleS ι) : handleAngle (c.at x) = (handleAngleS c).map (List.map (Src.at x)) := by
  cases c <;> rfl

theorem RotS.tape_at (x : ι → ℝ) (q : RotS ι) : (q.tape.1.vals x).map toM3 = (q.at x).toMats.1 ∧ q.tape.2 = (q.at x).toMats.2 := by
  have hm : ∀ rs : List (E3 → Src ι), ((Rec.src rs).vals x).map toM3 = rs.map (m3At x) := by
    intro rs; rw [Rec.vals_src, List.map_map]; rfl
  have hq : ∀ qs : List (Fin 4 → Src ι), (((Rec.src qs).map q2m).vals x).map toM3 = (qs.map (qAt x)).map quaternionToMatrix := by
    intro qs
    rw [Rec.vals_map, Rec.vals_src, List.map_map, List.map_map, List.map_map]
    apply List.map_congr_left
    intro q _
    exact toM3_q2m _
  have he : ∀ es : List (Fin 3 → Src ι), (((Rec.src es).map eulerP).vals x).map toM3 = (es.map (v3At x)).map eulerXYZ := by
    intro qs
    rw [Rec.vals_map, Rec.vals_src, List.map_map, List.map_map, List.map_map]
    apply List.map_congr_left
    intro q _
    exact toM3_eulerP _
  cases q with
  | mat r => exact ⟨hm [r], rfl⟩
  | mats rs => exact ⟨hm rs, rfl⟩
  | quat q => exact ⟨hq [q], rfl⟩
  | quats qs => exact ⟨hq qs, rfl⟩
  | angles e => exact ⟨he [e], rfl⟩
  | anglesBatch es =>
    rcases es with _ | ⟨a, _ | ⟨b, _ | ⟨c, _ | ⟨d, l⟩⟩⟩⟩
    · exact ⟨he _, rfl⟩
    · exact ⟨he _, rfl⟩
    · exact ⟨he _, rfl⟩
    · refine ⟨(hm _).trans ?_, rfl⟩
      simp only [List.map_cons, List.map_nil, RotS.at, RotArg.toMats]
      congr 1
      funext i j
      fin_cases i <;> rfl
    · exact ⟨he _, rfl⟩

theorem MatS.tape_at (x : ι → ℝ) (m : MatS ι) : MatchU x toM4 m.tape (initMatrix (m.at x)) := by
  have hm : ∀ rs : List (E4 → Src ι), ((Rec.src rs).vals x).map toM4 = rs.map (m4At x) := by
    intro rs; rw [Rec.vals_src, List.map_map]; rfl
  cases m with
  | default n =>
    refine (hm _).trans ?_
    rw [List.map_replicate]
    congr 1
  | single m => exact hm [m]
  | batch ms => exact hm ms
  | badShape => rfl

theorem repeatTo_map (x : ι → ℝ) (b : Bool) (n : ℕ) (r : Rec ι E4) :
    ((r.repeatTo b n).vals x).map toM4 = repeatTo b n ((r.vals x).map toM4) := by
  rw [Rec.vals_repeatTo]
  cases b with
  | false => rfl
  | true =>
    rcases r.vals x with _ | ⟨m, _ | ⟨m', l⟩⟩
    · rfl
    · simp only [List.map_cons, List.map_nil, repeatTo]
      split_ifs
      · rw [List.map_replicate]
      · rfl
    · rfl

theorem setPos_at (x : ι → ℝ) (r : Rec ι E4) (p : Option (PosS ι)) :
    MatchU x toM4 (r.setPos p) (setPos ((r.vals x).map toM4) (p.map (PosS.at x))) := by
  have hv : ∀ l : List (Fin 3 → Src ι), (((Rec.src l).vals x).map id) = l.map (v3At x) := by
    intro l; rw [Rec.vals_src, List.map_id]; rfl
  rcases p with _ | (p | ps)
  · exact rfl
  · have := Rec.catLast_matchU withPosP withPos toM4 id toM4 toM4_withPosP r (.src [p]) x
    rwa [hv] at this
  · have := Rec.catLast_matchU withPosP withPos toM4 id toM4 toM4_withPosP (r.repeatTo true ps.length) (.src ps) x
    rw [hv, repeatTo_map] at this
    simpa [setPos, PosS.at, Rec.setPos] using this

theorem setRot_at (x : ι → ℝ) (r : Rec ι E4) (p : Option (RotS ι)) :
    MatchU x toM4 (r.setRot p) (setRot ((r.vals x).map toM4) (p.map (RotS.at x))) := by
  rcases p with _ | q
  · exact rfl
  · have := Rec.catLast_matchU withRotP withRot toM3 toM4 toM4 toM4_withRotP q.tape.1 (r.repeatTo q.tape.2 q.tape.1.n) x
    obtain ⟨h1, h2⟩ := RotS.tape_at x q
    have h3 : q.tape.1.n = (q.at x).toMats.1.length := by rw [← h1, List.length_map, Rec.length_vals]
    rw [repeatTo_map, h1] at this
    simp only [setRot, Option.map_some, Rec.setRot]
    rw [← h2, ← h3]
    exact this

/-! ## Programs -/

/-- outcomes of the same program -/
def MatchT (x : ι → ℝ) (r : Except Err (TKind × Rec ι E4)) (b : Except Err T3) : Prop :=
  match r, b with
  | .ok q, .ok t => t.kind = q.1 ∧ t.mats = (q.2.vals x).map toM4
  | .error e, .error e' => e = e'
  | _, _ => False

theorem inverse_mats (t : T3) (k : TKind) (r : Rec ι E4) (x : ι → ℝ) (hk : t.kind = k) (hm : t.mats = (r.vals x).map toM4) :
    t.inverse.mats = ((r.map (inverseP k)).vals x).map toM4 := by
  subst hk
  show t.matrixInverse = _
  rw [Rec.vals_map, List.map_map]
  unfold T3.matrixInverse
  cases t.kind <;> simp only [hm, List.map_map] <;> apply List.map_congr_left <;> intro v _
  · exact (toM4_invertP v).symm
  · exact (toM4_invertTranslateP v).symm
  · exact (toM4_invertScaleP v).symm
  · exact (toM4_transposeP v).symm

theorem TExpr.build_match (x : ι → ℝ) (e : TExpr ι) : MatchT x e.tape (e.build x) := by
  induction e with
  | init m pos rot d =>
    have h1 := MatS.tape_at x m
    simp only [TExpr.tape, TExpr.build, T3.init]
    cases hr : m.tape with
    | error e =>
      cases hb : initMatrix (m.at x) with
      | error e' => rw [hr, hb] at h1; exact h1
      | ok l => rw [hr, hb] at h1; exact h1.elim
    | ok r =>
      cases hb : initMatrix (m.at x) with
      | error e' => rw [hr, hb] at h1; exact h1.elim
      | ok l =>
        rw [hr, hb] at h1
        have h1 : (r.vals x).map toM4 = l := h1
        subst h1
        have h2 := setPos_at x r pos
        simp only [ok_bind]
        cases hr : r.setPos pos with
        | error e =>
          cases hb : setPos ((r.vals x).map toM4) (pos.map (PosS.at x)) with
          | error e' => rw [hr, hb] at h2; exact h2
          | ok l => rw [hr, hb] at h2; exact h2.elim
        | ok r' =>
          cases hb : setPos ((r.vals x).map toM4) (pos.map (PosS.at x)) with
          | error e' => rw [hr, hb] at h2; exact h2.elim
          | ok l =>
            rw [hr, hb] at h2
            have h2 : (r'.vals x).map toM4 = l := h2
            subst h2
            have h3 := setRot_at x r' rot
            simp only [ok_bind]
            cases hr : r'.setRot rot with
            | error e =>
              cases hb : setRot ((r'.vals x).map toM4) (rot.map (RotS.at x)) with
              | error e' => rw [hr, hb] at h3; exact h3
              | ok l => rw [hr, hb] at h3; exact h3.elim
            | ok r'' =>
              cases hb : setRot ((r'.vals x).map toM4) (rot.map (RotS.at x)) with
              | error e' => rw [hr, hb] at h3; exact h3.elim
              | ok l =>
                rw [hr, hb] at h3
                have h3 : (r''.vals x).map toM4 = l := h3
                exact ⟨rfl, h3.symm⟩
  | translate a b c d =>
    simp only [TExpr.tape, TExpr.build, T3.mkTranslate, handleInputS_at]
    cases handleInputS a b c false with
    | error e => rfl
    | ok l =>
      refine ⟨rfl, ?_⟩
      show (l.map (v3At x)).map _ = _
      rw [Rec.vals_map, Rec.vals_src, List.map_map, List.map_map, List.map_map]
      exact List.map_congr_left fun v _ => (toM4_translateP _).symm
  | scale a b c d =>
    simp only [TExpr.tape, TExpr.build, T3.mkScale, handleInputS_at]
    cases handleInputS a b c true with
    | error e => rfl
    | ok l =>
      refine ⟨rfl, ?_⟩
      show (l.map (v3At x)).map _ = _
      rw [Rec.vals_map, Rec.vals_src, List.map_map, List.map_map, List.map_map]
      exact List.map_congr_left fun v _ => (toM4_scaleP _).symm
  | rotate r d =>
    refine ⟨rfl, ?_⟩
    show (r.at x).toMats.1.map _ = _
    rw [← (RotS.tape_at x r).1, Rec.vals_map, List.map_map, List.map_map]
    exact List.map_congr_left fun v _ => (toM4_rotateP _).symm
  | rotateAxisAngle angle axis degrees =>
    simp only [TExpr.tape, TExpr.build, T3.mkRotateAxisAngle, handleAngleS_at]
    rcases axis.map Char.toUpper with _ | ⟨c, _ | ⟨c', l⟩⟩
    · rfl
    · dsimp only
      cases letterAx c with
      | none => exact rfl
      | some a =>
        dsimp only
        cases handleAngleS angle with
        | error e => exact rfl
        | ok l =>
          refine ⟨rfl, ?_⟩
          show ((if degrees then (l.map (Src.at x)).map fun x => x / 180 * Real.pi else l.map (Src.at x)).map (axisAngleRotation a)).map _ = _
          rw [Rec.vals_map, Rec.vals_map, Rec.vals_src]
          cases degrees <;> simp only [if_true, List.map_map, Bool.false_eq_true, if_false] <;>
            refine List.map_congr_left fun v _ => ?_ <;> simp only [Function.comp_apply, toM4_rotateP, toM3_axisAngleP] <;> rfl
    · rfl
  | compose s t hs ht =>
    simp only [TExpr.tape, TExpr.build]
    revert hs ht
    generalize s.tape = rs
    generalize t.tape = rt
    generalize s.build x = bs
    generalize t.build x = bt
    intro hs ht
    rcases rs with e | ⟨k, r⟩ <;> rcases bs with e' | a <;> first | exact hs.elim | skip
    · exact hs
    rcases rt with e | ⟨k', r'⟩ <;> rcases bt with e' | b <;> first | exact ht.elim | skip
    · exact ht
    obtain ⟨-, hs⟩ := hs
    obtain ⟨-, ht⟩ := ht
    have := Rec.bzip_matchU (mulP 4) (· * ·) toM4 toM4 toM4 toM4_mulP r r' x
    simp only [ok_bind, T3.compose, List.foldlM_cons, List.foldlM_nil]
    rw [hs, ht]
    dsimp only at this ⊢
    cases hr : r.bzip (mulP 4) r' with
    | error e =>
      cases hb : PK.bzip (fun a b : M4 => a * b) ((r.vals x).map toM4) ((r'.vals x).map toM4) with
      | error e' => rw [hr, hb] at this; exact this
      | ok l => rw [hr, hb] at this; exact this.elim
    | ok q =>
      cases hb : PK.bzip (fun a b : M4 => a * b) ((r.vals x).map toM4) ((r'.vals x).map toM4) with
      | error e' => rw [hr, hb] at this; exact this.elim
      | ok l =>
        rw [hr, hb] at this
        exact ⟨rfl, Eq.symm this⟩
  | inverse t ht =>
    simp only [TExpr.tape, TExpr.build]
    revert ht
    generalize t.tape = rt
    generalize t.build x = bt
    intro ht
    rcases rt with e | ⟨k', r'⟩ <;> rcases bt with e' | b <;> first | exact ht.elim | skip
    · exact ht
    exact ⟨rfl, inverse_mats b k' r' x ht.1 ht.2⟩
  | stack s t hs ht =>
    simp only [TExpr.tape, TExpr.build]
    revert hs ht
    generalize s.tape = rs
    generalize t.tape = rt
    generalize s.build x = bs
    generalize t.build x = bt
    intro hs ht
    rcases rs with e | ⟨k, r⟩ <;> rcases bs with e' | a <;> first | exact hs.elim | skip
    · exact hs
    rcases rt with e | ⟨k', r'⟩ <;> rcases bt with e' | b <;> first | exact ht.elim | skip
    · exact ht
    refine ⟨rfl, ?_⟩
    show a.mats ++ ([b].map T3.mats).flatten = _
    simp [Rec.vals_append, hs.2, ht.2]
  | get t i ht =>
    simp only [TExpr.tape, TExpr.build]
    revert ht
    generalize t.tape = rt
    generalize t.build x = bt
    intro ht
    rcases rt with e | ⟨k', r⟩ <;> rcases bt with e' | b <;> first | exact ht.elim | skip
    · exact ht
    obtain ⟨-, ht⟩ := ht
    have hl : b.mats.length = r.n := by rw [ht, List.length_map, Rec.length_vals]
    simp only [ok_bind, T3.get]
    by_cases h : i < r.n
    · rw [List.getElem?_eq_getElem (hl ▸ h), dif_pos h]
      refine ⟨rfl, ?_⟩
      have := Rec.vals_gather r [⟨i, h⟩] x
      simp only [ht]
      rw [this]
      simp only [List.map_cons, List.map_nil, List.getElem_map, Rec.vals, List.getElem_ofFn]
    · rw [List.getElem?_eq_none (by omega), dif_neg h]
      rfl

end
end PK.AD
