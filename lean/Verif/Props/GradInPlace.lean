import Verif.Lemmas.InPlace

namespace PK
open AG
attribute [local irreducible] good0 req0 goodBut farBut reqBut

/-- a state for the examples: a leaf that requires gradients, one that does not, the result of an operation on the first, and another constant -/
def demo : St where
  tens u := if u = 0 then ⟨0, true, none, false⟩ else if u = 1 then ⟨1, false, none, false⟩ else if u = 2 then ⟨2, true, some 0, false⟩ else ⟨3, false, none, false⟩
  nt := 4
  node n := if n = 0 then ⟨[], [(0, 5)]⟩ else ⟨[], []⟩
  nn := 1
  ver i := if i = 0 then 5 else 0
  ns := 4

theorem demo_wf : WF demo := by
  constructor
  · intro u n hn; unfold demo at *; dsimp only at *; split_ifs at hn <;> simp_all
  · intro n k hk; unfold demo at *; dsimp only at *; split_ifs at hk <;> simp_all
  · intro u hu; unfold demo at *; dsimp only at *; split_ifs <;> simp
  · intro n hn p hp; unfold demo at *; dsimp only at *; split_ifs at hp <;> simp_all
  · intro n hn p hp; unfold demo at *; dsimp only at *; split_ifs at hp <;> simp_all
  · intro u hu; unfold demo at *; dsimp only at *; split_ifs at * <;> simp_all

theorem demo_inGraph {u m : ℕ} (h : InGraph demo u m) : u = 2 ∧ m = 0 := by
  have h1 := inGraph_lt demo_wf h
  obtain ⟨n, hn, _⟩ := h
  refine ⟨?_, by simpa [demo] using h1⟩
  by_contra hc
  unfold demo at hn; dsimp only at hn
  split_ifs at hn <;> simp_all

theorem demo_clean (u : ℕ) : Clean demo u := by
  intro m hm p hp
  obtain ⟨-, rfl⟩ := demo_inGraph hm
  have : p = (0, 5) := by simpa [demo] using hp
  subst this; rfl

theorem demo_args {l : List ℕ} (h : ∀ a ∈ l, a < 4) : Args demo l := fun a ha => ⟨h a ha, fun hr => backward_clean hr (demo_clean a)⟩

/-- memberships in the bookkeeping sets -/
macro "mem" : tactic => `(tactic| solve_by_elim (maxDepth := 60) [List.mem_cons_self, List.mem_cons_of_mem])
/-- memberships of all entries of a list -/
macro "mems" : tactic => `(tactic| (simp only [List.forall_mem_cons, List.forall_mem_nil, and_true, List.not_mem_nil, false_imp_iff, implies_true]; try (repeat' apply And.intro) <;> (try intro _) <;> mem))

/-- **C131**: `quaternion_angular_distance` can be called with tensors that require gradients, its result can be backpropagated from, and no
other gradient is lost. -/
theorem C131_angular_distance {s : St} (w : WF s) {q1 q2 : ℕ} (ha : Args s [q1, q2]) :
    Outcome (AG.quaternionAngularDistance q1 q2) s (SafeAt s [q1, q2]) := by
  have h1 := ha.good w q1 (by simp)
  have h2 := ha.good w q2 (by simp)
  obtain ⟨p, s1, L1, V1, Q1, e, i, ml1, mv1, mq1, nl1, nv1, dq1, dr1⟩ := (Inv.init w).mul' q1 q2 (by mem) (by mem)
  refine .bind e ?_
  obtain ⟨c, s2, L2, V2, Q2, e, i, ml2, mv2, mq2, nl2, nv2, dq2⟩ := i.push' [p] [] (by mems) (by mems)
  refine .bind e ?_
  obtain ⟨th, s3, L3, V3, W3, Q3, e, i, ml3, mv3, mq3, mw3, nl3, nw3, dq3⟩ := i.push_w' [c] [c] (by mems) (by mems)
  refine .bind e ?_
  obtain ⟨s4, Q4, e, i, mq4, dq4⟩ := i.write' th [] (by mem) (by mem) (by mems)
  refine .bind e (.pure ?_)
  refine safeAt_of_inv w ha i (by mem) ?_ ?_ ?_
  · mems
  · intro u hu; mem
  · intro u hu; mem

example : Outcome (AG.quaternionAngularDistance 0 2) demo (SafeAt demo [0, 2]) := C131_angular_distance demo_wf (demo_args (by simp))

/-- **C131**: so can `acos_linear_extrapolation`. -/
theorem C131_acos {s : St} (w : WF s) {x : ℕ} (ha : Args s [x]) : Outcome (AG.acosLinearExtrapolation x) s (SafeAt s [x]) := by
  have h1 := ha.good w x (by simp)
  obtain ⟨y, s5, L5, V5, W5, Q5, e, i, ml5, mv5, mq5, mw5, nl5, nw5, dq5⟩ := (Inv.init w).push_w' [] [] (by mems) (by mems)
  refine .bind e ?_
  obtain ⟨xm, s6, L6, V6, Q6, e, i, ml6, mv6, mq6, nl6, nv6, dq6⟩ := i.push' [x] [] (by mems) (by mems)
  refine .bind e ?_
  obtain ⟨ym, s7, L7, V7, Q7, e, i, ml7, mv7, mq7, nl7, nv7, dq7⟩ := i.push' [xm] [xm] (by mems) (by mems)
  refine .bind e ?_
  obtain ⟨s8, Q8, e, i, mq8, dq8⟩ := i.write' y [ym] (by mem) (by mem) (by mems)
  refine .bind e ?_
  obtain ⟨xu, s9, L9, V9, Q9, e, i, ml9, mv9, mq9, nl9, nv9, dq9⟩ := i.push' [x] [] (by mems) (by mems)
  refine .bind e ?_
  obtain ⟨yu, s10, L10, V10, Q10, e, i, ml10, mv10, mq10, nl10, nv10, dq10⟩ := i.push' [xu] [] (by mems) (by mems)
  refine .bind e ?_
  obtain ⟨s11, Q11, e, i, mq11, dq11⟩ := i.write' y [yu] (by mem) (by mem) (by mems)
  refine .bind e ?_
  obtain ⟨xl, s12, L12, V12, Q12, e, i, ml12, mv12, mq12, nl12, nv12, dq12⟩ := i.push' [x] [] (by mems) (by mems)
  refine .bind e ?_
  obtain ⟨yl, s13, L13, V13, Q13, e, i, ml13, mv13, mq13, nl13, nv13, dq13⟩ := i.push' [xl] [] (by mems) (by mems)
  refine .bind e ?_
  obtain ⟨s14, Q14, e, i, mq14, dq14⟩ := i.write' y [yl] (by mem) (by mem) (by mems)
  refine .bind e (.pure ?_)
  refine safeAt_of_inv w ha i (by mem) ?_ ?_ ?_
  · mems
  · intro u hu; mem
  · intro u hu; mem

example : Outcome (AG.acosLinearExtrapolation 2) demo (SafeAt demo [2]) := C131_acos demo_wf (demo_args (by simp))

/-- filling a matrix keeps everything in order -/
theorem fillMatrix_inv {s : St} {L V W Q : Set ℕ} (i : Inv s L V W Q) {m : ℕ} (hm : m ∈ W) (hmL : m ∈ L) (parts : List (Bool × ℕ))
    (hp : ∀ p ∈ parts, p.2 ∈ V) :
    Outcome (AG.fillMatrix parts m) s fun _ s' => ∃ L' V' Q', Inv s' L' V' W Q' ∧ L ⊆ L' ∧ Q ⊆ Q' ∧ ((∃ p ∈ parts, p.2 ∈ Q) → m ∈ Q') := by
  induction parts generalizing s L V Q with
  | nil => exact .pure ⟨L, V, Q, i, le_rfl, le_rfl, by simp⟩
  | cons p parts ih =>
    obtain ⟨b, a⟩ := p
    have haV : a ∈ V := hp (b, a) (by simp)
    have step : ∃ t s', t ∉ L ∧ AG.fillPart b a s = .ok (t, s') ∧
        ∃ V', V ⊆ V' ∧ Inv s' (insert t L) V' W (Q ∪ {u | u = t ∧ a ∈ Q}) := by
      cases b with
      | true =>
        obtain ⟨t, s', h1, h2, h3⟩ := i.view (i.vl haV)
        exact ⟨t, s', h1, h2, _, Set.subset_union_left, h3⟩
      | false =>
        obtain ⟨t, s', h1, h2, h3⟩ := i.push (ins := [a]) (saves := [a]) (by simpa using i.vl haV) (by simpa using haV)
        exact ⟨t, s', h1, h2, _, Set.subset_insert _ _, by simpa using h3⟩
    obtain ⟨t, s1, -, e, V1, hV, i1⟩ := step
    refine .bind e ?_
    obtain ⟨s2, e, i2⟩ := i1.write (t := m) (ins := [t]) hm (by simp)
    refine .bind e ?_
    obtain ⟨_, s3, e, L', V', Q', i3, hL', hQ', hq'⟩ := ih i2 (.inr hmL) fun p hp' => hV (hp p (by simp [hp']))
    refine ⟨_, s3, e, L', V', Q', i3, (Set.subset_insert _ _).trans hL', fun u hu => hQ' (.inl (.inl hu)), ?_⟩
    rintro ⟨p, hp', hpq⟩
    rcases List.mem_cons.1 hp' with rfl | hp'
    · exact hQ' (.inr ⟨rfl, .inr hmL, t, by simp, .inr ⟨rfl, hpq⟩⟩)
    · exact hq' ⟨p, hp', .inl (.inl hpq)⟩

/-- **C131**: so can `hat`, `se3_9d_to_matrix44`, `pos_rot_to_matrix`, the joint matrices and the constructors of `Translate`, `Scale` and
`Rotate`, which fill a new matrix from parts of their arguments. -/
theorem C131_fill_matrix {s : St} (w : WF s) (parts : List (Bool × ℕ)) (ha : Args s (parts.map (·.2))) :
    Outcome (AG.matrixFrom parts) s (SafeAt s (parts.map (·.2))) := by
  obtain ⟨m, s15, L15, V15, W15, Q15, e, i, ml15, mv15, mq15, mw15, nl15, nw15, dq15⟩ := (Inv.init w).push_w' [] [] (by mems) (by mems)
  refine .bind e ?_
  obtain ⟨_, s2, e, L', V', Q', i2, hL, hQ, hq⟩ := fillMatrix_inv i (m := m) (by mem) (by mem) parts fun p hp =>
    mv15 (ha.good w p.2 (List.mem_map.2 ⟨p, hp, rfl⟩))
  refine .bind e (.pure ?_)
  refine safeAt_of_inv w ha i2 (hL (by mem)) ?_ (fun u hu => hL (ml15 hu)) (fun u hu => hQ (mq15 hu))
  intro a hm hr
  obtain ⟨p, hp, rfl⟩ := List.mem_map.1 hm
  exact hq ⟨p, hp, mq15 hr⟩

/-- `pos_rot_to_matrix` with a position that requires gradients and a constant orientation -/
example : Outcome (AG.matrixFrom [(true, 0), (false, 1)]) demo (SafeAt demo [0, 1]) := C131_fill_matrix demo_wf _ (demo_args (by simp))

/-- **C131**: so can the inverse of a transform. -/
theorem C131_inverse {s : St} (w : WF s) {T : ℕ} (ha : Args s [T]) : Outcome (AG.invertMatrix T) s (SafeAt s [T]) := by
  have h1 := ha.good w T (by simp)
  obtain ⟨Ti, s16, L16, V16, W16, Q16, e, i, ml16, mv16, mq16, mw16, nl16, nw16, dq16⟩ := (Inv.init w).push_w' [T] [] (by mems) (by mems)
  refine .bind e ?_
  obtain ⟨R, s17, L17, V17, Q17, e, i, ml17, mv17, mq17, nl17, nv17, dq17⟩ := i.view' T (by mem)
  refine .bind e ?_
  obtain ⟨t, s18, L18, V18, Q18, e, i, ml18, mv18, mq18, nl18, nv18, dq18⟩ := i.view' T (by mem)
  refine .bind e ?_
  obtain ⟨s19, Q19, e, i, mq19, dq19⟩ := i.write' Ti [R] (by mem) (by mem) (by mems)
  refine .bind e ?_
  obtain ⟨Ri, s20, L20, V20, Q20, e, i, ml20, mv20, mq20, nl20, nv20, dq20⟩ := i.view' Ti (by mem)
  refine .bind e ?_
  obtain ⟨n, s21, L21, V21, Q21, e, i, ml21, mv21, mq21, nl21, nv21, dq21⟩ := i.push' [Ri] [] (by mems) (by mems)
  refine .bind e ?_
  obtain ⟨nt, s22, L22, V22, Q22, e, i, ml22, mv22, mq22, nl22, nv22, dq22, dr22⟩ := i.mul' n t (by mem) (by mem)
  refine .bind e ?_
  obtain ⟨s23, Q23, e, i, mq23, dq23⟩ := i.write' Ti [nt] (by mem) (by mem) (by mems)
  refine .bind e (.pure ?_)
  refine safeAt_of_inv w ha i (by mem) ?_ ?_ ?_
  · mems
  · intro u hu; mem
  · intro u hu; mem

example : Outcome (AG.invertMatrix 2) demo (SafeAt demo [2]) := C131_inverse demo_wf (demo_args (by simp))

/-- the levels of `_fk_impl` keep everything in order -/
theorem fkLevels_inv {Tw loc : ℕ} (d : ℕ) : ∀ {s : St} {L V W Q : Set ℕ} (_ : Inv s L V W Q) (_ : Tw ∈ W) (_ : Tw ∈ L) (_ : loc ∈ V),
    Outcome (AG.fkLevels Tw loc d) s fun _ s' => ∃ L' V' Q', Inv s' L' V' W Q' ∧ L ⊆ L' ∧ Q ⊆ Q' := by
  induction d with
  | zero => intro s L V W Q i _ _ _; exact .pure ⟨L, V, Q, i, le_rfl, le_rfl⟩
  | succ d ih =>
    intro s L V W Q i hW hL hV
    have hlL := i.vl hV
    obtain ⟨p, s24, L24, V24, Q24, e, i, ml24, mv24, mq24, nl24, nv24, dq24⟩ := i.push' [Tw] [] (by mems) (by mems)
    refine .bind e ?_
    obtain ⟨l, s25, L25, V25, Q25, e, i, ml25, mv25, mq25, nl25, nv25, dq25⟩ := i.push' [loc] [] (by mems) (by mems)
    refine .bind e ?_
    obtain ⟨m, s26, L26, V26, Q26, e, i, ml26, mv26, mq26, nl26, nv26, dq26, dr26⟩ := i.mul' p l (by mem) (by mem)
    refine .bind e ?_
    obtain ⟨s27, Q27, e, i, mq27, dq27⟩ := i.write' Tw [m] (by mem) (by mem) (by mems)
    refine .bind e ?_
    obtain ⟨_, s3, e, L', V', Q', i3, hL', hQ'⟩ := ih i hW (by mem) (by mem)
    refine ⟨_, s3, e, L', V', Q', i3, fun u hu => hL' (by mem), fun u hu => hQ' (by mem)⟩

/-- **C131**: so can forward kinematics without the hand-written backward pass (as when the offsets of the links, not the joint values, require
gradients), for a robot with any number of levels. -/
theorem C131_fk {s : St} (w : WF s) {th off axes : ℕ} (levels : ℕ) (ha : Args s [th, off, axes]) :
    Outcome (AG.fkImpl th off axes levels) s (SafeAt s [th, off, axes]) := by
  have h1 := ha.good w th (by simp)
  have h2 := ha.good w off (by simp)
  have h3 := ha.good w axes (by simp)
  obtain ⟨j, s28, L28, V28, Q28, e, i, ml28, mv28, mq28, nl28, nv28, dq28⟩ := (Inv.init w).push' [axes, th] [axes, th] (by mems) (by mems)
  refine .bind e ?_
  obtain ⟨loc, s29, L29, V29, Q29, e, i, ml29, mv29, mq29, nl29, nv29, dq29, dr29⟩ := i.mul' off j (by mem) (by mem)
  refine .bind e ?_
  obtain ⟨Tw, s30, L30, V30, W30, Q30, e, i, ml30, mv30, mq30, mw30, nl30, nw30, dq30⟩ := i.push_w' [] [] (by mems) (by mems)
  refine .bind e ?_
  obtain ⟨l0, s31, L31, V31, Q31, e, i, ml31, mv31, mq31, nl31, nv31, dq31⟩ := i.push' [loc] [] (by mems) (by mems)
  refine .bind e ?_
  obtain ⟨s32, Q32, e, i, mq32, dq32⟩ := i.write' Tw [l0] (by mem) (by mem) (by mems)
  refine .bind e ?_
  obtain ⟨_, s3, e, L', V', Q', i3, hL', hQ'⟩ := fkLevels_inv (Tw := Tw) (loc := loc) levels i (by mem) (by mem) (by mem)
  refine .bind e (.pure ?_)
  refine safeAt_of_inv w ha i3 (hL' (by mem)) ?_ ?_ ?_
  · mems
  · intro u hu; apply hL'; mem
  · intro u hu; apply hQ'; mem

/-- offsets that require gradients, a robot with eight levels -/
example : Outcome (AG.fkImpl 1 0 3 7) demo (SafeAt demo [1, 0, 3]) := C131_fk demo_wf 7 (demo_args (by simp))

/-- **C131**: so can the Jacobian with a tool. -/
theorem C131_jacobian_tool {s : St} (w : WF s) {J all tool : ℕ} (ha : Args s [J, all, tool]) :
    Outcome (AG.jacobianTool J all tool) s (SafeAt s [J, all, tool]) := by
  have h1 := ha.good w J (by simp)
  have h2 := ha.good w all (by simp)
  have h3 := ha.good w tool (by simp)
  obtain ⟨Te, s33, L33, V33, Q33, e, i, ml33, mv33, mq33, nl33, nv33, dq33⟩ := (Inv.init w).push' [all] [] (by mems) (by mems)
  refine .bind e ?_
  obtain ⟨Tt, s34, L34, V34, Q34, e, i, ml34, mv34, mq34, nl34, nv34, dq34, dr34⟩ := i.mul' Te tool (by mem) (by mem)
  refine .bind e ?_
  obtain ⟨dp, s35, L35, V35, Q35, e, i, ml35, mv35, mq35, nl35, nv35, dq35⟩ := i.push' [Tt, Te] [] (by mems) (by mems)
  refine .bind e ?_
  obtain ⟨Td, s36, L36, V36, Q36, e, i, ml36, mv36, mq36, nl36, nv36, dq36⟩ := i.push' [all] [] (by mems) (by mems)
  refine .bind e ?_
  obtain ⟨z, s37, L37, V37, Q37, e, i, ml37, mv37, mq37, nl37, nv37, dq37⟩ := i.push' [Td] [] (by mems) (by mems)
  refine .bind e ?_
  obtain ⟨cor, s38, L38, V38, Q38, e, i, ml38, mv38, mq38, nl38, nv38, dq38, dr38⟩ := i.mul' z dp (by mem) (by mem)
  refine .bind e ?_
  obtain ⟨cor', s39, L39, V39, Q39, e, i, ml39, mv39, mq39, nl39, nv39, dq39⟩ := i.push' [cor] [] (by mems) (by mems)
  refine .bind e ?_
  obtain ⟨J', s40, L40, V40, W40, Q40, e, i, ml40, mv40, mq40, mw40, nl40, nw40, dq40⟩ := i.push_w' [J] [] (by mems) (by mems)
  refine .bind e ?_
  obtain ⟨Jv, s41, L41, V41, Q41, e, i, ml41, mv41, mq41, nl41, nv41, dq41⟩ := i.view' J' (by mem)
  refine .bind e ?_
  obtain ⟨sum, s42, L42, V42, Q42, e, i, ml42, mv42, mq42, nl42, nv42, dq42⟩ := i.push' [Jv, cor'] [] (by mems) (by mems)
  refine .bind e ?_
  obtain ⟨s43, Q43, e, i, mq43, dq43⟩ := i.write' J' [sum] (by mem) (by mem) (by mems)
  refine .bind e (.pure ?_)
  refine safeAt_of_inv w ha i (by mem) ?_ ?_ ?_
  · mems
  · intro u hu; mem
  · intro u hu; mem

example : Outcome (AG.jacobianTool 2 2 0) demo (SafeAt demo [2, 2, 0]) := C131_jacobian_tool demo_wf (demo_args (by simp))

/-- drawing or using the axis keeps everything in order, if an axis that translations are made perpendicular to requires no gradient -/
theorem pickAxis_inv {s : St} {L V W Q : Set ℕ} (i : Inv s L V W Q) {dt : ℕ} (hW : dt ∈ W) (hL : dt ∈ L) (ax : Option ℕ) (perp : Bool)
    (ha : ∀ a ∈ ax, a ∈ V ∧ a < s.nt ∧ (perp = true → (s.tens a).req = false)) :
    Outcome (AG.pickAxis dt ax perp) s fun a s' => ∃ L' V' Q', Inv s' L' V' W Q' ∧ (∀ ⦃u⦄, u ∈ L → u ∈ L') ∧ (∀ ⦃u⦄, u ∈ V → u ∈ V') ∧ (∀ ⦃u⦄, u ∈ Q → u ∈ Q') ∧
      a ∈ V' ∧ a ∈ L' ∧ ∀ b ∈ ax, a = b := by
  cases ax with
  | none =>
    obtain ⟨r, s101, L101, V101, Q101, e101, i, ml101, mv101, mq101, nl101, nv101, dq101⟩ := i.push' [] [] (by mems) (by mems)
    refine .bind e101 ?_
    obtain ⟨a, s102, L102, V102, Q102, e102, i, ml102, mv102, mq102, nl102, nv102, dq102⟩ := i.push' [r] [r] (by mems) (by mems)
    refine .last e102 ?_
    exact ⟨L102, V102, Q102, i, fun u hu => by mem, fun u hu => by mem, fun u hu => by mem, by mem, by mem, by simp⟩
  | some a =>
    obtain ⟨haV, hlt, hr⟩ := ha a rfl
    have haL := i.vl haV
    cases perp with
    | false => exact .bind (s' := s) rfl (.pure ⟨L, V, Q, i, fun _ h => h, fun _ h => h, fun _ h => h, haV, haL, by simp⟩)
    | true =>
      have hr0 := hr rfl
      have key : Outcome (AG.makePerpendicular dt a true) s fun _ s' => ∃ L' V' Q', Inv s' L' V' W Q' ∧ (∀ ⦃u⦄, u ∈ L → u ∈ L') ∧ (∀ ⦃u⦄, u ∈ V → u ∈ V') ∧
          (∀ ⦃u⦄, u ∈ Q → u ∈ Q') := by
        obtain ⟨p, s103, L103, V103, Q103, e103, i, ml103, mv103, mq103, nl103, nv103, dq103, dr103⟩ := i.mul_left' dt a (by mem) (by mem) hr0
        refine .bind e103 ?_
        obtain ⟨u, s104, L104, V104, Q104, e104, i, ml104, mv104, mq104, nl104, nv104, dq104⟩ := i.push' [p] [] (by mems) (by mems)
        refine .bind e104 ?_
        obtain ⟨w, s105, L105, V105, Q105, e105, i, ml105, mv105, mq105, nl105, nv105, dq105, dr105⟩ := i.mul' u a (by mem) (by mem)
        refine .bind e105 ?_
        obtain ⟨s106, Q106, e106, i, mq106, dq106⟩ := i.write' dt [w] (by mem) (by mem) (by mems)
        exact .last e106 ⟨L105, V105, Q106, i, fun u hu => by mem, fun u hu => by mem, fun u hu => by mem⟩
      obtain ⟨_, s', e, L', V', Q', i, h1, h2, h3⟩ := key
      exact .bind e (.pure ⟨L', V', Q', i, h1, h2, h3, h2 haV, h1 haL, by simp⟩)

/-- **C131**: `sample_perturbations` can be called with a transform and standard deviations that require gradients, and with an axis that
requires gradients if the translations need not be perpendicular to it. Missing: an axis that requires gradients otherwise, see
`C131_fails_perturbation_axis`. -/
theorem C131_perturbations_partial {s : St} (w : WF s) {T rs ts : ℕ} (ax : Option ℕ) (perp : Bool) (ha : Args s ([T, rs, ts] ++ ax.toList))
    (hax : ∀ a ∈ ax, perp = true → (s.tens a).req = false) :
    Outcome (AG.samplePerturbations T rs ts ax perp) s (SafeAt s ([T, rs, ts] ++ ax.toList)) := by
  have h1 := ha.good w T (by simp)
  have h2 := ha.good w rs (by simp)
  have h3 := ha.good w ts (by simp)
  have h4 : ∀ a ∈ ax, a ∈ good0 s := fun a hm => ha.good w a (by have : ax = some a := hm; subst this; simp)
  have h5 : ∀ a ∈ ax, a < s.nt := fun a hm => (ha a (by have : ax = some a := hm; subst this; simp)).1
  have i := Inv.init w
  obtain ⟨out, s107, L107, V107, W107, Q107, e107, i, ml107, mv107, mq107, mw107, nl107, nw107, dq107⟩ := i.push_w' [] [] (by mems) (by mems)
  refine .bind e107 ?_
  obtain ⟨r1, s108, L108, V108, Q108, e108, i, ml108, mv108, mq108, nl108, nv108, dq108⟩ := i.push' [] [] (by mems) (by mems)
  refine .bind e108 ?_
  obtain ⟨dt, s109, L109, V109, W109, Q109, e109, i, ml109, mv109, mq109, mw109, nl109, nw109, dq109, dr109⟩ := i.mul_w' r1 ts (by mem) (by mem)
  refine .bind e109 ?_
  obtain ⟨r2, s110, L110, V110, Q110, e110, i, ml110, mv110, mq110, nl110, nv110, dq110⟩ := i.push' [] [] (by mems) (by mems)
  refine .bind e110 ?_
  obtain ⟨theta, s111, L111, V111, Q111, e111, i, ml111, mv111, mq111, nl111, nv111, dq111, dr111⟩ := i.mul' r2 rs (by mem) (by mem)
  refine .bind e111 ?_
  have h6 : ∀ a ∈ ax, s111.tens a = s.tens a ∧ a < s111.nt := by
    intro a hm
    obtain ⟨f1, g1⟩ := push_same e107 (h5 a hm)
    obtain ⟨f2, g2⟩ := push_same e108 g1
    obtain ⟨f3, g3⟩ := mul_same e109 g2
    obtain ⟨f4, g4⟩ := push_same e110 g3
    obtain ⟨f5, g5⟩ := mul_same e111 g4
    exact ⟨by rw [f5, f4, f3, f2, f1], g5⟩
  obtain ⟨a, s', e, L', V', Q', i, ml, mv, mq, hav, hal, hab⟩ := pickAxis_inv i (dt := dt) (by mem) (by mem) ax perp fun a hm =>
    ⟨by have := h4 a hm; mem, (h6 a hm).2, fun hp => by rw [(h6 a hm).1]; exact hax a hm hp⟩
  refine .bind e ?_
  obtain ⟨R, s112, L112, V112, Q112, e112, i, ml112, mv112, mq112, nl112, nv112, dq112⟩ := i.push' [a, theta] [a, theta] (by mems) (by mems)
  refine .bind e112 ?_
  obtain ⟨TR, s113, L113, V113, Q113, e113, i, ml113, mv113, mq113, nl113, nv113, dq113⟩ := i.view' T (by mem)
  refine .bind e113 ?_
  obtain ⟨RT, s114, L114, V114, Q114, e114, i, ml114, mv114, mq114, nl114, nv114, dq114, dr114⟩ := i.mul' R TR (by mem) (by mem)
  refine .bind e114 ?_
  obtain ⟨s115, Q115, e115, i, mq115, dq115⟩ := i.write' out [RT] (by mem) (by mem) (by mems)
  refine .bind e115 ?_
  obtain ⟨Tt, s116, L116, V116, Q116, e116, i, ml116, mv116, mq116, nl116, nv116, dq116⟩ := i.view' T (by mem)
  refine .bind e116 ?_
  obtain ⟨s117, Q117, e117, i, mq117, dq117⟩ := i.write' out [Tt] (by mem) (by mem) (by mems)
  refine .bind e117 ?_
  obtain ⟨s118, Q118, e118, i, mq118, dq118⟩ := i.write' out [dt] (by mem) (by mem) (by mems)
  refine .bind e118 (.pure ?_)
  refine safeAt_of_inv w ha i (by mem) ?_ ?_ ?_
  · intro b hb hr
    rw [List.mem_append] at hb
    rcases hb with hb | hb
    · revert hr; revert hb; revert b; mems
    · have hb' : b ∈ ax := by simpa using hb
      have hb2 : a = b := hab b hb'
      subst hb2
      mem
  · intro u hu; mem
  · intro u hu; mem

/-- a transform that requires gradients and a constant axis -/
example : Outcome (AG.samplePerturbations 2 0 3 (some 1) true) demo (SafeAt demo [2, 0, 3, 1]) :=
  C131_perturbations_partial demo_wf (some 1) true (demo_args (by simp)) (by simp [demo])

/-- **C131**: `quaternion_slerp` can be called and its result backpropagated from if `q2` is not a leaf that requires gradients and either `q1`
requires no gradients or all pairs are nearly parallel; other gradients are not lost if they do not depend on the values in `q2`. Missing:
leaves (`C131_fails_slerp_leaf`), `q1` with gradients in general (`C131_fails_slerp_backward`), other uses of `q2` (`C131_fails_slerp_other`). -/
theorem C131_slerp_partial {s : St} (w : WF s) {N : ℕ} (v1 v2 : Fin N → Quat) {q1 q2 t : ℕ} (ha : Args s [q1, q2, t])
    (hm : (s.tens q2).multi = false) (hl : (s.tens q2).req = true → (s.tens q2).fn ≠ none)
    (hk : ∀ a ∈ [q1, q2, t], ¬ Keeps s a (s.tens q2).storage) (hs : ∀ a ∈ [q1, t], (s.tens a).storage ≠ (s.tens q2).storage)
    (hr : (s.tens q1).req = false ∨ ∀ n, 1 - 1e-6 < slerpCos v1 v2 n) :
    Outcome (AG.quaternionSlerp v1 v2 q1 q2 t) s fun r s' => ((∃ a ∈ [q1, q2, t], (s.tens a).req = true) → backward r s' = .ok ()) ∧
      ∀ u < s.nt, backward u s = .ok () → ¬ Keeps s u (s.tens q2).storage → backward u s' = .ok () := by
  have l1 : q1 ∈ goodBut s (s.tens q2).storage := by unfold goodBut; exact ⟨ha.good w q1 (by simp), hk q1 (by simp)⟩
  have l2 : q2 ∈ goodBut s (s.tens q2).storage := by unfold goodBut; exact ⟨ha.good w q2 (by simp), hk q2 (by simp)⟩
  have l3 : t ∈ goodBut s (s.tens q2).storage := by unfold goodBut; exact ⟨ha.good w t (by simp), hk t (by simp)⟩
  have v1' : q1 ∈ farBut s (s.tens q2).storage := by unfold farBut; exact ⟨l1, hs q1 (by simp)⟩
  have v3' : t ∈ farBut s (s.tens q2).storage := by unfold farBut; exact ⟨l3, hs t (by simp)⟩
  have n1 := (ha q1 (by simp)).1
  have n2' := (ha q2 (by simp)).1
  have i := Inv.init_w w n2' hm hl
  have hw2 : q2 ∈ ({q2} : Set ℕ) := rfl
  have fin : ∀ {r s' L V W Q}, Inv s' L V W Q → r ∈ L → (∀ a ∈ [q1, q2, t], a ∈ reqBut s (s.tens q2).storage → r ∈ Q) →
      (∀ ⦃u⦄, u ∈ goodBut s (s.tens q2).storage → u ∈ L) → (∀ ⦃u⦄, u ∈ reqBut s (s.tens q2).storage → u ∈ Q) →
      ((∃ a ∈ [q1, q2, t], (s.tens a).req = true) → backward r s' = .ok ()) ∧
      ∀ u < s.nt, backward u s = .ok () → ¬ Keeps s u (s.tens q2).storage → backward u s' = .ok () := by
    intro r s' L V W Q j hr hd hL hQ
    refine ⟨?_, ?_⟩
    · rintro ⟨a, hm, hq⟩
      have hg : a ∈ goodBut s (s.tens q2).storage := by unfold goodBut; exact ⟨ha.good w a hm, hk a hm⟩
      exact backward_clean (j.req r (hd a hm (by unfold reqBut; exact ⟨hg, hq⟩))) (j.clean r hr)
    · intro u hu hb hn
      have hg : u ∈ goodBut s (s.tens q2).storage := by unfold goodBut good0; exact ⟨⟨hu, clean_of_backward w fun _ => hb⟩, hn⟩
      exact backward_clean (j.req u (hQ (by unfold reqBut; exact ⟨hg, backward_ok hb⟩))) (j.clean u (hL hg))
  unfold AG.quaternionSlerp
  by_cases near : ∀ n, 1 - 1e-6 < slerpCos v1 v2 n
  · simp only [if_pos near]
    obtain ⟨p, s1, -, e, i, g, gp⟩ := i.skip_mul n1 n2'
    refine .bind e ?_
    obtain ⟨c, s2, cL, e, i, g, gc⟩ := i.skip (ins := [p]) (saves := []) (by simp)
    refine .bind e ?_
    obtain ⟨i2, s3, -, e, i⟩ := i.push (ins := [q2]) (saves := []) (by simpa using l2) (by simp)
    have ne1 : c ≠ i2 := by rw [push_fresh e]; exact gc.ne
    have gc := (push_same e gc).2
    refine .bind e ?_
    obtain ⟨n2, s4, -, e, i⟩ := i.push (ins := [i2]) (saves := []) (by simp) (by simp)
    have ne2 : c ≠ n2 := by rw [push_fresh e]; exact gc.ne
    refine .bind e ?_
    obtain ⟨s5, e, i⟩ := i.write (t := q2) (ins := [n2]) (by simp) (by simp)
    refine .bind e ?_
    obtain ⟨ic, s6, -, e, i, g, gi⟩ := i.skip (ins := [c]) (saves := []) (by simp)
    refine .bind e ?_
    obtain ⟨nc, s7, -, e, i, g, gn⟩ := i.skip (ins := [ic]) (saves := []) (by simp)
    refine .bind e ?_
    obtain ⟨s8, e, i⟩ := i.write (t := c) (ins := [nc]) (by simp) (by
      intro hc
      rcases hc with hc | hc | hc
      · exact absurd hc ne2
      · exact absurd hc ne1
      · exact absurd hc cL)
    refine .bind e ?_
    obtain ⟨V', i, dv, dw⟩ := i.doneAll
    generalize hL : insert n2 (insert i2 (goodBut s (s.tens q2).storage)) = L at *
    have ml : ∀ ⦃u⦄, u ∈ goodBut s (s.tens q2).storage → u ∈ L := fun u hu => hL ▸ .inr (.inr hu)
    have mv : ∀ ⦃u⦄, u ∈ farBut s (s.tens q2).storage → u ∈ V' := fun u hu => dv (.inr (.inr hu))
    have mq2 : q2 ∈ V' := dw (by simp) (ml l2)
    generalize hQ : (((reqBut s (s.tens q2).storage ∪ _) ∪ _) ∪ _) ∪ _ = Q at *
    have mq : ∀ ⦃u⦄, u ∈ reqBut s (s.tens q2).storage → u ∈ Q := fun u hu => hQ ▸ .inl (.inl (.inl (.inl hu)))
    clear dv dw hL hQ
    obtain ⟨d, s201, L201, V201, Q201, e201, i, ml201, mv201, mq201, nl201, nv201, dq201⟩ := i.push' [q2, q1] [] (by mems) (by mems)
    refine .bind e201 ?_
    obtain ⟨e, s202, L202, V202, Q202, e202, i, ml202, mv202, mq202, nl202, nv202, dq202, dr202⟩ := i.mul' t d (by mem) (by mem)
    refine .bind e202 ?_
    obtain ⟨r, s203, L203, V203, Q203, e203, i, ml203, mv203, mq203, nl203, nv203, dq203⟩ := i.push' [q1, e] [] (by mems) (by mems)
    refine .last e203 ?_
    refine fin i (by mem) ?_ (fun u hu => by mem) (fun u hu => by mem)
    mems
  · simp only [if_neg near]
    have hr0 : (s.tens q1).req = false := hr.resolve_right near
    obtain ⟨p, s1, L1, V1, Q1, e, i, ml1, mv1, mq1, nl1, nv1, dq1, dr1⟩ := i.mul_right' q1 q2 (by mem) (by mem) hr0
    refine .bind e ?_
    obtain ⟨c, s204, L204, V204, W204, Q204, e204, i, ml204, mv204, mq204, mw204, nl204, nw204, dq204⟩ := i.push_w' [p] [] (by mems) (by mems)
    refine .bind e204 ?_
    obtain ⟨i2, s205, L205, V205, Q205, e205, i, ml205, mv205, mq205, nl205, nv205, dq205⟩ := i.push' [q2] [] (by mems) (by mems)
    refine .bind e205 ?_
    obtain ⟨n2, s206, L206, V206, Q206, e206, i, ml206, mv206, mq206, nl206, nv206, dq206⟩ := i.push' [i2] [] (by mems) (by mems)
    refine .bind e206 ?_
    obtain ⟨s207, Q207, e207, i, mq207, dq207⟩ := i.write' q2 [n2] (by mem) (by mem) (by mems)
    refine .bind e207 ?_
    obtain ⟨ic, s208, L208, V208, Q208, e208, i, ml208, mv208, mq208, nl208, nv208, dq208⟩ := i.push' [c] [] (by mems) (by mems)
    refine .bind e208 ?_
    obtain ⟨nc, s209, L209, V209, Q209, e209, i, ml209, mv209, mq209, nl209, nv209, dq209⟩ := i.push' [ic] [] (by mems) (by mems)
    refine .bind e209 ?_
    obtain ⟨s210, Q210, e210, i, mq210, dq210⟩ := i.write' c [nc] (by mem) (by mem) (by mems)
    refine .bind e210 ?_
    obtain ⟨V', i, dv, dw⟩ := i.doneAll
    have c' : c ∈ V' := dw (by mem) (by mem)
    have q2' : q2 ∈ V' := dw (by mem) (by mem)
    have t' : t ∈ V' := dv (by mem)
    have q1' : q1 ∈ V' := dv (by mem)
    clear dv dw
    obtain ⟨theta, s211, L211, V211, Q211, e211, i, ml211, mv211, mq211, nl211, nv211, dq211⟩ := i.push' [c] [c] (by mems) (by mems)
    refine .bind e211 ?_
    obtain ⟨w1, s212, L212, V212, Q212, e212, i, ml212, mv212, mq212, nl212, nv212, dq212⟩ := i.push' [t, theta] [t, theta] (by mems) (by mems)
    refine .bind e212 ?_
    obtain ⟨w2, s213, L213, V213, Q213, e213, i, ml213, mv213, mq213, nl213, nv213, dq213⟩ := i.push' [t, theta] [t, theta] (by mems) (by mems)
    refine .bind e213 ?_
    obtain ⟨a, s214, L214, V214, Q214, e214, i, ml214, mv214, mq214, nl214, nv214, dq214, dr214⟩ := i.mul' w1 q1 (by mem) (by mem)
    refine .bind e214 ?_
    obtain ⟨b, s215, L215, V215, Q215, e215, i, ml215, mv215, mq215, nl215, nv215, dq215, dr215⟩ := i.mul' w2 q2 (by mem) (by mem)
    refine .bind e215 ?_
    obtain ⟨r, s216, L216, V216, Q216, e216, i, ml216, mv216, mq216, nl216, nv216, dq216⟩ := i.push' [a, b] [] (by mems) (by mems)
    refine .last e216 ?_
    refine fin i (by mem) ?_ (fun u hu => by mem) (fun u hu => by mem)
    mems

/-- a constant `q1`, a `q2` computed from a leaf, a quarter turn apart -/
example : Outcome (AG.quaternionSlerp (N := 1) (fun _ => ⟨1, 0, 0, 0⟩) (fun _ => ⟨0, 1, 0, 0⟩) 1 2 3) demo fun r s' => backward r s' = .ok () := by
  obtain ⟨r, s', e, h, -⟩ := C131_slerp_partial demo_wf (N := 1) (fun _ => ⟨1, 0, 0, 0⟩) (fun _ => ⟨0, 1, 0, 0⟩) (q1 := 1) (q2 := 2) (t := 3) (demo_args (by simp)) (by simp [demo])
    (by simp [demo]) (by
      rintro a - ⟨m, hm, p, hp, e⟩
      obtain ⟨-, rfl⟩ := demo_inGraph hm
      have : p = (0, 5) := by simpa [demo] using hp
      subst this
      simp [demo] at e) (by simp [demo]) (.inl (by simp [demo]))
  exact ⟨r, s', e, h ⟨2, by simp, by simp [demo]⟩⟩

/-- **C131** is violated by `quaternion_slerp`: if `q2` is a leaf that requires gradients, the call raises RuntimeError. -/
theorem C131_fails_slerp_leaf {s : St} {N : ℕ} (v1 v2 : Fin N → Quat) {q1 q2 t : ℕ} (h2 : q2 < s.nt) (hr : (s.tens q2).req = true)
    (hl : (s.tens q2).fn = none) : AG.quaternionSlerp v1 v2 q1 q2 t s = .error .runtimeError := by
  unfold AG.quaternionSlerp
  obtain ⟨p, s1, e, f1⟩ := mul_ex q1 q2 s
  rw [bind_run e]
  obtain ⟨f1, g1⟩ := f1 q2 h2
  obtain ⟨c, s2, e, f2⟩ := push_ex [p] [] s1
  rw [bind_run e]
  obtain ⟨f2, g2⟩ := f2 q2 g1
  obtain ⟨i2, s3, e, f3⟩ := push_ex [q2] [] s2
  rw [bind_run e]
  obtain ⟨f3, g3⟩ := f3 q2 g2
  obtain ⟨n2, s4, e, f4⟩ := push_ex [i2] [] s3
  rw [bind_run e]
  obtain ⟨f4, g4⟩ := f4 q2 g3
  have h : s4.tens q2 = s.tens q2 := by rw [f4, f3, f2, f1]
  exact bind_err (inplace_err (by rw [h]; exact hr) (.inr (by rw [h]; exact hl)))

example : AG.quaternionSlerp (N := 1) (fun _ => ⟨1, 0, 0, 0⟩) (fun _ => ⟨1, 0, 0, 0⟩) 1 0 3 demo = .error .runtimeError :=
  C131_fails_slerp_leaf _ _ (by simp [demo]) (by simp [demo]) (by simp [demo])

/-- **C131** is violated by `quaternion_slerp`: if `q1` requires gradients and some pair is not nearly parallel, the call succeeds and
backpropagation from its result raises RuntimeError, because the product `q1 * q2` needs the values of `q2` from before the write to it. -/
theorem C131_fails_slerp_backward {s : St} (w : WF s) {N : ℕ} (v1 v2 : Fin N → Quat) {q1 q2 t : ℕ} (h1 : q1 < s.nt) (h2 : q2 < s.nt) (h3 : t < s.nt)
    (hr : (s.tens q1).req = true) (hm : (s.tens q2).multi = false) (hl : (s.tens q2).req = true → (s.tens q2).fn ≠ none)
    (far : ∃ n, slerpCos v1 v2 n ≤ 1 - 1e-6) :
    Outcome (AG.quaternionSlerp v1 v2 q1 q2 t) s fun r s' => backward r s' = .error .runtimeError := by
  have i := Bad.init w q2 h2 hm hl
  have l1 : q1 ∈ {u | u < s.nt} := h1
  have l2 : q2 ∈ {u | u < s.nt} := h2
  have l3 : t ∈ {u | u < s.nt} := h3
  have hq : q1 ∈ {u | u < s.nt ∧ (s.tens u).req = true} := ⟨h1, hr⟩
  have hw2 : q2 ∈ ({q2} : Set ℕ) := rfl
  generalize {u | u < s.nt ∧ (s.tens u).req = true} = Q at *
  generalize {u | u < s.nt ∧ (s.tens u).req = false} = N at *
  generalize {u | u < s.nt} = L at *
  generalize ({q2} : Set ℕ) = W at *
  generalize (∅ : Set ℕ) = E at *
  unfold AG.quaternionSlerp
  have near : ¬ ∀ n, 1 - 1e-6 < slerpCos v1 v2 n := by push Not; exact far
  simp only [if_neg near]
  obtain ⟨p, s301, L301, W301, Q301, P301, K301, T301, N301, e301, i, ml301, mw301, mq301, mp301, mk301, mt301, mn301, nl301, nw301, dq301, dr301, dk301, dl301, dt301, du301, da301, db301⟩ := i.mul' q1 q2 (by mem) (by mem)
  refine .bind e301 ?_
  obtain ⟨c, s302, L302, W302, Q302, P302, K302, T302, N302, e302, i, ml302, mw302, mq302, mp302, mk302, mt302, mn302, nl302, nw302, dq302, dk302, dt302, dn302⟩ := i.push' [p] [] (by mems)
  refine .bind e302 ?_
  obtain ⟨i2, s303, L303, W303, Q303, P303, K303, T303, N303, e303, i, ml303, mw303, mq303, mp303, mk303, mt303, mn303, nl303, nw303, dq303, dk303, dt303, dn303⟩ := i.push' [q2] [] (by mems)
  refine .bind e303 ?_
  obtain ⟨n2, s304, L304, W304, Q304, P304, K304, T304, N304, e304, i, ml304, mw304, mq304, mp304, mk304, mt304, mn304, nl304, nw304, dq304, dk304, dt304, dn304⟩ := i.push' [i2] [] (by mems)
  refine .bind e304 ?_
  obtain ⟨s305, Q305, T305, e305, i, mq305, mt305, dq305, dt305, dk305, dd305⟩ := i.write' q2 [n2] (by mem)
  refine .bind e305 ?_
  have tc : c ∈ T305 := dk305 (by mem) c (by mem)
  obtain ⟨ic, s306, L306, W306, Q306, P306, K306, T306, N306, e306, i, ml306, mw306, mq306, mp306, mk306, mt306, mn306, nl306, nw306, dq306, dk306, dt306, dn306⟩ := i.push' [c] [] (by mems)
  refine .bind e306 ?_
  obtain ⟨nc, s307, L307, W307, Q307, P307, K307, T307, N307, e307, i, ml307, mw307, mq307, mp307, mk307, mt307, mn307, nl307, nw307, dq307, dk307, dt307, dn307⟩ := i.push' [ic] [] (by mems)
  refine .bind e307 ?_
  obtain ⟨s308, Q308, T308, e308, i, mq308, mt308, dq308, dt308, dk308, dd308⟩ := i.write' c [nc] (by mem)
  refine .bind e308 ?_
  obtain ⟨theta, s309, L309, W309, Q309, P309, K309, T309, N309, e309, i, ml309, mw309, mq309, mp309, mk309, mt309, mn309, nl309, nw309, dq309, dk309, dt309, dn309⟩ := i.push' [c] [c] (by mems)
  refine .bind e309 ?_
  obtain ⟨w1, s310, L310, W310, Q310, P310, K310, T310, N310, e310, i, ml310, mw310, mq310, mp310, mk310, mt310, mn310, nl310, nw310, dq310, dk310, dt310, dn310⟩ := i.push' [t, theta] [t, theta] (by mems)
  refine .bind e310 ?_
  obtain ⟨w2, s311, L311, W311, Q311, P311, K311, T311, N311, e311, i, ml311, mw311, mq311, mp311, mk311, mt311, mn311, nl311, nw311, dq311, dk311, dt311, dn311⟩ := i.push' [t, theta] [t, theta] (by mems)
  refine .bind e311 ?_
  obtain ⟨a, s312, L312, W312, Q312, P312, K312, T312, N312, e312, i, ml312, mw312, mq312, mp312, mk312, mt312, mn312, nl312, nw312, dq312, dr312, dk312, dl312, dt312, du312, da312, db312⟩ := i.mul' w1 q1 (by mem) (by mem)
  refine .bind e312 ?_
  obtain ⟨b, s313, L313, W313, Q313, P313, K313, T313, N313, e313, i, ml313, mw313, mq313, mp313, mk313, mt313, mn313, nl313, nw313, dq313, dr313, dk313, dl313, dt313, du313, da313, db313⟩ := i.mul' w2 q2 (by mem) (by mem)
  refine .bind e313 ?_
  obtain ⟨r, s314, L314, W314, Q314, P314, K314, T314, N314, e314, i, ml314, mw314, mq314, mp314, mk314, mt314, mn314, nl314, nw314, dq314, dk314, dt314, dn314⟩ := i.push' [a, b] [] (by mems)
  refine .last e314 ?_
  exact backward_taint (i.taint r (by mem))

/-- `q1` a leaf that requires gradients, `q2` a constant -/
example : Outcome (AG.quaternionSlerp (N := 1) (fun _ => ⟨1, 0, 0, 0⟩) (fun _ => ⟨0, 1, 0, 0⟩) 0 1 3) demo fun r s' => backward r s' = .error .runtimeError :=
  C131_fails_slerp_backward demo_wf _ _ (by simp [demo]) (by simp [demo]) (by simp [demo]) (by simp [demo]) (by simp [demo]) (by simp [demo])
    ⟨0, by norm_num [slerpCos, qdot]⟩

/-- **C131** is violated by `quaternion_slerp`: a gradient that needs the values in `q2`, such as that of `x * q2` computed before with respect to `x`,
is lost by every call with `q2`, also if no quaternion is negated. -/
theorem C131_fails_slerp_other {s : St} (w : WF s) {N : ℕ} (v1 v2 : Fin N → Quat) {x q1 q2 t : ℕ} (h0 : x < s.nt) (h1 : q1 < s.nt) (h2 : q2 < s.nt) (h3 : t < s.nt)
    (hr : (s.tens x).req = true) (hm : (s.tens q2).multi = false) (hl : (s.tens q2).req = true → (s.tens q2).fn ≠ none) :
    Outcome (do let y ← AG.mul x q2; let _ ← AG.quaternionSlerp v1 v2 q1 q2 t; pure y) s fun y s' => backward y s' = .error .runtimeError := by
  have i := Bad.init w q2 h2 hm hl
  have l1 : q1 ∈ {u | u < s.nt} := h1
  have l2 : q2 ∈ {u | u < s.nt} := h2
  have l3 : t ∈ {u | u < s.nt} := h3
  have l4 : x ∈ {u | u < s.nt} := h0
  have hq : x ∈ {u | u < s.nt ∧ (s.tens u).req = true} := ⟨h0, hr⟩
  have hw2 : q2 ∈ ({q2} : Set ℕ) := rfl
  generalize {u | u < s.nt ∧ (s.tens u).req = true} = Q at *
  generalize {u | u < s.nt ∧ (s.tens u).req = false} = N at *
  generalize {u | u < s.nt} = L at *
  generalize ({q2} : Set ℕ) = W at *
  generalize (∅ : Set ℕ) = E at *
  obtain ⟨y, s315, L315, W315, Q315, P315, K315, T315, N315, e315, i, ml315, mw315, mq315, mp315, mk315, mt315, mn315, nl315, nw315, dq315, dr315, dk315, dl315, dt315, du315, da315, db315⟩ := i.mul' x q2 (by mem) (by mem)
  refine .bind e315 ?_
  have key : Outcome (AG.quaternionSlerp v1 v2 q1 q2 t) s315 fun _ s' => Taint s' y := by
    unfold AG.quaternionSlerp
    obtain ⟨p, s316, L316, W316, Q316, P316, K316, T316, N316, e316, i, ml316, mw316, mq316, mp316, mk316, mt316, mn316, nl316, nw316, dq316, dr316, dk316, dl316, dt316, du316, da316, db316⟩ := i.mul' q1 q2 (by mem) (by mem)
    refine .bind e316 ?_
    obtain ⟨c, s317, L317, W317, Q317, P317, K317, T317, N317, e317, i, ml317, mw317, mq317, mp317, mk317, mt317, mn317, nl317, nw317, dq317, dk317, dt317, dn317⟩ := i.push' [p] [] (by mems)
    refine .bind e317 ?_
    obtain ⟨i2, s318, L318, W318, Q318, P318, K318, T318, N318, e318, i, ml318, mw318, mq318, mp318, mk318, mt318, mn318, nl318, nw318, dq318, dk318, dt318, dn318⟩ := i.push' [q2] [] (by mems)
    refine .bind e318 ?_
    obtain ⟨n2, s319, L319, W319, Q319, P319, K319, T319, N319, e319, i, ml319, mw319, mq319, mp319, mk319, mt319, mn319, nl319, nw319, dq319, dk319, dt319, dn319⟩ := i.push' [i2] [] (by mems)
    refine .bind e319 ?_
    obtain ⟨s320, Q320, T320, e320, i, mq320, mt320, dq320, dt320, dk320, dd320⟩ := i.write' q2 [n2] (by mem)
    refine .bind e320 ?_
    have ty : y ∈ T320 := dk320 (by mem) y (by mem)
    obtain ⟨ic, s321, L321, W321, Q321, P321, K321, T321, N321, e321, i, ml321, mw321, mq321, mp321, mk321, mt321, mn321, nl321, nw321, dq321, dk321, dt321, dn321⟩ := i.push' [c] [] (by mems)
    refine .bind e321 ?_
    obtain ⟨nc, s322, L322, W322, Q322, P322, K322, T322, N322, e322, i, ml322, mw322, mq322, mp322, mk322, mt322, mn322, nl322, nw322, dq322, dk322, dt322, dn322⟩ := i.push' [ic] [] (by mems)
    refine .bind e322 ?_
    obtain ⟨s323, Q323, T323, e323, i, mq323, mt323, dq323, dt323, dk323, dd323⟩ := i.write' c [nc] (by mem)
    refine .bind e323 ?_
    split_ifs with near
    · skip
      obtain ⟨d, s324, L324, W324, Q324, P324, K324, T324, N324, e324, i, ml324, mw324, mq324, mp324, mk324, mt324, mn324, nl324, nw324, dq324, dk324, dt324, dn324⟩ := i.push' [q2, q1] [] (by mems)
      refine .bind e324 ?_
      obtain ⟨e, s325, L325, W325, Q325, P325, K325, T325, N325, e325, i, ml325, mw325, mq325, mp325, mk325, mt325, mn325, nl325, nw325, dq325, dr325, dk325, dl325, dt325, du325, da325, db325⟩ := i.mul' t d (by mem) (by mem)
      refine .bind e325 ?_
      obtain ⟨r, s326, L326, W326, Q326, P326, K326, T326, N326, e326, i, ml326, mw326, mq326, mp326, mk326, mt326, mn326, nl326, nw326, dq326, dk326, dt326, dn326⟩ := i.push' [q1, e] [] (by mems)
      refine .last e326 ?_
      exact i.taint y (by mem)
    · skip
      obtain ⟨theta, s327, L327, W327, Q327, P327, K327, T327, N327, e327, i, ml327, mw327, mq327, mp327, mk327, mt327, mn327, nl327, nw327, dq327, dk327, dt327, dn327⟩ := i.push' [c] [c] (by mems)
      refine .bind e327 ?_
      obtain ⟨w1, s328, L328, W328, Q328, P328, K328, T328, N328, e328, i, ml328, mw328, mq328, mp328, mk328, mt328, mn328, nl328, nw328, dq328, dk328, dt328, dn328⟩ := i.push' [t, theta] [t, theta] (by mems)
      refine .bind e328 ?_
      obtain ⟨w2, s329, L329, W329, Q329, P329, K329, T329, N329, e329, i, ml329, mw329, mq329, mp329, mk329, mt329, mn329, nl329, nw329, dq329, dk329, dt329, dn329⟩ := i.push' [t, theta] [t, theta] (by mems)
      refine .bind e329 ?_
      obtain ⟨a, s330, L330, W330, Q330, P330, K330, T330, N330, e330, i, ml330, mw330, mq330, mp330, mk330, mt330, mn330, nl330, nw330, dq330, dr330, dk330, dl330, dt330, du330, da330, db330⟩ := i.mul' w1 q1 (by mem) (by mem)
      refine .bind e330 ?_
      obtain ⟨b, s331, L331, W331, Q331, P331, K331, T331, N331, e331, i, ml331, mw331, mq331, mp331, mk331, mt331, mn331, nl331, nw331, dq331, dr331, dk331, dl331, dt331, du331, da331, db331⟩ := i.mul' w2 q2 (by mem) (by mem)
      refine .bind e331 ?_
      obtain ⟨r, s332, L332, W332, Q332, P332, K332, T332, N332, e332, i, ml332, mw332, mq332, mp332, mk332, mt332, mn332, nl332, nw332, dq332, dk332, dt332, dn332⟩ := i.push' [a, b] [] (by mems)
      refine .last e332 ?_
      exact i.taint y (by mem)
  obtain ⟨_, s', e, ht⟩ := key
  exact .bind e (.pure (backward_taint ht))

example : Outcome (do let y ← AG.mul 0 1; let _ ← AG.quaternionSlerp (N := 1) (fun _ => ⟨1, 0, 0, 0⟩) (fun _ => ⟨0, 1, 0, 0⟩) 3 1 3; pure y) demo
    fun y s' => backward y s' = .error .runtimeError :=
  C131_fails_slerp_other demo_wf _ _ (by simp [demo]) (by simp [demo]) (by simp [demo]) (by simp [demo]) (by simp [demo]) (by simp [demo]) (by simp [demo])

/-- **C131** is violated by `sample_perturbations`: with an axis of rotation that requires gradients, and translations perpendicular to it as by
default, the call succeeds and backpropagation from its result raises RuntimeError, because the product of translations and axis needs the
translations from before they are changed. -/
theorem C131_fails_perturbation_axis {s : St} (w : WF s) {T rs ts ax : ℕ} (h1 : T < s.nt) (h2 : rs < s.nt) (h3 : ts < s.nt) (h4 : ax < s.nt)
    (hr : (s.tens ax).req = true) :
    Outcome (AG.samplePerturbations T rs ts (some ax) true) s fun r s' => backward r s' = .error .runtimeError := by
  have i := Bad.init' w T h1
  have l1 : T ∈ {u | u < s.nt} := h1
  have l2 : rs ∈ {u | u < s.nt} := h2
  have l3 : ts ∈ {u | u < s.nt} := h3
  have l4 : ax ∈ {u | u < s.nt} := h4
  have hq : ax ∈ {u | u < s.nt ∧ (s.tens u).req = true} := ⟨h4, hr⟩
  generalize {u | u < s.nt ∧ (s.tens u).req = true} = Q at *
  generalize {u | u < s.nt ∧ (s.tens u).req = false} = N at *
  generalize {u | u < s.nt} = L at *
  generalize (∅ : Set ℕ) = E at *
  generalize ({T} : Set ℕ) = P at *
  obtain ⟨out, s333, L333, W333, Q333, P333, K333, T333, N333, e333, i, ml333, mw333, mq333, mp333, mk333, mt333, mn333, nl333, nw333, dq333, dk333, dt333, dn333⟩ := i.push' [] [] (by mems)
  refine .bind e333 ?_
  obtain ⟨r1, s334, L334, W334, Q334, P334, K334, T334, N334, e334, i, ml334, mw334, mq334, mp334, mk334, mt334, mn334, nl334, nw334, dq334, dk334, dt334, dn334⟩ := i.push' [] [] (by mems)
  refine .bind e334 ?_
  obtain ⟨dt, s335, L335, W335, Q335, P335, K335, T335, N335, e335, i, ml335, mw335, mq335, mp335, mk335, mt335, mn335, nl335, nw335, dq335, dr335, dk335, dl335, dt335, du335, da335, db335⟩ := i.mul' r1 ts (by mem) (by mem)
  refine .bind e335 ?_
  obtain ⟨r2, s336, L336, W336, Q336, P336, K336, T336, N336, e336, i, ml336, mw336, mq336, mp336, mk336, mt336, mn336, nl336, nw336, dq336, dk336, dt336, dn336⟩ := i.push' [] [] (by mems)
  refine .bind e336 ?_
  obtain ⟨theta, s337, L337, W337, Q337, P337, K337, T337, N337, e337, i, ml337, mw337, mq337, mp337, mk337, mt337, mn337, nl337, nw337, dq337, dr337, dk337, dl337, dt337, du337, da337, db337⟩ := i.mul' r2 rs (by mem) (by mem)
  refine .bind e337 ?_
  have i := i.restart (t := dt) (by mem)
  have hp : dt ∈ ({dt} : Set ℕ) := rfl
  generalize (∅ : Set ℕ) = E' at *
  generalize ({dt} : Set ℕ) = P' at *
  have key : ∃ s' L' W' Q' P' K' T' N', AG.pickAxis dt (some ax) true s337 = .ok (ax, s') ∧ Bad s' (s337.tens dt).storage L' W' Q' P' K' T' N' ∧
      Sub L337 L' ∧ Sub W337 W' ∧ dt ∈ T' := by
    obtain ⟨p, s338, L338, W338, Q338, P338, K338, T338, N338, e338, i, ml338, mw338, mq338, mp338, mk338, mt338, mn338, nl338, nw338, dq338, dr338, dk338, dl338, dt338, du338, da338, db338⟩ := i.mul' dt ax (by mem) (by mem)
    obtain ⟨u, s339, L339, W339, Q339, P339, K339, T339, N339, e339, i, ml339, mw339, mq339, mp339, mk339, mt339, mn339, nl339, nw339, dq339, dk339, dt339, dn339⟩ := i.push' [p] [] (by mems)
    obtain ⟨w, s340, L340, W340, Q340, P340, K340, T340, N340, e340, i, ml340, mw340, mq340, mp340, mk340, mt340, mn340, nl340, nw340, dq340, dr340, dk340, dl340, dt340, du340, da340, db340⟩ := i.mul' u ax (by mem) (by mem)
    obtain ⟨s341, Q341, T341, e341, i, mq341, mt341, dq341, dt341, dk341, dd341⟩ := i.write' dt [w] (by mem)
    refine ⟨s341, L340, W340, Q341, P340, K340, T341, ∅, ?_, i, fun u hu => by mem, fun u hu => by mem, dd341 (by mem) w (by simp) (by mem)⟩
    · show (AG.makePerpendicular dt ax true >>= fun _ => pure ax) s337 = _
      rw [bind_run (a := ()) (s' := s341) (by
        dsimp only [AG.makePerpendicular]
        rw [bind_run e338, bind_run e339, bind_run e340, e341])]
      rfl
  obtain ⟨s342, L342, W342, Q342, P342, K342, T342, N342, e342, i, ml342, mw342, td⟩ := key
  refine .bind e342 ?_
  obtain ⟨R, s343, L343, W343, Q343, P343, K343, T343, N343, e343, i, ml343, mw343, mq343, mp343, mk343, mt343, mn343, nl343, nw343, dq343, dk343, dt343, dn343⟩ := i.push' [ax, theta] [ax, theta] (by mems)
  refine .bind e343 ?_
  obtain ⟨TR, s344, L344, W344, Q344, P344, K344, T344, N344, e344, i, ml344, mw344, mq344, mp344, mk344, mt344, mn344, nl344, dq344, dk344, dt344⟩ := i.view' T (by mem)
  refine .bind e344 ?_
  obtain ⟨RT, s345, L345, W345, Q345, P345, K345, T345, N345, e345, i, ml345, mw345, mq345, mp345, mk345, mt345, mn345, nl345, nw345, dq345, dr345, dk345, dl345, dt345, du345, da345, db345⟩ := i.mul' R TR (by mem) (by mem)
  refine .bind e345 ?_
  obtain ⟨s346, Q346, T346, e346, i, mq346, mt346, dq346, dt346, dk346, dd346⟩ := i.write' out [RT] (by mem)
  refine .bind e346 ?_
  obtain ⟨Tt, s347, L347, W347, Q347, P347, K347, T347, N347, e347, i, ml347, mw347, mq347, mp347, mk347, mt347, mn347, nl347, dq347, dk347, dt347⟩ := i.view' T (by mem)
  refine .bind e347 ?_
  obtain ⟨s348, Q348, T348, e348, i, mq348, mt348, dq348, dt348, dk348, dd348⟩ := i.write' out [Tt] (by mem)
  refine .bind e348 ?_
  obtain ⟨s349, Q349, T349, e349, i, mq349, mt349, dq349, dt349, dk349, dd349⟩ := i.write' out [dt] (by mem)
  refine .bind e349 (.pure (backward_taint (i.taint out (by mem))))

example : Outcome (AG.samplePerturbations 1 3 3 (some 0) true) demo fun r s' => backward r s' = .error .runtimeError :=
  C131_fails_perturbation_axis demo_wf (by simp [demo]) (by simp [demo]) (by simp [demo]) (by simp [demo]) (by simp [demo])

/-- axes strings that are accepted -/
theorem accepts_sxyz : ∃ v q, PK.quaternionFromEuler v ['s', 'x', 'y', 'z'] = .ok q := ⟨fun _ => 0, _, rfl⟩

/-- **C131** is violated by `quaternion_from_euler`: with angles that require gradients it raises RuntimeError for every axes string it accepts,
because it divides the outputs of `torch.unbind` in place. -/
theorem C131_fails_from_euler {s : St} {rpy : ℕ} (axes : List Char) (h : rpy < s.nt) (hr : (s.tens rpy).req = true)
    (hx : ∃ v q, PK.quaternionFromEuler v axes = .ok q) : AG.quaternionFromEuler rpy axes s = .error .runtimeError := by
  obtain ⟨v, q, hx⟩ := hx
  unfold PK.quaternionFromEuler at hx
  unfold AG.quaternionFromEuler
  rcases ha : axes2tuple.lookup (axes.map Char.toLower) with _ | ⟨fa, parity, rep, frame⟩
  · rw [ha] at hx; cases hx
  · dsimp only
    obtain ⟨a0, s1, e, f1, g1, m1, r1⟩ := unbind_ex rpy s
    rw [bind_run e]
    obtain ⟨a1, s2, e, f2, g2, m2, r2⟩ := unbind_ex rpy s1
    rw [bind_run e]
    obtain ⟨a2, s3, e, f3, g3, m3, r3⟩ := unbind_ex rpy s2
    rw [bind_run e]
    obtain ⟨c1, b1⟩ := f1 rpy h
    obtain ⟨c2, b2⟩ := f2 rpy b1
    obtain ⟨d2, t2⟩ := f2 a0 g1
    obtain ⟨d3, t3⟩ := f3 a0 t2
    have q0 : (s3.tens a0).req = true ∧ (s3.tens a0).multi = true := by rw [d3, d2, r1, m1]; exact ⟨hr, rfl⟩
    have q2 : (s3.tens a2).req = true ∧ (s3.tens a2).multi = true := by rw [r3, m3, c2, c1]; exact ⟨hr, rfl⟩
    have qi : (s3.tens (if frame ≠ 0 then a2 else a0)).req = true ∧ (s3.tens (if frame ≠ 0 then a2 else a0)).multi = true := by
      split_ifs
      · exact q2
      · exact q0
    have li : (if frame ≠ 0 then a2 else a0) < s3.nt := by
      split_ifs
      · exact g3
      · exact t3
    generalize (if frame ≠ 0 then a2 else a0) = ai at *
    obtain ⟨aj, s4, e, k4⟩ : ∃ aj s4, negIf (parity ≠ 0) a1 s3 = .ok (aj, s4) ∧ s4.tens ai = s3.tens ai := by
      unfold negIf
      split_ifs with hp
      · obtain ⟨t, s4, e, f⟩ := push_ex [a1] [] s3
        exact ⟨t, s4, e, (f ai li).1⟩
      · exact ⟨a1, s3, rfl, rfl⟩
    rw [bind_run e]
    exact bind_err (inplace_err (by rw [k4]; exact qi.1) (.inl (by rw [k4]; exact qi.2)))

example : AG.quaternionFromEuler 0 ['s', 'x', 'y', 'z'] demo = .error .runtimeError :=
  C131_fails_from_euler _ (by simp [demo]) (by simp [demo]) accepts_sxyz

/-- the part of `quaternion_from_euler` after the lookup, for angles that require no gradients -/
theorem fromEuler_quiet {s : St} {st : ℕ} {L W Q P K T N : Set ℕ} (i : Bad s st L W Q P K T N) {rpy : ℕ} (hL : rpy ∈ L) (hP : rpy ∈ P) (hN : rpy ∈ N) (axes : List Char)
    (hx : ∃ v q, PK.quaternionFromEuler v axes = .ok q) :
    Outcome (AG.quaternionFromEuler rpy axes) s fun q s' => (s'.tens q).req = false ∧ ∀ u ∈ K, Taint s' u := by
  obtain ⟨v, q, hx⟩ := hx
  unfold PK.quaternionFromEuler at hx
  unfold AG.quaternionFromEuler
  rcases ha : axes2tuple.lookup (axes.map Char.toLower) with _ | ⟨fa, parity, rep, frame⟩
  · rw [ha] at hx; cases hx
  · dsimp only
    clear hx ha
    obtain ⟨a0, s350, L350, W350, Q350, P350, K350, T350, N350, e350, i, ml350, mw350, mq350, mp350, mk350, mt350, mn350, nl350, dp350, dn350⟩ := i.unbind' rpy (by mem)
    refine .bind e350 ?_
    obtain ⟨a1, s351, L351, W351, Q351, P351, K351, T351, N351, e351, i, ml351, mw351, mq351, mp351, mk351, mt351, mn351, nl351, dp351, dn351⟩ := i.unbind' rpy (by mem)
    refine .bind e351 ?_
    obtain ⟨a2, s352, L352, W352, Q352, P352, K352, T352, N352, e352, i, ml352, mw352, mq352, mp352, mk352, mt352, mn352, nl352, dp352, dn352⟩ := i.unbind' rpy (by mem)
    refine .bind e352 ?_
    have pi : (if frame ≠ 0 then a2 else a0) ∈ P352 ∧ (if frame ≠ 0 then a2 else a0) ∈ N352 ∧ (if frame ≠ 0 then a2 else a0) ∈ L352 := by
      split_ifs <;> exact ⟨by mem, by mem, by mem⟩
    have pk : (if frame ≠ 0 then a0 else a2) ∈ N352 ∧ (if frame ≠ 0 then a0 else a2) ∈ L352 := by
      split_ifs <;> exact ⟨by mem, by mem⟩
    generalize (if frame ≠ 0 then a2 else a0) = ai at *
    generalize (if frame ≠ 0 then a0 else a2) = ak at *
    obtain ⟨pi1, pi2, pi3⟩ := pi
    obtain ⟨pk1, pk2⟩ := pk
    obtain ⟨aj, s353, L353, W353, Q353, P353, K353, T353, N353, e353, i, ml353, mp353, mk353, mn353, nl353, nn353⟩ : ∃ aj s' L' W' Q' P' K' T' N', negIf (parity ≠ 0) a1 s352 = .ok (aj, s') ∧
        Bad s' st L' W' Q' P' K' T' N' ∧ AG.Sub L352 L' ∧ AG.Sub P352 P' ∧ AG.Sub K352 K' ∧ AG.Sub N352 N' ∧ aj ∈ L' ∧ aj ∈ N' := by
      unfold negIf
      split_ifs with hp
      · obtain ⟨aj, s', L', W', Q', P', K', T', N', e, i, ml, mw, mq, mp, mk, mt, mn, nl, nw, dq, dk, dt, dn⟩ := i.push' [a1] [] (by mems)
        exact ⟨aj, s', L', W', Q', P', K', T', N', e, i, ml, mp, mk, mn, nl, dn (by mems)⟩
      · exact ⟨a1, _, _, _, _, _, _, _, _, rfl, i, fun _ h => h, fun _ h => h, fun _ h => h, fun _ h => h, by mem, by mem⟩
    refine .bind e353 ?_
    obtain ⟨s354, Q354, T354, N354, e354, i, mq354, mt354, mn354, dk354⟩ := i.quiet' ai [] (by mem) (by mems)
    refine .bind e354 ?_
    have tk : ∀ u ∈ K, u ∈ T354 := fun u hu => dk354 (by mem) u (by mem)
    obtain ⟨s355, Q355, T355, N355, e355, i, mq355, mt355, mn355, dk355⟩ := i.quiet' aj [] (by mem) (by mems)
    refine .bind e355 ?_
    obtain ⟨s356, Q356, T356, N356, e356, i, mq356, mt356, mn356, dk356⟩ := i.quiet' ak [] (by mem) (by mems)
    refine .bind e356 ?_
    obtain ⟨e, s357, L357, W357, Q357, P357, K357, T357, N357, e357, i, ml357, mw357, mq357, mp357, mk357, mt357, mn357, nl357, nw357, dq357, dk357, dt357, dn357⟩ := i.push' [ai, aj, ak] [ai, aj, ak] (by mems)
    refine .bind e357 ?_
    have ne : e ∈ N357 := dn357 (by mems)
    obtain ⟨q, s358, L358, W358, Q358, P358, K358, T358, N358, e358, i, ml358, mw358, mq358, mp358, mk358, mt358, mn358, nl358, nw358, dq358, dk358, dt358, dn358⟩ := i.push' [] [] (by mems)
    refine .bind e358 ?_
    have nq : q ∈ N358 := dn358 (by simp)
    obtain ⟨s359, Q359, T359, N359, e359, i, mq359, mt359, mn359, dk359⟩ := i.quiet' q [e] (by mem) (by mems)
    refine .bind e359 ?_
    obtain ⟨s', T', N', e', iq, mt', mn'⟩ : ∃ s' T' N', writeIf (parity ≠ 0) q s359 = .ok ((), s') ∧ (∃ Q', Bad s' st L358 W358 Q' P358 K358 T' N') ∧
        AG.Sub T359 T' ∧ AG.Sub N359 N' := by
      unfold writeIf
      split_ifs with hp
      · obtain ⟨s', Q', T', N', e, i, mq, mt, mn, dk⟩ := i.quiet' q [] (by mem) (by simp)
        exact ⟨s', T', N', e, ⟨Q', i⟩, mt, mn⟩
      · exact ⟨_, _, _, rfl, ⟨_, i⟩, fun _ h => h, fun _ h => h⟩
    obtain ⟨Q', i⟩ := iq
    refine .bind e' (.pure ⟨i.nreq q (by mem), fun u hu => i.taint u ?_⟩)
    have := tk u hu
    mem

/-- **C131**: `quaternion_from_euler` can be called with angles that require no gradients, for every axes string it accepts. -/
theorem C131_from_euler {s : St} (w : WF s) {rpy : ℕ} (axes : List Char) (h : rpy < s.nt) (hr : (s.tens rpy).req = false)
    (hx : ∃ v q, PK.quaternionFromEuler v axes = .ok q) : Outcome (AG.quaternionFromEuler rpy axes) s fun q s' => (s'.tens q).req = false := by
  obtain ⟨q, s', e, h, _⟩ := fromEuler_quiet (Bad.init' w rpy h) (rpy := rpy) h rfl ⟨h, hr⟩ axes hx
  exact ⟨q, s', e, h⟩

example : Outcome (AG.quaternionFromEuler 1 ['s', 'x', 'y', 'z']) demo fun q s' => (s'.tens q).req = false :=
  C131_from_euler demo_wf _ (by simp [demo]) (by simp [demo]) accepts_sxyz

/-- **C131** is violated by `quaternion_from_euler`: a gradient that needs the values of the angles, such as that of `x * rpy` computed before with
respect to `x`, is lost by the call, which halves the angles in place. -/
theorem C131_fails_from_euler_other {s : St} (w : WF s) {x rpy : ℕ} (axes : List Char) (h0 : x < s.nt) (h : rpy < s.nt) (hx0 : (s.tens x).req = true)
    (hr : (s.tens rpy).req = false) (hx : ∃ v q, PK.quaternionFromEuler v axes = .ok q) :
    Outcome (do let y ← AG.mul x rpy; let _ ← AG.quaternionFromEuler rpy axes; pure y) s fun y s' => backward y s' = .error .runtimeError := by
  obtain ⟨y, s1, L1, W1, Q1, P1, K1, T1, N1, e, i, ml, mw, mq, mp, mk, mt, mn, nl, nw, dq, dr, dk, dl, dt, du, da, db⟩ := (Bad.init' w rpy h).mul' x rpy h0 h
  refine .bind e ?_
  have hy : y ∈ K1 := da ⟨h0, hx0⟩ rfl
  obtain ⟨q, s', e, _, ht⟩ := fromEuler_quiet i (rpy := rpy) (ml h) (mp rfl) (mn ⟨h, hr⟩) axes hx
  exact .bind e (.pure (backward_taint (ht y hy)))

example : Outcome (do let y ← AG.mul 0 1; let _ ← AG.quaternionFromEuler 1 ['s', 'x', 'y', 'z']; pure y) demo fun y s' => backward y s' = .error .runtimeError :=
  C131_fails_from_euler_other demo_wf _ (by simp [demo]) (by simp [demo]) (by simp [demo]) (by simp [demo]) accepts_sxyz

end PK
