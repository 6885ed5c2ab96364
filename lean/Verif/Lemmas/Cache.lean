import Verif.Model.Cache
import Verif.Lemmas.Local
import Verif.Lemmas.Exc

/-! # The cached methods as sequences of elementary state changes -/

namespace PK

/-- Kinds of elementary state changes. -/
inductive Lab
  | idx (i : ℕ) (names : List Name)
  | name
  | new
  | move (i : ℕ)
  | write

/-- Elementary state changes. -/
inductive Step : Lab → World → World → Prop
  | hitI (w : World) (i : ℕ) (names : List Name) (r : ℕ) (h : lruFind w.idxCache (i, names) = some r) :
      Step (.idx i names) w { w with idxCache := lruHit w.idxCache (i, names) r }
  | missI (w : World) (i : ℕ) (names : List Name) (o : ChainObj) (v : List ℕ)
      (h : lruFind w.idxCache (i, names) = none) (ho : w.chains[i]? = some o)
      (hv : o.chain.getFrameIndices names = .ok v) :
      Step (.idx i names) w { w with
        tensors := w.tensors ++ [⟨v, o.dev⟩], idxCache := lruMiss w.idxCache (i, names) w.tensors.length }
  | hitN (w : World) (i : ℕ) (a : NameArg) (r : ℕ) (h : lruFind w.nameCache (i, a) = some r) :
      Step .name w { w with nameCache := lruHit w.nameCache (i, a) r }
  | missN (w : World) (i : ℕ) (a : NameArg) (o : ChainObj) (h : lruFind w.nameCache (i, a) = none)
      (ho : w.chains[i]? = some o) :
      Step .name w { w with
        lists := w.lists ++ [o.chain.getJointParameterNames a.value],
        nameCache := lruMiss w.nameCache (i, a) w.lists.length }
  | new (w : World) (root : Frame) (dev : Dev) :
      Step .new w { w with chains := w.chains ++ [⟨Chain.init root, dev⟩] }
  | move (w : World) (i : ℕ) (o : ChainObj) (dev : Dev) (ho : w.chains[i]? = some o) :
      Step (.move i) w { w with chains := w.chains.set i { o with dev := dev } }
  | writeT (w : World) (r : ℕ) (t : Tens) (vals : List ℕ) (ht : w.tensors[r]? = some t) :
      Step .write w { w with tensors := w.tensors.set r { t with vals := vals } }
  | writeL (w : World) (r : ℕ) (l : List (Option Name)) :
      Step .write w { w with lists := w.lists.set r l }

/-- Sequences of elementary changes whose labels satisfy `P`. -/
inductive Steps (P : Lab → Prop) : World → World → Prop
  | refl (w : World) : Steps P w w
  | snoc {w w' w'' : World} (l : Lab) (h : Steps P w w') (hl : P l) (s : Step l w' w'') : Steps P w w''

theorem Steps.trans {P : Lab → Prop} {w w' w'' : World} (h : Steps P w w') (h' : Steps P w' w'') :
    Steps P w w'' := by
  induction h' with
  | refl => exact h
  | snoc l _ hl s ih => exact .snoc l ih hl s

theorem Steps.mono {P Q : Lab → Prop} {w w' : World} (h : Steps P w w') (hpq : ∀ l, P l → Q l) :
    Steps Q w w' := by
  induction h with
  | refl => exact .refl _
  | snoc l _ hl s ih => exact .snoc l ih (hpq l hl) s

theorem Steps.inv {P : Lab → Prop} {w w' : World} (h : Steps P w w') (I : World → Prop)
    (hI : ∀ l a b, P l → Step l a b → I a → I b) (h0 : I w) : I w' := by
  induction h with
  | refl => exact h0
  | snoc l _ hl s ih => exact hI l _ _ hl s ih

theorem steps_bind {α β : Type} {P : Lab → Prop} (x : PyM α) (f : α → PyM β) (w : World)
    (hx : Steps P w (x w).1) (hf : ∀ a w', x w = (w', .ok a) → Steps P w' (f a w').1) :
    Steps P w (x.bind f w).1 := by
  unfold PyM.bind
  rcases hxw : x w with ⟨w', _ | a⟩
  · simpa [hxw] using hx
  · have h1 : Steps P w w' := by simpa [hxw] using hx
    exact h1.trans (hf a w' hxw)

theorem steps_idx {P : Lab → Prop} (i : ℕ) (names : List Name) (w : World) (hP : P (.idx i names)) :
    Steps P w (pyGetFrameIndices i names w).1 := by
  unfold pyGetFrameIndices
  split
  · exact .snoc _ (.refl w) hP (.hitI w i names _ (by assumption))
  · split
    · exact .refl w
    · split
      · exact .refl w
      · exact .snoc _ (.refl w) hP (.missI w i names _ _ (by assumption) (by assumption) (by assumption))

theorem steps_name {P : Lab → Prop} (i : ℕ) (a : NameArg) (w : World) (hP : P .name) :
    Steps P w (pyGetJointParameterNames i a w).1 := by
  unfold pyGetJointParameterNames
  split
  · exact .snoc _ (.refl w) hP (.hitN w i a _ (by assumption))
  · split
    · exact .refl w
    · exact .snoc _ (.refl w) hP (.missN w i a _ (by assumption) (by assumption))

theorem self_fst (i : ℕ) (w : World) : (pySelf i w).1 = w := by
  unfold pySelf; split <;> rfl
theorem self_ok {i : ℕ} {w w' : World} {o : ChainObj} (h : pySelf i w = (w', .ok o)) :
    w' = w ∧ w.chains[i]? = some o := by
  unfold pySelf at h; split at h <;> simp_all
theorem tensor_fst (r : ℕ) (w : World) : (pyTensor r w).1 = w := by
  unfold pyTensor; split <;> rfl
theorem list_fst (r : ℕ) (w : World) : (pyList r w).1 = w := by
  unfold pyList; split <;> rfl

/-- The calls of `get_frame_indices` a method makes when it asks for all frames. -/
theorem steps_all {P : Lab → Prop} (i : ℕ) (w : World)
    (hP : ∀ o, w.chains[i]? = some o → P (.idx i (o.chain.getFrameNames false))) :
    Steps P w (pyGetAllFrameIndices i w).1 := by
  refine steps_bind _ _ w (by rw [self_fst]; exact .refl w) ?_
  intro o w' h
  obtain ⟨rfl, ho⟩ := self_ok h
  exact steps_idx i _ _ (hP o ho)

theorem steps_ensure {P : Lab → Prop} (i : ℕ) {B : ℕ} (d : Dict (Option Name) (Fin B → Option ℝ)) (w : World)
    (hP : P .name) : Steps P w (pyEnsureTensorDict i d w).1 := by
  unfold pyEnsureTensorDict
  split
  · exact .refl w
  · refine steps_bind _ _ w (steps_name i _ w hP) ?_
    intro r w' _
    refine steps_bind _ _ w' (by rw [list_fst]; exact .refl _) ?_
    intro l w'' _
    refine steps_bind _ _ w'' (by rw [self_fst]; exact .refl _) ?_
    intro o w3 _
    exact .refl _

theorem steps_fkTail {P : Lab → Prop} (i r : ℕ) {B : ℕ} (th : List (Fin B → ℝ)) (w : World) :
    Steps P w (((pySelf i).bind fun o => (pyTensor r).bind fun t =>
      pyLift (o.chain.forwardKinematics th (some t.vals))) w).1 := by
  refine steps_bind _ _ w (by rw [self_fst]; exact .refl _) ?_
  intro o w' _
  refine steps_bind _ _ w' (by rw [tensor_fst]; exact .refl _) ?_
  intro t w'' _
  exact .refl _

theorem steps_select {P : Lab → Prop} (i : ℕ) (fi : Option ℕ) (w : World)
    (hP : fi = none → ∀ o, w.chains[i]? = some o → P (.idx i (o.chain.getFrameNames false))) :
    Steps P w (pySelectIndices i fi w).1 := by
  cases fi with
  | none => exact steps_all i w (hP rfl)
  | some r => exact .refl w

/-- The labels of one program step in state `w`. -/
def OpLab (w : World) : ChainOp → Lab → Prop
  | .new _ _, l => l = .new ∨ l = .name
  | .move i _, l => l = .move i
  | .frameIndices i names, l => l = .idx i names
  | .allFrameIndices i, l => ∃ o, w.chains[i]? = some o ∧ l = .idx i (o.chain.getFrameNames false)
  | .jointNames _ _, l => l = .name
  | .fk i _ _ fi, l => fi = none ∧ ∃ o, w.chains[i]? = some o ∧ l = .idx i (o.chain.getFrameNames false)
  | .fkDict i _ _ fi, l => l = .name ∨
      fi = none ∧ ∃ o, w.chains[i]? = some o ∧ l = .idx i (o.chain.getFrameNames false)
  | .writeTensor _ _, l => l = .write
  | .writeList _ _, l => l = .write

theorem op_steps (w : World) (op : ChainOp) : Steps (OpLab w op) w (op.run w) := by
  cases op with
  | new root dev =>
    exact (Steps.snoc _ (.refl w) (Or.inl rfl) (.new w root dev)).trans
      (steps_name _ _ _ (Or.inr rfl))
  | move i dev =>
    simp only [ChainOp.run, pyTo]
    split
    · exact .refl w
    · rename_i h; exact .snoc _ (.refl w) rfl (.move w i _ dev h)
  | frameIndices i names => exact steps_idx i names w rfl
  | allFrameIndices i => exact steps_all i w fun o ho => ⟨o, ho, rfl⟩
  | jointNames i a => exact steps_name i a w rfl
  | fk i B th fi =>
    refine steps_bind _ _ w (steps_select i fi w fun h o ho => ⟨h, o, ho, rfl⟩) ?_
    intro r w' _
    exact steps_fkTail i r th w'
  | fkDict i B d fi =>
    refine steps_bind _ _ w (steps_select i fi w fun h o ho => Or.inr ⟨h, o, ho, rfl⟩) ?_
    intro r w' _
    refine steps_bind _ _ w' (steps_ensure i d w' (Or.inl rfl)) ?_
    intro th w'' _
    exact steps_fkTail i r th w''
  | writeTensor r vals =>
    simp only [ChainOp.run, pyWriteTensor]
    split
    · exact .refl w
    · rename_i h; exact .snoc _ (.refl w) rfl (.writeT w r _ vals h)
  | writeList r l =>
    simp only [ChainOp.run, pyWriteList]
    split
    · exact .refl w
    · rename_i h; exact .snoc _ (.refl w) rfl (.writeL w r l)

/-! ## LRU lists -/

theorem lruFind_mem {K : Type} [DecidableEq K] {c : List (K × ℕ)} {k : K} {r : ℕ} (h : lruFind c k = some r) :
    (k, r) ∈ c := by
  unfold lruFind at h
  simp only [Option.map_eq_some_iff] at h
  obtain ⟨⟨k', r'⟩, h1, rfl⟩ := h
  have := List.find?_some h1
  simp only [decide_eq_true_eq] at this
  subst this
  exact List.mem_of_find?_eq_some h1

theorem lruFind_none {K : Type} [DecidableEq K] {c : List (K × ℕ)} {k : K} (h : ∀ e ∈ c, e.1 ≠ k) :
    lruFind c k = none := by
  unfold lruFind
  simpa using h

theorem lruHit_mem {K : Type} [DecidableEq K] {c : List (K × ℕ)} {k : K} {r : ℕ} (h : lruFind c k = some r)
    {e : K × ℕ} (he : e ∈ lruHit c k r) : e ∈ c := by
  unfold lruHit at he
  rcases List.mem_cons.1 he with rfl | he
  · exact lruFind_mem h
  · exact List.mem_of_mem_eraseP he

theorem lruMiss_mem {K : Type} {c : List (K × ℕ)} {k : K} {r : ℕ} {e : K × ℕ} (he : e ∈ lruMiss c k r) :
    e = (k, r) ∨ e ∈ c := by
  unfold lruMiss at he
  exact List.mem_cons.1 (List.mem_of_mem_take he)

theorem lruFind_hit {K : Type} [DecidableEq K] (c : List (K × ℕ)) (k : K) (r : ℕ) :
    lruFind (lruHit c k r) k = some r := by
  simp [lruFind, lruHit]

theorem lruFind_miss {K : Type} [DecidableEq K] (c : List (K × ℕ)) (k : K) (r : ℕ) :
    lruFind (lruMiss c k r) k = some r := by
  simp [lruFind, lruMiss, lruMax]

theorem lruMiss_length {K : Type} (c : List (K × ℕ)) (k : K) (r : ℕ) : (lruMiss c k r).length ≤ 128 := by
  simp [lruMiss, lruMax]

/-! ## Chains persist -/

theorem step_chains {l : Lab} {a b : World} (s : Step l a b) {i : ℕ} {o : ChainObj} (ho : a.chains[i]? = some o) :
    ∃ o', b.chains[i]? = some o' ∧ o'.chain = o.chain ∧ (l ≠ .move i → o' = o) := by
  cases s with
  | new _ root dev =>
    refine ⟨o, ?_, rfl, fun _ => rfl⟩
    have : i < a.chains.length := by
      rw [List.getElem?_eq_some_iff] at ho; exact ho.1
    simp only
    rw [List.getElem?_append_left this]; exact ho
  | move _ j o₁ dev hj =>
    by_cases hji : j = i
    · subst hji
      obtain rfl : o₁ = o := by simpa [hj] using ho
      have : j < a.chains.length := by
        rw [List.getElem?_eq_some_iff] at ho; exact ho.1
      exact ⟨{ o₁ with dev := dev }, by simp [this], rfl, fun h => absurd rfl h⟩
    · exact ⟨o, by simpa [List.getElem?_set_ne hji] using ho, rfl, fun _ => rfl⟩
  | _ => exact ⟨o, ho, rfl, fun _ => rfl⟩

theorem steps_chains {P : Lab → Prop} {a b : World} (s : Steps P a b) {i : ℕ} {o : ChainObj}
    (ho : a.chains[i]? = some o) :
    ∃ o', b.chains[i]? = some o' ∧ o'.chain = o.chain ∧ ((∀ l, P l → l ≠ .move i) → o' = o) := by
  induction s with
  | refl => exact ⟨o, ho, rfl, fun _ => rfl⟩
  | snoc l _ hl s ih =>
    obtain ⟨o₁, h1, h2, h3⟩ := ih
    obtain ⟨o₂, h4, h5, h6⟩ := step_chains s h1
    exact ⟨o₂, h4, h5.trans h2, fun h => (h6 (h l hl)).trans (h3 h)⟩

theorem run_chains (ops : List ChainOp) : ∀ (w : World) {i : ℕ} {o : ChainObj}, w.chains[i]? = some o →
    ∃ o', (runChainOps w ops).chains[i]? = some o' ∧ o'.chain = o.chain := by
  induction ops with
  | nil => intro w i o ho; exact ⟨o, ho, rfl⟩
  | cons op ops ih =>
    intro w i o ho
    obtain ⟨o₁, h1, h2, _⟩ := steps_chains (op_steps w op) ho
    obtain ⟨o₂, h3, h4⟩ := ih (op.run w) h1
    exact ⟨o₂, h3, h4.trans h2⟩

/-! ## Invariants -/

/-- What holds in every state, whatever was done. -/
structure Basics (w : World) : Prop where
  ini : ∀ o ∈ w.chains, ∃ root, o.chain = Chain.init root
  idx : ∀ e ∈ w.idxCache, ∃ o t, w.chains[e.1.1]? = some o ∧ w.tensors[e.2]? = some t
  nam : ∀ e ∈ w.nameCache, ∃ o l, w.chains[e.1.1]? = some o ∧ w.lists[e.2]? = some l
  idxLen : w.idxCache.length ≤ 128
  namLen : w.nameCache.length ≤ 128

theorem getElem?_append_some {α : Type} {l l' : List α} {i : ℕ} {a : α} (h : l[i]? = some a) :
    (l ++ l')[i]? = some a := by
  have : i < l.length := by rw [List.getElem?_eq_some_iff] at h; exact h.1
  rw [List.getElem?_append_left this]; exact h

theorem lruHit_length {K : Type} [DecidableEq K] {c : List (K × ℕ)} {k : K} {r : ℕ} (h : lruFind c k = some r) :
    (lruHit c k r).length = c.length := by
  have hm := lruFind_mem h
  have hpos : 0 < c.length := List.length_pos_of_mem hm
  have := List.length_eraseP_of_mem (p := fun e : K × ℕ => decide (e.1 = k)) hm (by simp)
  unfold lruHit
  rw [List.length_cons, this]; omega

theorem basics_step {l : Lab} {a b : World} (s : Step l a b) (h : Basics a) : Basics b := by
  have hc : ∀ {i : ℕ} {o : ChainObj}, a.chains[i]? = some o → ∃ o', b.chains[i]? = some o' :=
    fun ho => (step_chains s ho).imp fun _ h => h.1
  cases s with
  | hitI _ i names r hf =>
    exact ⟨h.ini, fun e he => h.idx e (lruHit_mem hf he), h.nam, by rw [lruHit_length hf]; exact h.idxLen, h.namLen⟩
  | missI _ i names o v hf ho hv =>
    refine ⟨h.ini, fun e he => ?_, h.nam, lruMiss_length _ _ _, h.namLen⟩
    rcases lruMiss_mem he with rfl | he
    · exact ⟨o, ⟨v, o.dev⟩, ho, by simp⟩
    · obtain ⟨o', t, h1, h2⟩ := h.idx e he
      exact ⟨o', t, h1, getElem?_append_some h2⟩
  | hitN _ i a r hf =>
    exact ⟨h.ini, h.idx, fun e he => h.nam e (lruHit_mem hf he), h.idxLen, by rw [lruHit_length hf]; exact h.namLen⟩
  | missN _ i a o hf ho =>
    refine ⟨h.ini, h.idx, fun e he => ?_, h.idxLen, lruMiss_length _ _ _⟩
    rcases lruMiss_mem he with rfl | he
    · exact ⟨o, o.chain.getJointParameterNames a.value, ho, by simp⟩
    · obtain ⟨o', t, h1, h2⟩ := h.nam e he
      exact ⟨o', t, h1, getElem?_append_some h2⟩
  | new _ root dev =>
    refine ⟨fun o ho => ?_, fun e he => ?_, fun e he => ?_, h.idxLen, h.namLen⟩
    · rcases List.mem_append.1 ho with ho | ho
      · exact h.ini o ho
      · simp only [List.mem_singleton] at ho; subst ho; exact ⟨root, rfl⟩
    · obtain ⟨o, t, h1, h2⟩ := h.idx e he
      obtain ⟨o', h'⟩ := hc h1
      exact ⟨o', t, h', h2⟩
    · obtain ⟨o, t, h1, h2⟩ := h.nam e he
      obtain ⟨o', h'⟩ := hc h1
      exact ⟨o', t, h', h2⟩
  | move _ i o dev ho =>
    refine ⟨fun o' ho' => ?_, fun e he => ?_, fun e he => ?_, h.idxLen, h.namLen⟩
    · rcases List.mem_or_eq_of_mem_set ho' with ho' | rfl
      · exact h.ini o' ho'
      · exact h.ini o (List.mem_of_getElem? ho)
    · obtain ⟨o, t, h1, h2⟩ := h.idx e he
      obtain ⟨o', h'⟩ := hc h1
      exact ⟨o', t, h', h2⟩
    · obtain ⟨o, t, h1, h2⟩ := h.nam e he
      obtain ⟨o', h'⟩ := hc h1
      exact ⟨o', t, h', h2⟩
  | writeT _ r t vals ht =>
    refine ⟨h.ini, fun e he => ?_, h.nam, h.idxLen, h.namLen⟩
    obtain ⟨o, t', h1, h2⟩ := h.idx e he
    have : e.2 < (a.tensors.set r { t with vals := vals }).length := by
      rw [List.getElem?_eq_some_iff] at h2; simpa using h2.1
    exact ⟨o, _, h1, List.getElem?_eq_getElem this⟩
  | writeL _ r l =>
    refine ⟨h.ini, h.idx, fun e he => ?_, h.idxLen, h.namLen⟩
    obtain ⟨o, t', h1, h2⟩ := h.nam e he
    have : e.2 < (a.lists.set r l).length := by
      rw [List.getElem?_eq_some_iff] at h2; simpa using h2.1
    exact ⟨o, _, h1, List.getElem?_eq_getElem this⟩

theorem basics_init : Basics {} := by
  constructor <;> simp

theorem basics_run (ops : List ChainOp) : ∀ w : World, Basics w → Basics (runChainOps w ops) := by
  induction ops with
  | nil => exact fun w h => h
  | cons op ops ih =>
    exact fun w h => ih _ ((op_steps w op).inv Basics (fun _ _ _ _ s => basics_step s) h)

/-- Cached values are right. -/
structure Faithful (w : World) : Prop where
  idx : ∀ e ∈ w.idxCache, ∀ o, w.chains[e.1.1]? = some o → ∀ t, w.tensors[e.2]? = some t →
    o.chain.getFrameIndices e.1.2 = .ok t.vals
  nam : ∀ e ∈ w.nameCache, ∀ o, w.chains[e.1.1]? = some o → ∀ l, w.lists[e.2]? = some l →
    l = o.chain.getJointParameterNames e.1.2.value

theorem faithful_step {l : Lab} {a b : World} (hl : l ≠ .write) (s : Step l a b) (hb : Basics a)
    (h : Faithful a) : Faithful b := by
  have hc : ∀ {i : ℕ} {o : ChainObj}, a.chains[i]? = some o → ∃ o', b.chains[i]? = some o' ∧ o'.chain = o.chain :=
    fun ho => (step_chains s ho).imp fun _ h => ⟨h.1, h.2.1⟩
  have hI : ∀ e ∈ a.idxCache, (∀ t, a.tensors[e.2]? = some t → b.tensors[e.2]? = some t) →
      ∀ o, b.chains[e.1.1]? = some o → ∀ t, b.tensors[e.2]? = some t →
      o.chain.getFrameIndices e.1.2 = .ok t.vals := by
    intro e he hmono o ho t ht
    obtain ⟨o₀, t₀, h1, h2⟩ := hb.idx e he
    obtain ⟨o₁, h3, h4⟩ := hc h1
    have h5 := hmono t₀ h2
    simp only [h3, Option.some.injEq] at ho
    simp only [h5, Option.some.injEq] at ht
    subst ho; subst ht
    rw [h4]; exact h.idx e he o₀ h1 t₀ h2
  have hN : ∀ e ∈ a.nameCache, (∀ t, a.lists[e.2]? = some t → b.lists[e.2]? = some t) →
      ∀ o, b.chains[e.1.1]? = some o → ∀ t, b.lists[e.2]? = some t →
      t = o.chain.getJointParameterNames e.1.2.value := by
    intro e he hmono o ho t ht
    obtain ⟨o₀, t₀, h1, h2⟩ := hb.nam e he
    obtain ⟨o₁, h3, h4⟩ := hc h1
    have h5 := hmono t₀ h2
    simp only [h3, Option.some.injEq] at ho
    simp only [h5, Option.some.injEq] at ht
    subst ho; subst ht
    rw [h4]; exact h.nam e he o₀ h1 t₀ h2
  cases s with
  | hitI _ i names r hf =>
    exact ⟨fun e he => hI e (lruHit_mem hf he) fun t ht => ht, fun e he => hN e he fun t ht => ht⟩
  | missI _ i names o v hf ho hv =>
    refine ⟨fun e he => ?_, fun e he => hN e he fun t ht => ht⟩
    rcases lruMiss_mem he with rfl | he
    · intro o' ho' t ht
      simp only [ho, Option.some.injEq] at ho'
      subst ho'
      simp at ht
      subst ht
      exact hv
    · exact hI e he fun t ht => getElem?_append_some ht
  | hitN _ i a r hf =>
    exact ⟨fun e he => hI e he fun t ht => ht, fun e he => hN e (lruHit_mem hf he) fun t ht => ht⟩
  | missN _ i a o hf ho =>
    refine ⟨fun e he => hI e he fun t ht => ht, fun e he => ?_⟩
    rcases lruMiss_mem he with rfl | he
    · intro o' ho' t ht
      simp only [ho, Option.some.injEq] at ho'
      subst ho'
      simp at ht
      exact ht.symm
    · exact hN e he fun t ht => getElem?_append_some ht
  | new _ root dev => exact ⟨fun e he => hI e he fun t ht => ht, fun e he => hN e he fun t ht => ht⟩
  | move _ i o dev ho => exact ⟨fun e he => hI e he fun t ht => ht, fun e he => hN e he fun t ht => ht⟩
  | writeT => exact absurd rfl hl
  | writeL => exact absurd rfl hl

/-- The program step does not write to an object it was given. -/
def ChainOp.Reads : ChainOp → Prop
  | .writeTensor _ _ => False
  | .writeList _ _ => False
  | _ => True

theorem reads_lab {w : World} {op : ChainOp} (h : op.Reads) {l : Lab} (hl : OpLab w op l) : l ≠ .write := by
  cases op <;> simp_all [ChainOp.Reads, OpLab] <;> rintro rfl <;> simp_all

theorem faithful_run (ops : List ChainOp) : ∀ w : World, Basics w → Faithful w → (∀ op ∈ ops, op.Reads) →
    Faithful (runChainOps w ops) := by
  induction ops with
  | nil => exact fun w _ h _ => h
  | cons op ops ih =>
    intro w hb h hr
    have := (op_steps w op).inv (fun w => Basics w ∧ Faithful w)
      (fun l _ _ hl s hI => ⟨basics_step s hI.1,
        faithful_step (reads_lab (hr op (by simp)) hl) s hI.1 hI.2⟩) ⟨hb, h⟩
    exact ih _ this.1 this.2 fun op' h' => hr op' (by simp [h'])

end PK
