import Verif.Spec.InPlace
import Mathlib.Data.Set.Insert
import Mathlib.Tactic.Linarith
import Mathlib.Tactic.Tauto

namespace PK.AG
open Relation Function

/-- nothing the graph of `u` keeps was written to -/
def Clean (s : St) (u : ℕ) : Prop := ∀ m, InGraph s u m → ∀ p ∈ (s.node m).saved, s.ver p.1 = p.2

/-- something the graph of `u` keeps was written to -/
def Taint (s : St) (u : ℕ) : Prop := ∃ m, InGraph s u m ∧ ∃ p ∈ (s.node m).saved, p.2 < s.ver p.1

theorem bind_run {α β} {m : G α} {f : α → G β} {s s' : St} {a : α} (h : m s = .ok (a, s')) : (m >>= f) s = f a s' := by
  show (m s >>= fun p => f p.1 p.2) = _
  rw [h]; rfl

theorem bind_err {α β} {m : G α} {f : α → G β} {s : St} {e : Err} (h : m s = .error e) : (m >>= f) s = .error e := by
  show (m s >>= fun p => f p.1 p.2) = _
  rw [h]; rfl

theorem pure_run {α} (a : α) (s : St) : (pure a : G α) s = .ok (a, s) := rfl

theorem backward_clean {s : St} {t : ℕ} (hr : (s.tens t).req = true) (h : Clean s t) : backward t s = .ok () := by
  unfold backward
  rw [if_neg (by simp [hr]), if_neg]
  rintro ⟨n, hn, m, hm, p, hp, hv⟩
  exact hv (h m ⟨n, hn, hm⟩ p hp)

theorem backward_taint {s : St} {t : ℕ} (h : Taint s t) : backward t s = .error .runtimeError := by
  unfold backward
  split_ifs with h1 h2
  · rfl
  · rfl
  · obtain ⟨m, ⟨n, hn, hm⟩, p, hp, hv⟩ := h
    exact absurd ⟨n, hn, m, hm, p, hp, by omega⟩ h2

/-- everything reachable from a node is not younger -/
theorem reach_le {s : St} (w : WF s) {n m : ℕ} (h : ReflTransGen (Edge s) n m) : m ≤ n := by
  induction h with
  | refl => exact le_rfl
  | tail _ e ih => exact ((w.next_lt _ _ e).le.trans ih)

/-- a new node changes nothing about the old graph -/
theorem reach_update {s : St} (w : WF s) {s' : St} {nd : Node} (hs : s'.node = update s.node s.nn nd) {n m : ℕ} (hn : n < s.nn) :
    ReflTransGen (Edge s') n m ↔ ReflTransGen (Edge s) n m := by
  constructor
  · intro h
    induction h with
    | refl => exact .refl
    | tail _ e ih =>
      refine ih.tail ?_
      have := reach_le w ih
      unfold Edge at e ⊢
      rwa [hs, update_of_ne (by omega)] at e
  · intro h
    induction h with
    | refl => exact .refl
    | tail hd e ih =>
      refine ih.tail ?_
      have := reach_le w hd
      unfold Edge at e ⊢
      rwa [hs, update_of_ne (by omega)]

theorem inGraph_lt {s : St} (w : WF s) {u m : ℕ} (h : InGraph s u m) : m < s.nn := by
  obtain ⟨n, hn, hm⟩ := h
  exact (reach_le w hm).trans_lt (w.fn_lt _ _ hn)

theorem inGraph_old {s : St} (w : WF s) {s' : St} {nd : Node} (hs : s'.node = update s.node s.nn nd) {u m : ℕ} (hu : (s'.tens u).fn = (s.tens u).fn) :
    InGraph s' u m ↔ InGraph s u m := by
  unfold InGraph
  rw [hu]
  refine exists_congr fun n => and_congr_right fun hn => ?_
  exact reach_update w hs (w.fn_lt _ _ hn)

theorem saved_old {s s' : St} {nd : Node} (hs : s'.node = update s.node s.nn nd) {m : ℕ} (hm : m < s.nn) : (s'.node m).saved = (s.node m).saved := by
  rw [hs, update_of_ne (by omega)]

/-- the graph of a tensor produced by the newest node -/
theorem inGraph_new {s : St} (w : WF s) {s' : St} {ins saves : List ℕ} (hs : s'.node = update s.node s.nn (mkNode s ins saves)) {u m : ℕ}
    (hu : (s'.tens u).fn = some s.nn) : InGraph s' u m ↔ m = s.nn ∨ ∃ i ∈ ins, InGraph s i m := by
  have key : InGraph s' u m ↔ ReflTransGen (Edge s') s.nn m := by
    unfold InGraph; rw [hu]; simp
  rw [key, ReflTransGen.cases_head_iff]
  refine or_congr ⟨fun h => h.symm, fun h => h.symm⟩ ?_
  have hnext : ∀ k, Edge s' s.nn k ↔ ∃ i ∈ ins, (s.tens i).fn = some k := by
    intro k; unfold Edge; rw [hs]; simp [mkNode]
  constructor
  · rintro ⟨k, hk, hr⟩
    obtain ⟨i, hi, hf⟩ := (hnext k).1 hk
    exact ⟨i, hi, k, hf, (reach_update w hs (w.fn_lt _ _ hf)).1 hr⟩
  · rintro ⟨i, hi, k, hf, hr⟩
    exact ⟨k, (hnext k).2 ⟨i, hi, hf⟩, (reach_update w hs (w.fn_lt _ _ hf)).2 hr⟩

theorem anyReq_iff {s : St} {l : List ℕ} : anyReq s l = true ↔ ∃ i ∈ l, (s.tens i).req = true := by simp [anyReq]

/-- the state after a new tensor -/
def pushSt (of : Option ℕ) (multi : Bool) (ins saves : List ℕ) (s : St) : St :=
  { tens := Function.update s.tens s.nt
        ⟨(of.map fun t => (s.tens t).storage).getD s.ns, anyReq s ins, if anyReq s ins then some s.nn else none, multi⟩
    nt := s.nt + 1
    node := Function.update s.node s.nn (mkNode s ins saves)
    nn := s.nn + 1
    ver := s.ver
    ns := s.ns + 1 }

theorem pushWith_run (of : Option ℕ) (multi : Bool) (ins saves : List ℕ) (s : St) :
    pushWith of multi ins saves s = .ok (s.nt, pushSt of multi ins saves s) := rfl

theorem pushSt_wf {of : Option ℕ} {multi : Bool} {ins saves : List ℕ} {s : St} (w : WF s) (hof : ∀ t ∈ of, t < s.nt) (hsv : ∀ i ∈ saves, i < s.nt) :
    WF (pushSt of multi ins saves s) := by
  constructor
  · intro u n hn
    unfold pushSt at hn ⊢
    by_cases hu : u = s.nt
    · subst hu
      simp only [update_self] at hn
      split_ifs at hn <;> simp_all
    · simp only [update_of_ne hu] at hn
      exact (w.fn_lt _ _ hn).trans (Nat.lt_succ_self _)
  · intro n k hk
    unfold pushSt at hk
    by_cases hn : n = s.nn
    · subst hn
      simp only [update_self, mkNode, List.mem_filterMap] at hk
      obtain ⟨i, _, hi⟩ := hk
      exact w.fn_lt _ _ hi
    · simp only [update_of_ne hn] at hk
      exact w.next_lt _ _ hk
  · intro u hu
    unfold pushSt at hu ⊢
    by_cases h : u = s.nt
    · subst h
      simp only [update_self]
      cases of with
      | none => simp
      | some t => simpa using (w.sto_lt t (hof t rfl)).trans (Nat.lt_succ_self _)
    · simp only [update_of_ne h]
      exact (w.sto_lt u (by simp at hu; omega)).trans (Nat.lt_succ_self _)
  · intro n hn p hp
    unfold pushSt at hn hp ⊢
    by_cases h : n = s.nn
    · subst h
      simp only [update_self, mkNode, List.mem_map] at hp
      obtain ⟨i, hi, rfl⟩ := hp
      exact (w.sto_lt i (hsv i hi)).trans (Nat.lt_succ_self _)
    · simp only [update_of_ne h] at hp
      exact (w.sv_lt n (by simp at hn; omega) p hp).trans (Nat.lt_succ_self _)
  · intro n hn p hp
    unfold pushSt at hn hp ⊢
    by_cases h : n = s.nn
    · subst h
      simp only [update_self, mkNode, List.mem_map] at hp
      obtain ⟨i, hi, rfl⟩ := hp
      exact le_rfl
    · simp only [update_of_ne h] at hp
      exact w.sv_le n (by simp at hn; omega) p hp
  · intro u hu
    unfold pushSt at hu ⊢
    by_cases h : u = s.nt
    · subst h
      simp only [update_self] at hu ⊢
      simp [hu]
    · simp only [update_of_ne h] at hu ⊢
      exact w.req_fn u hu

/-- the state after a write -/
def writeSt (t : ℕ) (ins : List ℕ) (s : St) : St :=
  { s with
    tens := Function.update s.tens t { s.tens t with req := (s.tens t).req || anyReq s ins, fn := if (s.tens t).req || anyReq s ins then some s.nn else none }
    node := Function.update s.node s.nn (mkNode s (t :: ins) [])
    nn := s.nn + 1
    ver := Function.update s.ver (s.tens t).storage (s.ver (s.tens t).storage + 1) }

theorem inplace_run {t : ℕ} {ins : List ℕ} {s : St} (h : (s.tens t).req = true ∨ anyReq s ins = true → (s.tens t).multi = false)
    (hl : (s.tens t).req = true → (s.tens t).fn ≠ none) : inplace t ins s = .ok ((), writeSt t ins s) := by
  unfold inplace
  dsimp only
  rw [if_neg]
  · rfl
  · cases hr : (s.tens t).req <;> cases ha : anyReq s ins <;> simp_all

theorem inplace_err {t : ℕ} {ins : List ℕ} {s : St} (h : (s.tens t).req = true) (hm : (s.tens t).multi = true ∨ (s.tens t).fn = none) :
    inplace t ins s = .error .runtimeError := by
  unfold inplace
  dsimp only
  rw [if_pos]
  rcases hm with hm | hm <;> simp [h, hm]

theorem writeSt_wf {t : ℕ} {ins : List ℕ} {s : St} (w : WF s) : WF (writeSt t ins s) := by
  constructor
  · intro u n hn
    unfold writeSt at hn ⊢
    by_cases hu : u = t
    · subst hu
      simp only [update_self] at hn
      split_ifs at hn <;> simp_all
    · simp only [update_of_ne hu] at hn
      exact (w.fn_lt _ _ hn).trans (Nat.lt_succ_self _)
  · intro n k hk
    unfold writeSt at hk
    by_cases hn : n = s.nn
    · subst hn
      simp only [update_self, mkNode, List.mem_filterMap] at hk
      obtain ⟨i, _, hi⟩ := hk
      exact w.fn_lt _ _ hi
    · simp only [update_of_ne hn] at hk
      exact w.next_lt _ _ hk
  · intro u hu
    unfold writeSt at hu ⊢
    by_cases h : u = t
    · subst h
      simp only [update_self]
      exact w.sto_lt u hu
    · simp only [update_of_ne h]
      exact w.sto_lt u hu
  · intro n hn p hp
    unfold writeSt at hn hp ⊢
    by_cases h : n = s.nn
    · subst h
      simp [mkNode] at hp
    · simp only [update_of_ne h] at hp
      exact w.sv_lt n (by simp at hn; omega) p hp
  · intro n hn p hp
    unfold writeSt at hn hp ⊢
    by_cases h : n = s.nn
    · subst h
      simp [mkNode] at hp
    · simp only [update_of_ne h] at hp
      have := w.sv_le n (by simp at hn; omega) p hp
      by_cases hq : p.1 = (s.tens t).storage
      · simp only [hq, update_self]; rw [hq] at this; omega
      · simp only [update_of_ne hq]; exact this
  · intro u hu
    unfold writeSt at hu ⊢
    by_cases h : u = t
    · subst h
      simp only [update_self] at hu ⊢
      simp only [hu]; rfl
    · simp only [update_of_ne h] at hu ⊢
      exact w.req_fn u hu

theorem push_tens_old {of multi ins saves s u} (hu : u ≠ s.nt) : (pushSt of multi ins saves s).tens u = s.tens u := by
  simp [pushSt, update_of_ne hu]

theorem push_tens_new {of multi ins saves s} : (pushSt of multi ins saves s).tens s.nt =
    ⟨(of.map fun t => (s.tens t).storage).getD s.ns, anyReq s ins, if anyReq s ins then some s.nn else none, multi⟩ := by
  simp [pushSt]

theorem write_tens_old {t ins s u} (hu : u ≠ t) : (writeSt t ins s).tens u = s.tens u := by simp [writeSt, update_of_ne hu]

theorem write_tens_new {t ins s} : (writeSt t ins s).tens t =
    { s.tens t with req := (s.tens t).req || anyReq s ins, fn := if (s.tens t).req || anyReq s ins then some s.nn else none } := by simp [writeSt]

theorem write_sto {t ins s} (u : ℕ) : ((writeSt t ins s).tens u).storage = (s.tens u).storage := by
  by_cases h : u = t
  · subst h; rw [write_tens_new]
  · rw [write_tens_old h]

theorem inGraph_none {s : St} {u m : ℕ} (h : (s.tens u).fn = none) : ¬ InGraph s u m := by
  rintro ⟨n, hn, _⟩
  rw [h] at hn
  cases hn

theorem inGraph_push {of multi ins saves s} (w : WF s) {m : ℕ} (h : InGraph (pushSt of multi ins saves s) s.nt m) :
    m = s.nn ∨ ∃ i ∈ ins, InGraph s i m := by
  by_cases hr : anyReq s ins = true
  · exact (inGraph_new w rfl (by rw [push_tens_new]; simp [hr])).1 h
  · exact absurd h (inGraph_none (by rw [push_tens_new]; simp [hr]))

theorem inGraph_write {t ins s} (w : WF s) {m : ℕ} (h : InGraph (writeSt t ins s) t m) : m = s.nn ∨ ∃ i ∈ t :: ins, InGraph s i m := by
  by_cases hr : ((s.tens t).req || anyReq s ins) = true
  · exact (inGraph_new w rfl (by rw [write_tens_new]; simp only [hr, if_true])).1 h
  · exact absurd h (inGraph_none (by rw [write_tens_new]; simp only [Bool.eq_false_iff.2 hr]; rfl))

/-- a written tensor keeps its old graph and gets those of what is written -/
theorem inGraph_write_of {t ins s} (w : WF s) {i m : ℕ} (hi : i ∈ t :: ins) (h : InGraph s i m) : InGraph (writeSt t ins s) t m := by
  have hr : ((s.tens t).req || anyReq s ins) = true := by
    have hri : (s.tens i).req = true := by
      by_contra hc
      exact inGraph_none (w.req_fn i (by simpa using hc)) h
    rcases List.mem_cons.1 hi with rfl | hi
    · simp [hri]
    · rw [anyReq_iff.2 ⟨i, hi, hri⟩]; simp
  exact (inGraph_new w rfl (by rw [write_tens_new]; simp only [hr, if_true])).2 (.inr ⟨i, hi, h⟩)

theorem inGraph_push_of {of multi ins saves s} (w : WF s) {i m : ℕ} (hi : i ∈ ins) (h : InGraph s i m) : InGraph (pushSt of multi ins saves s) s.nt m := by
  have hr : anyReq s ins = true := by
    have hri : (s.tens i).req = true := by
      by_contra hc
      exact inGraph_none (w.req_fn i (by simpa using hc)) h
    exact anyReq_iff.2 ⟨i, hi, hri⟩
  exact (inGraph_new w rfl (by rw [push_tens_new]; simp [hr])).2 (.inr ⟨i, hi, h⟩)

/-! ### functions that only write to memory nobody keeps -/

/-- `L`: tensors with clean graphs; `V`: those that may be kept; `W`: those that may be written to; `Q`: those that require a gradient -/
structure Inv (s : St) (L V W Q : Set ℕ) : Prop where
  wf : WF s
  lt : ∀ u ∈ L, u < s.nt
  vl : V ⊆ L
  wl : ∀ w ∈ W, w < s.nt
  ql : Q ⊆ L
  clean : ∀ u ∈ L, Clean s u
  keep : ∀ u ∈ L, ∀ w ∈ W, ¬ Keeps s u (s.tens w).storage
  sep : ∀ u ∈ V, ∀ w ∈ W, (s.tens u).storage ≠ (s.tens w).storage
  dist : ∀ u ∈ W, ∀ w ∈ W, u ≠ w → (s.tens u).storage ≠ (s.tens w).storage
  ok : ∀ w ∈ W, (s.tens w).multi = false ∧ ((s.tens w).req = true → (s.tens w).fn ≠ none)
  req : ∀ u ∈ Q, (s.tens u).req = true

theorem Inv.mono {s : St} {L V W Q V' W' Q' : Set ℕ} (h : Inv s L V W Q) (hv : V' ⊆ V) (hw : W' ⊆ W) (hq : Q' ⊆ Q) : Inv s L V' W' Q' :=
  ⟨h.wf, h.lt, hv.trans h.vl, fun w hw' => h.wl w (hw hw'), hq.trans h.ql, h.clean, fun u hu w hw' => h.keep u hu w (hw hw'),
    fun u hu w hw' => h.sep u (hv hu) w (hw hw'), fun u hu w hw' => h.dist u (hw hu) w (hw hw'), fun w hw' => h.ok w (hw hw'),
    fun u hu => h.req u (hq hu)⟩

/-- a tensor is no longer written to and may be kept -/
theorem Inv.done {s : St} {L V W Q : Set ℕ} (h : Inv s L V W Q) {t : ℕ} (ht : t ∈ W) (htL : t ∈ L) : Inv s L (insert t V) (W \ {t}) Q :=
  ⟨h.wf, h.lt, Set.insert_subset htL h.vl, fun w hw => h.wl w hw.1, h.ql, h.clean, fun u hu w hw' => h.keep u hu w hw'.1,
    by
      rintro u (rfl | hu) w hw
      · exact h.dist u ht w hw.1 fun e => hw.2 e.symm
      · exact h.sep u hu w hw.1,
    fun u hu w hw' => h.dist u hu.1 w hw'.1, fun w hw' => h.ok w hw'.1, h.req⟩

theorem Inv.ne_nt {s : St} {L V W Q : Set ℕ} (h : Inv s L V W Q) {u : ℕ} (hu : u ∈ L) : u ≠ s.nt := (h.lt u hu).ne

theorem Inv.push_old {s : St} {L V W Q : Set ℕ} (h : Inv s L V W Q) {of multi ins saves} {u : ℕ} (hu : u ∈ L) {m : ℕ} :
    InGraph (pushSt of multi ins saves s) u m ↔ InGraph s u m :=
  inGraph_old h.wf rfl (by rw [push_tens_old (h.ne_nt hu)])

/-- the part of the invariant that does not mention the new tensor -/
theorem Inv.push_aux {s : St} {L V W Q : Set ℕ} (h : Inv s L V W Q) {of : Option ℕ} {multi : Bool} {ins saves : List ℕ} (hof : ∀ t ∈ of, t ∈ L)
    (hi : ∀ i ∈ ins, i ∈ L) (hs : ∀ i ∈ saves, i ∈ V) :
    Inv (pushSt of multi ins saves s) (insert s.nt L) V W (Q ∪ {u | u = s.nt ∧ ∃ i ∈ ins, i ∈ Q}) := by
  have wf' : WF (pushSt of multi ins saves s) := pushSt_wf h.wf (fun t ht => h.lt t (hof t ht)) fun i hi => h.lt i (h.vl (hs i hi))
  have old : ∀ {u}, u ∈ L → (pushSt of multi ins saves s).tens u = s.tens u := fun hu => push_tens_old (h.ne_nt hu)
  have oldw : ∀ {u}, u ∈ W → (pushSt of multi ins saves s).tens u = s.tens u := fun hu => push_tens_old (h.wl _ hu).ne
  have sv : ∀ {m}, m < s.nn → ((pushSt of multi ins saves s).node m).saved = (s.node m).saved := fun hm => saved_old rfl hm
  have svn : ((pushSt of multi ins saves s).node s.nn).saved = saves.map fun i => ((s.tens i).storage, s.ver (s.tens i).storage) := by
    simp [pushSt, mkNode]
  refine ⟨wf', ?_, h.vl.trans (Set.subset_insert _ _), fun w hw => (h.wl w hw).trans (Nat.lt_succ_self _), ?_, ?_, ?_, ?_, ?_, ?_, ?_⟩
  · rintro u (rfl | hu)
    · exact Nat.lt_succ_self _
    · exact (h.lt u hu).trans (Nat.lt_succ_self _)
  · rintro u (hu | ⟨rfl, _⟩)
    · exact .inr (h.ql hu)
    · exact .inl rfl
  · rintro u (rfl | hu) m hm p hp
    · rcases inGraph_push h.wf hm with rfl | ⟨i, hii, hg⟩
      · rw [svn, List.mem_map] at hp
        obtain ⟨i, _, rfl⟩ := hp
        rfl
      · rw [sv (inGraph_lt h.wf hg)] at hp
        exact h.clean i (hi i hii) m hg p hp
    · rw [h.push_old hu] at hm
      rw [sv (inGraph_lt h.wf hm)] at hp
      exact h.clean u hu m hm p hp
  · rintro u (rfl | hu) w hw ⟨m, hm, p, hp, e⟩
    · rw [oldw hw] at e
      rcases inGraph_push h.wf hm with rfl | ⟨i, hii, hg⟩
      · rw [svn, List.mem_map] at hp
        obtain ⟨i, hi', rfl⟩ := hp
        exact h.sep i (hs i hi') w hw e
      · rw [sv (inGraph_lt h.wf hg)] at hp
        exact h.keep i (hi i hii) w hw ⟨m, hg, p, hp, e⟩
    · rw [oldw hw] at e
      rw [h.push_old hu] at hm
      rw [sv (inGraph_lt h.wf hm)] at hp
      exact h.keep u hu w hw ⟨m, hm, p, hp, e⟩
  · intro u hu w hw
    rw [old (h.vl hu), oldw hw]
    exact h.sep u hu w hw
  · intro u hu w hw
    rw [oldw hu, oldw hw]
    exact h.dist u hu w hw
  · intro w hw
    rw [oldw hw]
    exact h.ok w hw
  · rintro u (hu | ⟨rfl, i, hii, hq⟩)
    · rw [old (h.ql hu)]; exact h.req u hu
    · rw [push_tens_new]
      exact anyReq_iff.2 ⟨i, hii, h.req i hq⟩

/-- a new tensor that may be kept -/
theorem Inv.push {s : St} {L V W Q : Set ℕ} (h : Inv s L V W Q) {ins saves : List ℕ} (hi : ∀ i ∈ ins, i ∈ L) (hs : ∀ i ∈ saves, i ∈ V) :
    ∃ t s', t ∉ L ∧ push ins saves s = .ok (t, s') ∧ Inv s' (insert t L) (insert t V) W (Q ∪ {u | u = t ∧ ∃ i ∈ ins, i ∈ Q}) := by
  refine ⟨s.nt, pushSt none false ins saves s, fun hc => h.ne_nt hc rfl, rfl, ?_⟩
  have a := h.push_aux (of := none) (multi := false) (by simp) hi hs
  refine { a with vl := Set.insert_subset_insert h.vl, sep := ?_ }
  rintro u (rfl | hu) w hw
  · rw [push_tens_new, push_tens_old (h.wl w hw).ne]
    exact (h.wf.sto_lt w (h.wl w hw)).ne'
  · exact a.sep u hu w hw

/-- a new tensor that may be written to -/
theorem Inv.push_w {s : St} {L V W Q : Set ℕ} (h : Inv s L V W Q) {ins saves : List ℕ} (hi : ∀ i ∈ ins, i ∈ L) (hs : ∀ i ∈ saves, i ∈ V) :
    ∃ t s', t ∉ L ∧ AG.push ins saves s = .ok (t, s') ∧ Inv s' (insert t L) V (insert t W) (Q ∪ {u | u = t ∧ ∃ i ∈ ins, i ∈ Q}) := by
  refine ⟨s.nt, pushSt none false ins saves s, fun hc => h.ne_nt hc rfl, rfl, ?_⟩
  have a := h.push_aux (of := none) (multi := false) (by simp) hi hs
  have nw : ((pushSt none false ins saves s).tens s.nt).storage = s.ns := by rw [push_tens_new]; rfl
  have ow : ∀ {u}, u < s.nt → ((pushSt none false ins saves s).tens u).storage < s.ns := fun hu => by
    rw [push_tens_old hu.ne]; exact h.wf.sto_lt _ hu
  refine { a with wl := by
                    rintro w (rfl | hw)
                    · exact Nat.lt_succ_self _
                    · exact a.wl w hw,
                   keep := ?_, sep := ?_, dist := ?_, ok := ?_ }
  · rintro u hu w (rfl | hw)
    · rintro ⟨m, hm, p, hp, e⟩
      rw [nw] at e
      have hlt : p.1 < s.ns := by
        rcases hu with rfl | hu
        · rcases inGraph_push h.wf hm with rfl | ⟨i, hii, hg⟩
          · have svn : ((pushSt none false ins saves s).node s.nn).saved = saves.map fun i => ((s.tens i).storage, s.ver (s.tens i).storage) := by
              simp [pushSt, mkNode]
            rw [svn, List.mem_map] at hp
            obtain ⟨i, hi', rfl⟩ := hp
            exact h.wf.sto_lt i (h.lt i (h.vl (hs i hi')))
          · rw [saved_old rfl (inGraph_lt h.wf hg)] at hp
            exact h.wf.sv_lt _ (inGraph_lt h.wf hg) p hp
        · rw [h.push_old hu] at hm
          rw [saved_old rfl (inGraph_lt h.wf hm)] at hp
          exact h.wf.sv_lt _ (inGraph_lt h.wf hm) p hp
      omega
    · exact a.keep u hu w hw
  · rintro u hu w (rfl | hw)
    · rw [nw]; exact (ow (h.lt _ (h.vl hu))).ne
    · exact a.sep u hu w hw
  · rintro u (rfl | hu) w (rfl | hw) hne
    · exact absurd rfl hne
    · rw [nw]; exact (ow (h.wl _ hw)).ne'
    · rw [nw]; exact (ow (h.wl _ hu)).ne
    · exact a.dist u hu w hw hne
  · rintro w (rfl | hw)
    · rw [push_tens_new]
      refine ⟨rfl, fun hr => ?_⟩
      simp only at hr
      simp [hr]
    · exact a.ok w hw

/-- a view; what it shows may be kept if the tensor may -/
theorem Inv.view {s : St} {L V W Q : Set ℕ} (h : Inv s L V W Q) {a : ℕ} (ha : a ∈ L) :
    ∃ t s', t ∉ L ∧ AG.view a s = .ok (t, s') ∧ Inv s' (insert t L) (V ∪ {u | u = t ∧ a ∈ V}) W (Q ∪ {u | u = t ∧ a ∈ Q}) := by
  refine ⟨s.nt, pushSt (some a) false [a] [] s, fun hc => h.ne_nt hc rfl, rfl, ?_⟩
  have b := h.push_aux (of := some a) (multi := false) (ins := [a]) (saves := []) (by simpa using ha) (by simpa using ha) (by simp)
  refine { b with vl := ?_, ql := ?_, sep := ?_, req := ?_ }
  · rintro u (hu | ⟨rfl, _⟩)
    · exact .inr (h.vl hu)
    · exact .inl rfl
  · rintro u (hu | ⟨rfl, _⟩)
    · exact .inr (h.ql hu)
    · exact .inl rfl
  · rintro u (hu | ⟨rfl, hv⟩) w hw
    · exact b.sep u hu w hw
    · rw [push_tens_new, push_tens_old (h.wl w hw).ne]
      exact h.sep a hv w hw
  · rintro u (hu | ⟨rfl, hq⟩)
    · exact b.req u (.inl hu)
    · exact b.req _ (.inr ⟨rfl, a, by simp, hq⟩)

/-- a product -/
theorem Inv.mul {s : St} {L V W Q : Set ℕ} (h : Inv s L V W Q) {a b : ℕ} (ha : a ∈ L) (hb : b ∈ L) (hab : (s.tens a).req = true → b ∈ V)
    (hba : (s.tens b).req = true → a ∈ V) :
    ∃ t s', t ∉ L ∧ AG.mul a b s = .ok (t, s') ∧ Inv s' (insert t L) (insert t V) W (Q ∪ {u | u = t ∧ (a ∈ Q ∨ b ∈ Q)}) := by
  unfold AG.mul
  have := h.push (ins := [a, b]) (saves := (if (s.tens a).req then [b] else []) ++ if (s.tens b).req then [a] else [])
    (by simp [ha, hb]) (by
      intro i hi
      rw [List.mem_append] at hi
      rcases hi with hi | hi
      · split_ifs at hi with hr
        · rw [List.mem_singleton.1 hi]; exact hab hr
        · simp at hi
      · split_ifs at hi with hr
        · rw [List.mem_singleton.1 hi]; exact hba hr
        · simp at hi)
  simpa using this

theorem Inv.mul_w {s : St} {L V W Q : Set ℕ} (h : Inv s L V W Q) {a b : ℕ} (ha : a ∈ V) (hb : b ∈ V) :
    ∃ t s', t ∉ L ∧ AG.mul a b s = .ok (t, s') ∧ Inv s' (insert t L) V (insert t W) (Q ∪ {u | u = t ∧ (a ∈ Q ∨ b ∈ Q)}) := by
  unfold AG.mul
  have := h.push_w (ins := [a, b]) (saves := (if (s.tens a).req then [b] else []) ++ if (s.tens b).req then [a] else [])
    (by simp [h.vl ha, h.vl hb]) (by
      intro i hi
      rw [List.mem_append] at hi
      rcases hi with hi | hi
      · split_ifs at hi with hr
        · rw [List.mem_singleton.1 hi]; exact hb
        · simp at hi
      · split_ifs at hi with hr
        · rw [List.mem_singleton.1 hi]; exact ha
        · simp at hi)
  simpa using this

/-- a write to memory nobody keeps -/
theorem Inv.write {s : St} {L V W Q : Set ℕ} (h : Inv s L V W Q) {t : ℕ} {ins : List ℕ} (ht : t ∈ W) (hi : t ∈ L → ∀ i ∈ ins, i ∈ L) :
    ∃ s', inplace t ins s = .ok ((), s') ∧ Inv s' L V W (Q ∪ {u | u = t ∧ t ∈ L ∧ ∃ i ∈ ins, i ∈ Q}) := by
  refine ⟨_, inplace_run (fun _ => (h.ok t ht).1) (h.ok t ht).2, ?_⟩
  have sv : ∀ {m}, m < s.nn → ((writeSt t ins s).node m).saved = (s.node m).saved := fun hm => saved_old rfl hm
  have svn : ((writeSt t ins s).node s.nn).saved = [] := by simp [writeSt, mkNode]
  have gr : ∀ {u m}, u ∈ L → InGraph (writeSt t ins s) u m → m = s.nn ∨ ∃ i ∈ L, InGraph s i m := by
    intro u m hu hm
    by_cases e : u = t
    · subst e
      rcases inGraph_write h.wf hm with hm | ⟨i, hii, hg⟩
      · exact .inl hm
      · refine .inr ⟨i, ?_, hg⟩
        rcases List.mem_cons.1 hii with rfl | hii
        · exact hu
        · exact hi hu i hii
    · exact .inr ⟨u, hu, (inGraph_old h.wf rfl (by rw [write_tens_old e])).1 hm⟩
  refine ⟨writeSt_wf h.wf, h.lt, h.vl, h.wl, ?_, ?_, ?_, ?_, ?_, ?_, ?_⟩
  · rintro u (hu | ⟨rfl, htL, _⟩)
    · exact h.ql hu
    · exact htL
  · intro u hu m hm p hp
    rcases gr hu hm with rfl | ⟨i, hiL, hg⟩
    · rw [svn] at hp; cases hp
    · rw [sv (inGraph_lt h.wf hg)] at hp
      have hne : p.1 ≠ (s.tens t).storage := fun e => h.keep i hiL t ht ⟨m, hg, p, hp, e⟩
      show update s.ver _ _ p.1 = _
      rw [update_of_ne hne]
      exact h.clean i hiL m hg p hp
  · rintro u hu w hw ⟨m, hm, p, hp, e⟩
    rw [write_sto] at e
    rcases gr hu hm with rfl | ⟨i, hiL, hg⟩
    · rw [svn] at hp; cases hp
    · rw [sv (inGraph_lt h.wf hg)] at hp
      exact h.keep i hiL w hw ⟨m, hg, p, hp, e⟩
  · intro u hu w hw
    rw [write_sto, write_sto]; exact h.sep u hu w hw
  · intro u hu w hw
    rw [write_sto, write_sto]; exact h.dist u hu w hw
  · intro w hw
    by_cases e : w = t
    · subst e
      rw [write_tens_new]
      refine ⟨(h.ok w hw).1, fun hr => ?_⟩
      dsimp only at hr ⊢
      rw [if_pos hr]; simp
    · rw [write_tens_old e]; exact h.ok w hw
  · rintro u (hu | ⟨rfl, _, i, hii, hq⟩)
    · by_cases e : u = t
      · subst e
        rw [write_tens_new]; simp [h.req u hu]
      · rw [write_tens_old e]; exact h.req u hu
    · rw [write_tens_new]
      simp only [Bool.or_eq_true]
      exact .inr (anyReq_iff.2 ⟨i, hii, h.req i hq⟩)

/-- a new tensor whose graph is of no interest; it may be written to -/
theorem Inv.skip {s : St} {L V W Q : Set ℕ} (h : Inv s L V W Q) {ins saves : List ℕ} (hs : ∀ i ∈ saves, i < s.nt) :
    ∃ t s', t ∉ L ∧ AG.push ins saves s = .ok (t, s') ∧ Inv s' L V (insert t W) Q ∧ (∀ u < s.nt, u < s'.nt) ∧ t < s'.nt := by
  refine ⟨s.nt, pushSt none false ins saves s, fun hc => h.ne_nt hc rfl, rfl, ?_, fun u hu => hu.trans (Nat.lt_succ_self _), Nat.lt_succ_self _⟩
  have old : ∀ {u}, u < s.nt → (pushSt none false ins saves s).tens u = s.tens u := fun hu => push_tens_old hu.ne
  have sv : ∀ {m}, m < s.nn → ((pushSt none false ins saves s).node m).saved = (s.node m).saved := fun hm => saved_old rfl hm
  have nw : ((pushSt none false ins saves s).tens s.nt).storage = s.ns := by rw [push_tens_new]; rfl
  have ow : ∀ {u}, u < s.nt → ((pushSt none false ins saves s).tens u).storage < s.ns := fun hu => by
    rw [old hu]; exact h.wf.sto_lt _ hu
  refine ⟨pushSt_wf h.wf (by simp) hs, fun u hu => (h.lt u hu).trans (Nat.lt_succ_self _), h.vl, ?_, h.ql, ?_, ?_, ?_, ?_, ?_, ?_⟩
  · rintro w (rfl | hw)
    · exact Nat.lt_succ_self _
    · exact (h.wl w hw).trans (Nat.lt_succ_self _)
  · intro u hu m hm p hp
    rw [h.push_old hu] at hm
    rw [sv (inGraph_lt h.wf hm)] at hp
    exact h.clean u hu m hm p hp
  · rintro u hu w hw ⟨m, hm, p, hp, e⟩
    rw [h.push_old hu] at hm
    rw [sv (inGraph_lt h.wf hm)] at hp
    rcases hw with rfl | hw
    · rw [nw] at e
      exact absurd e (h.wf.sv_lt _ (inGraph_lt h.wf hm) p hp).ne
    · rw [old (h.wl w hw)] at e
      exact h.keep u hu w hw ⟨m, hm, p, hp, e⟩
  · rintro u hu w (rfl | hw)
    · rw [nw]; exact (ow (h.lt _ (h.vl hu))).ne
    · rw [old (h.lt _ (h.vl hu)), old (h.wl w hw)]; exact h.sep u hu w hw
  · rintro u (rfl | hu) w (rfl | hw) hne
    · exact absurd rfl hne
    · rw [nw]; exact (ow (h.wl _ hw)).ne'
    · rw [nw]; exact (ow (h.wl _ hu)).ne
    · rw [old (h.wl _ hu), old (h.wl _ hw)]; exact h.dist u hu w hw hne
  · rintro w (rfl | hw)
    · rw [push_tens_new]
      refine ⟨rfl, fun hr => ?_⟩
      simp only at hr
      simp [hr]
    · rw [old (h.wl _ hw)]; exact h.ok w hw
  · intro u hu
    rw [old (h.lt _ (h.ql hu))]; exact h.req u hu

/-! ### functions that write to memory somebody keeps -/

/-- `L`: known tensors; `W`: those that may be written to; `Q`: those that require a gradient; `P`: those in memory block `st`; `K`: those whose
graph keeps `st`; `T`: those whose graph keeps something written to; `N`:
those that require no gradient -/
structure Bad (s : St) (st : ℕ) (L W Q P K T N : Set ℕ) : Prop where
  wf : WF s
  lt : ∀ u ∈ L, u < s.nt
  wl : W ⊆ L
  ql : Q ⊆ L
  pl : P ⊆ L
  kl : K ⊆ L
  tl : T ⊆ L
  ok : ∀ w ∈ W, (s.tens w).multi = false ∧ ((s.tens w).req = true → (s.tens w).fn ≠ none)
  req : ∀ u ∈ Q, (s.tens u).req = true
  sto : ∀ u ∈ P, (s.tens u).storage = st
  keep : ∀ u ∈ K, Keeps s u st
  taint : ∀ u ∈ T, Taint s u
  nl : N ⊆ L
  nreq : ∀ u ∈ N, (s.tens u).req = false

/-- look at another memory block -/
theorem Bad.restart {s : St} {st : ℕ} {L W Q P K T N : Set ℕ} (h : Bad s st L W Q P K T N) {t : ℕ} (ht : t ∈ L) :
    Bad s (s.tens t).storage L W Q {t} ∅ T N :=
  ⟨h.wf, h.lt, h.wl, h.ql, by simpa using ht, by simp, h.tl, h.ok, h.req, by simp, by simp, h.taint, h.nl, h.nreq⟩

theorem Bad.push_st {s : St} {st : ℕ} {L W Q P K T N : Set ℕ} (h : Bad s st L W Q P K T N) {of : Option ℕ} {multi : Bool} {ins saves : List ℕ}
    (hof : ∀ t ∈ of, t ∈ L) (hs : ∀ i ∈ saves, i ∈ L) :
    Bad (pushSt of multi ins saves s) st (insert s.nt L) (W ∪ {u | u = s.nt ∧ multi = false}) (Q ∪ {u | u = s.nt ∧ ∃ i ∈ ins, i ∈ Q})
      (P ∪ {u | u = s.nt ∧ ∃ t ∈ of, t ∈ P})
      (K ∪ {u | u = s.nt ∧ ((∃ i ∈ ins, i ∈ K) ∨ (∃ i ∈ ins, i ∈ Q) ∧ ∃ i ∈ saves, i ∈ P)}) (T ∪ {u | u = s.nt ∧ ∃ i ∈ ins, i ∈ T})
      (N ∪ {u | u = s.nt ∧ ∀ i ∈ ins, i ∈ N}) := by
  have old : ∀ {u}, u ∈ L → (pushSt of multi ins saves s).tens u = s.tens u := fun hu => push_tens_old (h.lt _ hu).ne
  have gro : ∀ {u m}, u ∈ L → InGraph s u m → InGraph (pushSt of multi ins saves s) u m := fun hu hg =>
    (inGraph_old h.wf rfl (by rw [old hu])).2 hg
  have sv : ∀ {m}, m < s.nn → ((pushSt of multi ins saves s).node m).saved = (s.node m).saved := fun hm => saved_old rfl hm
  refine ⟨pushSt_wf h.wf (fun t ht => h.lt t (hof t ht)) fun i hi => h.lt i (hs i hi), ?_, ?_, ?_, ?_, ?_, ?_, ?_, ?_, ?_, ?_, ?_, ?_, ?_⟩
  · rintro u (rfl | hu)
    · exact Nat.lt_succ_self _
    · exact (h.lt u hu).trans (Nat.lt_succ_self _)
  · rintro u (hu | ⟨rfl, _⟩)
    · exact .inr (h.wl hu)
    · exact .inl rfl
  · rintro u (hu | ⟨rfl, _⟩)
    · exact .inr (h.ql hu)
    · exact .inl rfl
  · rintro u (hu | ⟨rfl, _⟩)
    · exact .inr (h.pl hu)
    · exact .inl rfl
  · rintro u (hu | ⟨rfl, _⟩)
    · exact .inr (h.kl hu)
    · exact .inl rfl
  · rintro u (hu | ⟨rfl, _⟩)
    · exact .inr (h.tl hu)
    · exact .inl rfl
  · rintro w (hw | ⟨rfl, hm⟩)
    · rw [old (h.wl hw)]; exact h.ok w hw
    · rw [push_tens_new]
      refine ⟨hm, fun hr => ?_⟩
      simp only at hr
      simp [hr]
  · rintro u (hu | ⟨rfl, i, hi, hq⟩)
    · rw [old (h.ql hu)]; exact h.req u hu
    · rw [push_tens_new]; exact anyReq_iff.2 ⟨i, hi, h.req i hq⟩
  · rintro u (hu | ⟨rfl, t, ht, hp⟩)
    · rw [old (h.pl hu)]; exact h.sto u hu
    · rw [push_tens_new]
      have : of = some t := ht
      subst this
      exact h.sto t hp
  · rintro u (hu | ⟨rfl, ⟨i, hi, hk⟩ | ⟨⟨j, hj, hq⟩, i, hi, hp⟩⟩)
    · obtain ⟨m, hg, p, hp, e⟩ := h.keep u hu
      exact ⟨m, gro (h.kl hu) hg, p, by rwa [sv (inGraph_lt h.wf hg)], e⟩
    · obtain ⟨m, hg, p, hp, e⟩ := h.keep i hk
      exact ⟨m, inGraph_push_of h.wf hi hg, p, by rwa [sv (inGraph_lt h.wf hg)], e⟩
    · refine ⟨s.nn, (inGraph_new h.wf rfl (by rw [push_tens_new]; simp [anyReq_iff.2 ⟨j, hj, h.req j hq⟩])).2 (.inl rfl),
        ((s.tens i).storage, s.ver (s.tens i).storage), ?_, h.sto i hp⟩
      simp only [pushSt, update_self, mkNode, List.mem_map]
      exact ⟨i, hi, rfl⟩
  · rintro u (hu | ⟨rfl, i, hi, hk⟩)
    · obtain ⟨m, hg, p, hp, e⟩ := h.taint u hu
      exact ⟨m, gro (h.tl hu) hg, p, by rwa [sv (inGraph_lt h.wf hg)], e⟩
    · obtain ⟨m, hg, p, hp, e⟩ := h.taint i hk
      exact ⟨m, inGraph_push_of h.wf hi hg, p, by rwa [sv (inGraph_lt h.wf hg)], e⟩
  · rintro u (hu | ⟨rfl, _⟩)
    · exact .inr (h.nl hu)
    · exact .inl rfl
  · rintro u (hu | ⟨rfl, hi⟩)
    · rw [old (h.nl hu)]; exact h.nreq u hu
    · rw [push_tens_new]
      rw [← Bool.not_eq_true]
      intro hc
      obtain ⟨i, hii, hr⟩ := anyReq_iff.1 hc
      rw [h.nreq i (hi i hii)] at hr; cases hr

/-- a write; whoever keeps the memory is lost -/
theorem Bad.write {s : St} {st : ℕ} {L W Q P K T N : Set ℕ} (h : Bad s st L W Q P K T N) {t : ℕ} {ins : List ℕ} (htL : t ∈ L)
    (hok : ((s.tens t).req = true ∨ anyReq s ins = true → (s.tens t).multi = false) ∧ ((s.tens t).req = true → (s.tens t).fn ≠ none)) :
    ∃ s', inplace t ins s = .ok ((), s') ∧ Bad s' st L W (Q ∪ {u | u = t ∧ ∃ i ∈ ins, i ∈ Q}) P
      K (T ∪ {u | u = t ∧ ∃ i ∈ ins, i ∈ T} ∪ {u | t ∈ P ∧ (u ∈ K ∨ u = t ∧ ∃ i ∈ ins, i ∈ K)})
      {u | u ∈ N ∧ ((s.tens t).req = false ∧ anyReq s ins = false)} := by
  refine ⟨_, inplace_run hok.1 hok.2, ?_⟩
  have sv : ∀ {m}, m < s.nn → ((writeSt t ins s).node m).saved = (s.node m).saved := fun hm => saved_old rfl hm
  have gro : ∀ {u m}, InGraph s u m → InGraph (writeSt t ins s) u m := by
    intro u m hg
    by_cases e : u = t
    · subst e
      exact inGraph_write_of h.wf (by simp) hg
    · exact (inGraph_old h.wf rfl (by rw [write_tens_old e])).2 hg
  have vle : ∀ x, s.ver x ≤ (writeSt t ins s).ver x := by
    intro x
    show _ ≤ update s.ver _ _ x
    by_cases e : x = (s.tens t).storage
    · subst e; rw [update_self]; omega
    · rw [update_of_ne e]
  refine ⟨writeSt_wf h.wf, h.lt, h.wl, ?_, h.pl, h.kl, ?_, ?_, ?_, ?_, ?_, ?_, fun u hu => h.nl hu.1, ?_⟩
  · rintro u (hu | ⟨rfl, _⟩)
    · exact h.ql hu
    · exact htL
  · rintro u ((hu | ⟨rfl, _⟩) | ⟨_, hu | ⟨rfl, _⟩⟩)
    · exact h.tl hu
    · exact htL
    · exact h.kl hu
    · exact htL
  · intro w hw
    by_cases e : w = t
    · subst e
      rw [write_tens_new]
      refine ⟨(h.ok w hw).1, fun hr => ?_⟩
      dsimp only at hr ⊢
      rw [if_pos hr]; simp
    · rw [write_tens_old e]; exact h.ok w hw
  · rintro u (hu | ⟨rfl, i, hii, hq⟩)
    · by_cases e : u = t
      · subst e
        rw [write_tens_new]; simp [h.req u hu]
      · rw [write_tens_old e]; exact h.req u hu
    · rw [write_tens_new]
      simp only [Bool.or_eq_true]
      exact .inr (anyReq_iff.2 ⟨i, hii, h.req i hq⟩)
  · intro u hu
    rw [write_sto]; exact h.sto u hu
  · intro u hu
    obtain ⟨m, hg, p, hp, e⟩ := h.keep u hu
    exact ⟨m, gro hg, p, by rwa [sv (inGraph_lt h.wf hg)], e⟩
  · have aux : t ∈ P → ∀ {v u}, v ∈ K → (∀ {m}, InGraph s v m → InGraph (writeSt t ins s) u m) → Taint (writeSt t ins s) u := by
      intro hp v u hv hg'
      obtain ⟨m, hg, p, hsv, e⟩ := h.keep v hv
      refine ⟨m, hg' hg, p, by rwa [sv (inGraph_lt h.wf hg)], ?_⟩
      have := h.wf.sv_le m (inGraph_lt h.wf hg) p hsv
      show _ < update s.ver _ _ p.1
      rw [h.sto t hp, e, update_self]
      rw [e] at this; omega
    rintro u ((hu | ⟨rfl, i, hi, hk⟩) | ⟨hp, hu | ⟨rfl, i, hi, hk⟩⟩)
    · obtain ⟨m, hg, p, hp, e⟩ := h.taint u hu
      exact ⟨m, gro hg, p, by rwa [sv (inGraph_lt h.wf hg)], e.trans_le (vle _)⟩
    · obtain ⟨m, hg, p, hp, e⟩ := h.taint i hk
      exact ⟨m, inGraph_write_of h.wf (by simp [hi]) hg, p, by rwa [sv (inGraph_lt h.wf hg)], e.trans_le (vle _)⟩
    · exact aux hp hu gro
    · exact aux hp hk fun hg => inGraph_write_of h.wf (by simp [hi]) hg
  · rintro u ⟨hu, h1, h2⟩
    by_cases e : u = t
    · subst e
      rw [write_tens_new]; simp [h1, h2]
    · rw [write_tens_old e]; exact h.nreq u hu

/-- `S` has grown to `S'` -/
abbrev Sub (S S' : Set ℕ) : Prop := ∀ ⦃u⦄, u ∈ S → u ∈ S'

theorem Bad.push' {s : St} {st : ℕ} {L W Q P K T N : Set ℕ} (h : Bad s st L W Q P K T N) (ins saves : List ℕ) (hs : ∀ i ∈ saves, i ∈ L) :
    ∃ t s' L' W' Q' P' K' T' N', AG.push ins saves s = .ok (t, s') ∧ Bad s' st L' W' Q' P' K' T' N' ∧ Sub L L' ∧ Sub W W' ∧ Sub Q Q' ∧ Sub P P' ∧ Sub K K' ∧
      Sub T T' ∧ Sub N N' ∧ t ∈ L' ∧ t ∈ W' ∧ (∀ i ∈ ins, i ∈ Q → t ∈ Q') ∧ (∀ i ∈ ins, i ∈ K → t ∈ K') ∧ (∀ i ∈ ins, i ∈ T → t ∈ T') ∧
      ((∀ i ∈ ins, i ∈ N) → t ∈ N') :=
  ⟨s.nt, pushSt none false ins saves s, _, _, _, _, _, _, _, rfl, h.push_st (by simp) hs, fun _ hu => .inr hu, fun _ hu => .inl hu, fun _ hu => .inl hu,
    fun _ hu => .inl hu, fun _ hu => .inl hu, fun _ hu => .inl hu, fun _ hu => .inl hu, .inl rfl, .inr ⟨rfl, rfl⟩, fun i hi hq => .inr ⟨rfl, i, hi, hq⟩,
    fun i hi hq => .inr ⟨rfl, .inl ⟨i, hi, hq⟩⟩, fun i hi hq => .inr ⟨rfl, i, hi, hq⟩, fun hi => .inr ⟨rfl, hi⟩⟩

theorem Bad.view' {s : St} {st : ℕ} {L W Q P K T N : Set ℕ} (h : Bad s st L W Q P K T N) (a : ℕ) (ha : a ∈ L) :
    ∃ t s' L' W' Q' P' K' T' N', AG.view a s = .ok (t, s') ∧ Bad s' st L' W' Q' P' K' T' N' ∧ Sub L L' ∧ Sub W W' ∧ Sub Q Q' ∧ Sub P P' ∧ Sub K K' ∧
      Sub T T' ∧ Sub N N' ∧ t ∈ L' ∧ (a ∈ Q → t ∈ Q') ∧ (a ∈ K → t ∈ K') ∧ (a ∈ T → t ∈ T') :=
  ⟨s.nt, pushSt (some a) false [a] [] s, _, _, _, _, _, _, _, rfl, h.push_st (by simpa using ha) (by simp), fun _ hu => .inr hu, fun _ hu => .inl hu,
    fun _ hu => .inl hu, fun _ hu => .inl hu, fun _ hu => .inl hu, fun _ hu => .inl hu, fun _ hu => .inl hu, .inl rfl, fun hq => .inr ⟨rfl, a, by simp, hq⟩,
    fun hq => .inr ⟨rfl, .inl ⟨a, by simp, hq⟩⟩, fun hq => .inr ⟨rfl, a, by simp, hq⟩⟩

theorem Bad.unbind' {s : St} {st : ℕ} {L W Q P K T N : Set ℕ} (h : Bad s st L W Q P K T N) (a : ℕ) (ha : a ∈ L) :
    ∃ t s' L' W' Q' P' K' T' N', AG.unbind a s = .ok (t, s') ∧ Bad s' st L' W' Q' P' K' T' N' ∧ Sub L L' ∧ Sub W W' ∧ Sub Q Q' ∧ Sub P P' ∧ Sub K K' ∧
      Sub T T' ∧ Sub N N' ∧ t ∈ L' ∧ (a ∈ P → t ∈ P') ∧ (a ∈ N → t ∈ N') :=
  ⟨s.nt, pushSt (some a) true [a] [] s, _, _, _, _, _, _, _, rfl, h.push_st (by simpa using ha) (by simp), fun _ hu => .inr hu, fun _ hu => .inl hu,
    fun _ hu => .inl hu, fun _ hu => .inl hu, fun _ hu => .inl hu, fun _ hu => .inl hu, fun _ hu => .inl hu, .inl rfl, fun hp => .inr ⟨rfl, a, rfl, hp⟩,
    fun hq => .inr ⟨rfl, by simpa using hq⟩⟩

theorem Bad.mul' {s : St} {st : ℕ} {L W Q P K T N : Set ℕ} (h : Bad s st L W Q P K T N) (a b : ℕ) (ha : a ∈ L) (hb : b ∈ L) :
    ∃ t s' L' W' Q' P' K' T' N', AG.mul a b s = .ok (t, s') ∧ Bad s' st L' W' Q' P' K' T' N' ∧ Sub L L' ∧ Sub W W' ∧ Sub Q Q' ∧ Sub P P' ∧ Sub K K' ∧
      Sub T T' ∧ Sub N N' ∧ t ∈ L' ∧ t ∈ W' ∧ (a ∈ Q → t ∈ Q') ∧ (b ∈ Q → t ∈ Q') ∧ (a ∈ K → t ∈ K') ∧ (b ∈ K → t ∈ K') ∧
      (a ∈ T → t ∈ T') ∧ (b ∈ T → t ∈ T') ∧ (a ∈ Q → b ∈ P → t ∈ K') ∧ (b ∈ Q → a ∈ P → t ∈ K') := by
  refine ⟨s.nt, pushSt none false [a, b] ((if (s.tens a).req then [b] else []) ++ if (s.tens b).req then [a] else []) s, _, _, _, _, _, _, _, rfl,
    h.push_st (by simp) ?_, fun _ hu => .inr hu, fun _ hu => .inl hu, fun _ hu => .inl hu,
    fun _ hu => .inl hu, fun _ hu => .inl hu, fun _ hu => .inl hu, fun _ hu => .inl hu, .inl rfl, .inr ⟨rfl, rfl⟩, ?_, ?_, ?_, ?_, ?_, ?_, ?_, ?_⟩
  · intro i hi
    rw [List.mem_append] at hi
    rcases hi with hi | hi
    · split_ifs at hi with hr
      · rw [List.mem_singleton.1 hi]; exact hb
      · simp at hi
    · split_ifs at hi with hr
      · rw [List.mem_singleton.1 hi]; exact ha
      · simp at hi
  · exact fun hq => .inr ⟨rfl, a, by simp, hq⟩
  · exact fun hq => .inr ⟨rfl, b, by simp, hq⟩
  · exact fun hq => .inr ⟨rfl, .inl ⟨a, by simp, hq⟩⟩
  · exact fun hq => .inr ⟨rfl, .inl ⟨b, by simp, hq⟩⟩
  · exact fun hq => .inr ⟨rfl, a, by simp, hq⟩
  · exact fun hq => .inr ⟨rfl, b, by simp, hq⟩
  · exact fun hq hp => .inr ⟨rfl, .inr ⟨⟨a, by simp, hq⟩, b, by simp [h.req a hq], hp⟩⟩
  · exact fun hq hp => .inr ⟨rfl, .inr ⟨⟨b, by simp, hq⟩, a, by simp [h.req b hq], hp⟩⟩

/-- a write with or without gradients; who keeps the memory is lost -/
theorem Bad.write' {s : St} {st : ℕ} {L W Q P K T N : Set ℕ} (h : Bad s st L W Q P K T N) (t : ℕ) (ins : List ℕ) (ht : t ∈ W) :
    ∃ s' Q' T', inplace t ins s = .ok ((), s') ∧ Bad s' st L W Q' P K T' ∅ ∧ Sub Q Q' ∧ Sub T T' ∧
      (∀ i ∈ ins, i ∈ Q → t ∈ Q') ∧ (∀ i ∈ ins, i ∈ T → t ∈ T') ∧ (t ∈ P → ∀ u ∈ K, u ∈ T') ∧ (t ∈ P → ∀ i ∈ ins, i ∈ K → t ∈ T') := by
  obtain ⟨s', e, b⟩ := h.write (ins := ins) (h.wl ht) ⟨fun _ => (h.ok t ht).1, (h.ok t ht).2⟩
  exact ⟨s', _, _, e, { b with nl := by simp, nreq := by simp }, fun _ hu => .inl hu, fun _ hu => .inl (.inl hu), fun i hi hq => .inr ⟨rfl, i, hi, hq⟩,
    fun i hi hq => .inl (.inr ⟨rfl, i, hi, hq⟩), fun hp u hu => .inr ⟨hp, .inl hu⟩, fun hp i hi hk => .inr ⟨hp, .inr ⟨rfl, i, hi, hk⟩⟩⟩

/-- a write without gradients, also to an output of `unbind` -/
theorem Bad.quiet' {s : St} {st : ℕ} {L W Q P K T N : Set ℕ} (h : Bad s st L W Q P K T N) (t : ℕ) (ins : List ℕ) (ht : t ∈ N) (hi : ∀ i ∈ ins, i ∈ N) :
    ∃ s' Q' T' N', inplace t ins s = .ok ((), s') ∧ Bad s' st L W Q' P K T' N' ∧ Sub Q Q' ∧ Sub T T' ∧ Sub N N' ∧ (t ∈ P → ∀ u ∈ K, u ∈ T') := by
  have h1 := h.nreq t ht
  have h2 : anyReq s ins = false := by
    rw [← Bool.not_eq_true]
    intro hc
    obtain ⟨i, hii, hr⟩ := anyReq_iff.1 hc
    rw [h.nreq i (hi i hii)] at hr; cases hr
  obtain ⟨s', e, b⟩ := h.write (ins := ins) (h.nl ht) ⟨by simp [h1, h2], by simp [h1]⟩
  exact ⟨s', _, _, _, e, b, fun _ hu => .inl hu, fun _ hu => .inl (.inl hu), fun _ hu => ⟨hu, h1, h2⟩, fun hp u hu => .inr ⟨hp, .inl hu⟩⟩

/-- a new tensor leaves the others alone -/
theorem push_same {s s' : St} {ins saves : List ℕ} {t u : ℕ} (e : AG.push ins saves s = .ok (t, s')) (hu : u < s.nt) : s'.tens u = s.tens u ∧ u < s'.nt := by
  cases e
  exact ⟨push_tens_old (of := none) (multi := false) hu.ne, hu.trans (Nat.lt_succ_self _)⟩

theorem mul_same {s s' : St} {a b t u : ℕ} (e : AG.mul a b s = .ok (t, s')) (hu : u < s.nt) : s'.tens u = s.tens u ∧ u < s'.nt := push_same e hu

theorem unbind_same {s s' : St} {a t u : ℕ} (e : AG.unbind a s = .ok (t, s')) (hu : u < s.nt) : s'.tens u = s.tens u ∧ u < s'.nt := by
  cases e
  exact ⟨push_tens_old (of := some a) (multi := true) hu.ne, hu.trans (Nat.lt_succ_self _)⟩

theorem Outcome.bind {α β} {m : G α} {f : α → G β} {s s' : St} {a : α} {Q : β → St → Prop} (h : m s = .ok (a, s')) (k : Outcome (f a) s' Q) :
    Outcome (m >>= f) s Q := by
  obtain ⟨b, s2, e, q⟩ := k
  exact ⟨b, s2, by rw [bind_run h, e], q⟩

theorem Outcome.pure {α} {a : α} {s : St} {Q : α → St → Prop} (h : Q a s) : Outcome (pure a : G α) s Q := ⟨a, s, rfl, h⟩

theorem Outcome.last {α} {m : G α} {s s' : St} {a : α} {Q : α → St → Prop} (h : m s = .ok (a, s')) (k : Q a s') : Outcome m s Q := ⟨a, s', h, k⟩

/-- the tensors there are whose graphs are clean -/
def good0 (s : St) : Set ℕ := {u | u < s.nt ∧ Clean s u}
/-- those of them that require a gradient -/
def req0 (s : St) : Set ℕ := {u | u ∈ good0 s ∧ (s.tens u).req = true}

theorem Inv.init {s : St} (w : WF s) : Inv s (good0 s) (good0 s) ∅ (req0 s) :=
  ⟨w, fun u hu => hu.1, le_rfl, by simp, fun u hu => hu.1, fun u hu => hu.2, by simp, by simp, by simp, by simp, fun u hu => hu.2⟩

theorem clean_of_backward {s : St} (w : WF s) {u : ℕ} (h : (s.tens u).req = true → backward u s = .ok ()) : Clean s u := by
  intro m hm p hp
  have hr : (s.tens u).req = true := by
    by_contra hc
    exact inGraph_none (w.req_fn u (by simpa using hc)) hm
  have hb := h hr
  unfold backward at hb
  rw [if_neg (by simp [hr])] at hb
  split_ifs at hb with hc
  by_contra hne
  obtain ⟨n, hn, hg⟩ := hm
  exact hc ⟨n, hn, m, hg, p, hp, hne⟩

theorem backward_ok {s : St} {u : ℕ} (h : backward u s = .ok ()) : (s.tens u).req = true := by
  unfold backward at h
  split_ifs at h with h1
  simpa using h1

theorem Inv.push' {s : St} {L V W Q : Set ℕ} (h : Inv s L V W Q) (ins saves : List ℕ) (hi : ∀ i ∈ ins, i ∈ L) (hs : ∀ i ∈ saves, i ∈ V) :
    ∃ t s' L' V' Q', AG.push ins saves s = .ok (t, s') ∧ Inv s' L' V' W Q' ∧ (∀ ⦃u⦄, u ∈ L → u ∈ L') ∧ (∀ ⦃u⦄, u ∈ V → u ∈ V') ∧
      (∀ ⦃u⦄, u ∈ Q → u ∈ Q') ∧ t ∈ L' ∧ t ∈ V' ∧ ∀ i ∈ ins, i ∈ Q → t ∈ Q' := by
  obtain ⟨t, s', _, e, i⟩ := h.push hi hs
  exact ⟨t, s', _, _, _, e, i, fun u hu => .inr hu, fun u hu => .inr hu, fun u hu => .inl hu, .inl rfl, .inl rfl, fun j hj hq => .inr ⟨rfl, j, hj, hq⟩⟩

theorem Inv.push_w' {s : St} {L V W Q : Set ℕ} (h : Inv s L V W Q) (ins saves : List ℕ) (hi : ∀ i ∈ ins, i ∈ L) (hs : ∀ i ∈ saves, i ∈ V) :
    ∃ t s' L' V' W' Q', AG.push ins saves s = .ok (t, s') ∧ Inv s' L' V' W' Q' ∧ (∀ ⦃u⦄, u ∈ L → u ∈ L') ∧ (∀ ⦃u⦄, u ∈ V → u ∈ V') ∧
      (∀ ⦃u⦄, u ∈ Q → u ∈ Q') ∧ (∀ ⦃u⦄, u ∈ W → u ∈ W') ∧ t ∈ L' ∧ t ∈ W' ∧ ∀ i ∈ ins, i ∈ Q → t ∈ Q' := by
  obtain ⟨t, s', _, e, i⟩ := h.push_w hi hs
  exact ⟨t, s', _, _, _, _, e, i, fun u hu => .inr hu, fun u hu => hu, fun u hu => .inl hu, fun u hu => .inr hu, .inl rfl, .inl rfl,
    fun j hj hq => .inr ⟨rfl, j, hj, hq⟩⟩

theorem Inv.view' {s : St} {L V W Q : Set ℕ} (h : Inv s L V W Q) (a : ℕ) (ha : a ∈ L) :
    ∃ t s' L' V' Q', AG.view a s = .ok (t, s') ∧ Inv s' L' V' W Q' ∧ (∀ ⦃u⦄, u ∈ L → u ∈ L') ∧ (∀ ⦃u⦄, u ∈ V → u ∈ V') ∧
      (∀ ⦃u⦄, u ∈ Q → u ∈ Q') ∧ t ∈ L' ∧ (a ∈ V → t ∈ V') ∧ (a ∈ Q → t ∈ Q') := by
  obtain ⟨t, s', _, e, i⟩ := h.view ha
  exact ⟨t, s', _, _, _, e, i, fun u hu => .inr hu, fun u hu => .inl hu, fun u hu => .inl hu, .inl rfl, fun hv => .inr ⟨rfl, hv⟩, fun hq => .inr ⟨rfl, hq⟩⟩

theorem Inv.mul' {s : St} {L V W Q : Set ℕ} (h : Inv s L V W Q) (a b : ℕ) (ha : a ∈ V) (hb : b ∈ V) :
    ∃ t s' L' V' Q', AG.mul a b s = .ok (t, s') ∧ Inv s' L' V' W Q' ∧ (∀ ⦃u⦄, u ∈ L → u ∈ L') ∧ (∀ ⦃u⦄, u ∈ V → u ∈ V') ∧
      (∀ ⦃u⦄, u ∈ Q → u ∈ Q') ∧ t ∈ L' ∧ t ∈ V' ∧ (a ∈ Q → t ∈ Q') ∧ (b ∈ Q → t ∈ Q') := by
  obtain ⟨t, s', _, e, i⟩ := h.mul (h.vl ha) (h.vl hb) (fun _ => hb) fun _ => ha
  exact ⟨t, s', _, _, _, e, i, fun u hu => .inr hu, fun u hu => .inr hu, fun u hu => .inl hu, .inl rfl, .inl rfl, fun hq => .inr ⟨rfl, .inl hq⟩,
    fun hq => .inr ⟨rfl, .inr hq⟩⟩

theorem Inv.mul_w' {s : St} {L V W Q : Set ℕ} (h : Inv s L V W Q) (a b : ℕ) (ha : a ∈ V) (hb : b ∈ V) :
    ∃ t s' L' V' W' Q', AG.mul a b s = .ok (t, s') ∧ Inv s' L' V' W' Q' ∧ (∀ ⦃u⦄, u ∈ L → u ∈ L') ∧ (∀ ⦃u⦄, u ∈ V → u ∈ V') ∧
      (∀ ⦃u⦄, u ∈ Q → u ∈ Q') ∧ (∀ ⦃u⦄, u ∈ W → u ∈ W') ∧ t ∈ L' ∧ t ∈ W' ∧ (a ∈ Q → t ∈ Q') ∧ (b ∈ Q → t ∈ Q') := by
  obtain ⟨t, s', _, e, i⟩ := h.mul_w ha hb
  exact ⟨t, s', _, _, _, _, e, i, fun u hu => .inr hu, fun u hu => hu, fun u hu => .inl hu, fun u hu => .inr hu, .inl rfl, .inl rfl,
    fun hq => .inr ⟨rfl, .inl hq⟩, fun hq => .inr ⟨rfl, .inr hq⟩⟩

/-- a product with a tensor that may be written to, by one that requires no gradient -/
theorem Inv.mul_left' {s : St} {L V W Q : Set ℕ} (h : Inv s L V W Q) (a b : ℕ) (ha : a ∈ L) (hb : b ∈ V) (hr : (s.tens b).req = false) :
    ∃ t s' L' V' Q', AG.mul a b s = .ok (t, s') ∧ Inv s' L' V' W Q' ∧ (∀ ⦃u⦄, u ∈ L → u ∈ L') ∧ (∀ ⦃u⦄, u ∈ V → u ∈ V') ∧
      (∀ ⦃u⦄, u ∈ Q → u ∈ Q') ∧ t ∈ L' ∧ t ∈ V' ∧ (a ∈ Q → t ∈ Q') ∧ (b ∈ Q → t ∈ Q') := by
  obtain ⟨t, s', _, e, i⟩ := h.mul ha (h.vl hb) (fun _ => hb) fun hc => by rw [hr] at hc; cases hc
  exact ⟨t, s', _, _, _, e, i, fun u hu => .inr hu, fun u hu => .inr hu, fun u hu => .inl hu, .inl rfl, .inl rfl, fun hq => .inr ⟨rfl, .inl hq⟩,
    fun hq => .inr ⟨rfl, .inr hq⟩⟩

theorem Inv.write' {s : St} {L V W Q : Set ℕ} (h : Inv s L V W Q) (t : ℕ) (ins : List ℕ) (ht : t ∈ W) (htL : t ∈ L) (hi : ∀ i ∈ ins, i ∈ L) :
    ∃ s' Q', inplace t ins s = .ok ((), s') ∧ Inv s' L V W Q' ∧ (∀ ⦃u⦄, u ∈ Q → u ∈ Q') ∧ ∀ i ∈ ins, i ∈ Q → t ∈ Q' := by
  obtain ⟨s', e, i⟩ := h.write ht fun _ => hi
  exact ⟨s', _, e, i, fun u hu => .inl hu, fun j hj hq => .inr ⟨rfl, htL, j, hj, hq⟩⟩

theorem Args.good {s : St} {args : List ℕ} (h : Args s args) (w : WF s) : ∀ a ∈ args, a ∈ good0 s :=
  fun a ha => ⟨(h a ha).1, clean_of_backward w (h a ha).2⟩

theorem safeAt_of_inv {s s' : St} {args : List ℕ} (w : WF s) (ha : Args s args) {L V W Q : Set ℕ} (h : Inv s' L V W Q) {t : ℕ} (ht : t ∈ L)
    (hq : ∀ a ∈ args, a ∈ req0 s → t ∈ Q) (hL : good0 s ⊆ L) (hQ : req0 s ⊆ Q) : SafeAt s args t s' := by
  refine ⟨?_, ?_⟩
  · rintro ⟨a, hm, hr⟩
    exact backward_clean (h.req t (hq a hm ⟨ha.good w a hm, hr⟩)) (h.clean t ht)
  · intro u hu hb
    have hg : u ∈ good0 s := ⟨hu, clean_of_backward w fun _ => hb⟩
    exact backward_clean (h.req u (hQ ⟨hg, backward_ok hb⟩)) (h.clean u (hL hg))

/-- the tensors with clean graphs that do not keep memory block `st` -/
def goodBut (s : St) (st : ℕ) : Set ℕ := {u | u ∈ good0 s ∧ ¬ Keeps s u st}
/-- those of them that are stored elsewhere -/
def farBut (s : St) (st : ℕ) : Set ℕ := {u | u ∈ goodBut s st ∧ (s.tens u).storage ≠ st}
/-- those of them that require a gradient -/
def reqBut (s : St) (st : ℕ) : Set ℕ := {u | u ∈ goodBut s st ∧ (s.tens u).req = true}

theorem Inv.init_w {s : St} (w : WF s) {q : ℕ} (hq : q < s.nt) (hm : (s.tens q).multi = false) (hl : (s.tens q).req = true → (s.tens q).fn ≠ none) :
    Inv s (goodBut s (s.tens q).storage) (farBut s (s.tens q).storage) {q} (reqBut s (s.tens q).storage) :=
  ⟨w, fun u hu => hu.1.1, fun u hu => hu.1, by rintro _ rfl; exact hq, fun u hu => hu.1, fun u hu => hu.1.2, by rintro u hu _ rfl; exact hu.2,
    by rintro u hu _ rfl; exact hu.2, by rintro _ rfl _ rfl hne; exact absurd rfl hne, by rintro _ rfl; exact ⟨hm, hl⟩, fun u hu => hu.2⟩

/-- nothing is written to any more -/
theorem Inv.doneAll {s : St} {L V W Q : Set ℕ} (h : Inv s L V W Q) :
    ∃ V', Inv s L V' ∅ Q ∧ (∀ ⦃u⦄, u ∈ V → u ∈ V') ∧ ∀ ⦃u⦄, u ∈ W → u ∈ L → u ∈ V' :=
  ⟨V ∪ (W ∩ L), { h with vl := Set.union_subset h.vl Set.inter_subset_right, wl := by simp, keep := by simp, sep := by simp, dist := by simp, ok := by simp },
    fun _ hu => .inl hu, fun _ h1 h2 => .inr ⟨h1, h2⟩⟩

/-- a product of a tensor that requires no gradient with one that may be written to -/
theorem Inv.mul_right' {s : St} {L V W Q : Set ℕ} (h : Inv s L V W Q) (a b : ℕ) (ha : a ∈ V) (hb : b ∈ L) (hr : (s.tens a).req = false) :
    ∃ t s' L' V' Q', AG.mul a b s = .ok (t, s') ∧ Inv s' L' V' W Q' ∧ (∀ ⦃u⦄, u ∈ L → u ∈ L') ∧ (∀ ⦃u⦄, u ∈ V → u ∈ V') ∧
      (∀ ⦃u⦄, u ∈ Q → u ∈ Q') ∧ t ∈ L' ∧ t ∈ V' ∧ (a ∈ Q → t ∈ Q') ∧ (b ∈ Q → t ∈ Q') := by
  obtain ⟨t, s', _, e, i⟩ := h.mul (h.vl ha) hb (fun hc => by rw [hr] at hc; cases hc) fun _ => ha
  exact ⟨t, s', _, _, _, e, i, fun u hu => .inr hu, fun u hu => .inr hu, fun u hu => .inl hu, .inl rfl, .inl rfl, fun hq => .inr ⟨rfl, .inl hq⟩,
    fun hq => .inr ⟨rfl, .inr hq⟩⟩

theorem Inv.skip_mul {s : St} {L V W Q : Set ℕ} (h : Inv s L V W Q) {a b : ℕ} (ha : a < s.nt) (hb : b < s.nt) :
    ∃ t s', t ∉ L ∧ AG.mul a b s = .ok (t, s') ∧ Inv s' L V (insert t W) Q ∧ (∀ u < s.nt, u < s'.nt) ∧ t < s'.nt := by
  refine h.skip (ins := [a, b]) (saves := (if (s.tens a).req then [b] else []) ++ if (s.tens b).req then [a] else []) ?_
  intro i hi
  rw [List.mem_append] at hi
  rcases hi with hi | hi
  · split_ifs at hi with hr
    · rw [List.mem_singleton.1 hi]; exact hb
    · simp at hi
  · split_ifs at hi with hr
    · rw [List.mem_singleton.1 hi]; exact ha
    · simp at hi

theorem push_fresh {s s' : St} {ins saves : List ℕ} {t : ℕ} (e : AG.push ins saves s = .ok (t, s')) : t = s.nt := by
  cases e; rfl

/-- start of the bookkeeping of what a write destroys -/
theorem Bad.init {s : St} (w : WF s) (q : ℕ) (hq : q < s.nt) (hm : (s.tens q).multi = false) (hl : (s.tens q).req = true → (s.tens q).fn ≠ none) :
    Bad s (s.tens q).storage {u | u < s.nt} {q} {u | u < s.nt ∧ (s.tens u).req = true} {q} ∅ ∅ {u | u < s.nt ∧ (s.tens u).req = false} :=
  ⟨w, fun _ h => h, by simpa using hq, fun _ h => h.1, by simpa using hq, by simp, by simp, by rintro _ rfl; exact ⟨hm, hl⟩, fun _ h => h.2, by simp,
    by simp, by simp, fun _ h => h.1, fun _ h => h.2⟩

/-- the same without a tensor to write to -/
theorem Bad.init' {s : St} (w : WF s) (q : ℕ) (hq : q < s.nt) :
    Bad s (s.tens q).storage {u | u < s.nt} ∅ {u | u < s.nt ∧ (s.tens u).req = true} {q} ∅ ∅ {u | u < s.nt ∧ (s.tens u).req = false} :=
  ⟨w, fun _ h => h, by simp, fun _ h => h.1, by simpa using hq, by simp, by simp, by simp, fun _ h => h.2, by simp, by simp, by simp, fun _ h => h.1, fun _ h => h.2⟩

theorem push_ex (ins saves : List ℕ) (s : St) : ∃ t s', AG.push ins saves s = .ok (t, s') ∧ ∀ u < s.nt, s'.tens u = s.tens u ∧ u < s'.nt :=
  ⟨_, _, rfl, fun _ hu => push_same rfl hu⟩

theorem mul_ex (a b : ℕ) (s : St) : ∃ t s', AG.mul a b s = .ok (t, s') ∧ ∀ u < s.nt, s'.tens u = s.tens u ∧ u < s'.nt :=
  ⟨_, _, rfl, fun _ hu => push_same rfl hu⟩

theorem unbind_ex (a : ℕ) (s : St) : ∃ t s', AG.unbind a s = .ok (t, s') ∧ (∀ u < s.nt, s'.tens u = s.tens u ∧ u < s'.nt) ∧ t < s'.nt ∧
    (s'.tens t).multi = true ∧ (s'.tens t).req = (s.tens a).req := by
  refine ⟨s.nt, pushSt (some a) true [a] [] s, rfl, fun _ hu => unbind_same rfl hu, Nat.lt_succ_self _, ?_⟩
  rw [push_tens_new]
  simp [anyReq]

end PK.AG
