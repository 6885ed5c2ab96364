import Verif.Model.InPlace

/-! What C131 asks of a function: it raises nothing, its result can be backpropagated from, and no gradient is lost elsewhere. -/

namespace PK.AG
open Relation

/-- names in use are below the counters, edges go to older nodes, and no node knows more writes than there were -/
structure WF (s : St) : Prop where
  fn_lt : ∀ u, ∀ n ∈ (s.tens u).fn, n < s.nn
  next_lt : ∀ n, ∀ k ∈ (s.node n).next, k < n
  sto_lt : ∀ u < s.nt, (s.tens u).storage < s.ns
  sv_lt : ∀ n < s.nn, ∀ p ∈ (s.node n).saved, p.1 < s.ns
  sv_le : ∀ n < s.nn, ∀ p ∈ (s.node n).saved, p.2 ≤ s.ver p.1
  req_fn : ∀ u, (s.tens u).req = false → (s.tens u).fn = none

/-- node `m` is in the graph of tensor `u` -/
def InGraph (s : St) (u m : ℕ) : Prop := ∃ n ∈ (s.tens u).fn, ReflTransGen (Edge s) n m

/-- the graph of `u` keeps memory block `st` -/
def Keeps (s : St) (u st : ℕ) : Prop := ∃ m, InGraph s u m ∧ ∃ p ∈ (s.node m).saved, p.1 = st

/-- `m` succeeds in `s` with a result and a state that satisfy `Q` -/
def Outcome {α} (m : G α) (s : St) (Q : α → St → Prop) : Prop := ∃ a s', m s = .ok (a, s') ∧ Q a s'

/-- the names in `args` are tensors from which backpropagation works, if they require a gradient -/
def Args (s : St) (args : List ℕ) : Prop := ∀ a ∈ args, a < s.nt ∧ ((s.tens a).req = true → backward a s = .ok ())

/-- a function that raises nothing, whose result can be backpropagated from, and after which backpropagation works wherever it did before -/
def SafeAt (s : St) (args : List ℕ) (t : ℕ) (s' : St) : Prop :=
  ((∃ a ∈ args, (s.tens a).req = true) → backward t s' = .ok ()) ∧ ∀ u < s.nt, backward u s = .ok () → backward u s' = .ok ()

end PK.AG
