import Verif.Store.ModelData

/-!
# What the neighbourhoods of a node are expected to be
-/

namespace Store
variable {N P : Type}

/-- The service tells of an arc from the node: it has such a triple, or the node is blank and it has
such a triple for any node. -/
def Tells (K : Kinds N) (w : List (Tr N P)) (s : N) (p : P) (o : N) : Prop :=
  ∃ n, (n, p, o) ∈ w ∧ (n = s ∨ K.isBlank s = true)

variable [DecidableEq N] [DecidableEq P]

/-- The states of a service with the same triples all along: it may go down and come back, and be
asked at any time. -/
inductive Reach (K : Kinds N) : Endpoint N P → Prop where
  | new (w : List (Tr N P)) (up : Bool) : Reach K (Endpoint.new w up)
  | turn {e : Endpoint N P} (up : Bool) : Reach K e → Reach K { e with up := up }
  | ask {e : Endpoint N P} (s : N) (preds : List P) : Reach K e → Reach K (e.outgoing K s preds).2

/-- The data says that there is such an arc: it is in the primary graph, or in a service in use. -/
def Data.Says (D : Data N P) (t : Tr N P) : Prop :=
  (match D.primary with
    | .mem g => t ∈ g
    | .endpoint e => t ∈ e.content) ∨ ∃ e ∈ D.uses, t ∈ e.content

/-- The services of the data are in some state with the triples they started with. -/
def Data.Steady (K : Kinds N) (D : Data N P) : Prop :=
  (∀ e, D.primary = .endpoint e → Reach K e) ∧ ∀ e ∈ D.uses, Reach K e

/-- All the services of the data answer. -/
def Data.Up (D : Data N P) : Prop :=
  (∀ e, D.primary = .endpoint e → e.up = true) ∧ ∀ e ∈ D.uses, e.up = true

end Store
