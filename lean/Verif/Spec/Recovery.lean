import Verif.Spec.Mesh
import Verif.Spec.Element

/-! # Vocabulary for the recovery of nodal strains -/

namespace SolidsPy
namespace Spec

/-- Node `k` (of `nn` nodes) is one of the nodes listed by the element row. -/
def Lists (nn : ℕ) (el : List ℤ) (k : ℕ) : Prop := ∃ z ∈ el.drop 3, Resolves nn z k

/-- The positions in the element row's node list that name node `k`. -/
def spots (nn : ℕ) (el : List ℤ) (k : ℕ) : List ℕ :=
  ((el.drop 3).zipIdx.filter fun x => decide (Resolves nn x.1 k)).map Prod.snd

/-- All occurrences of node `k` in the mesh, as (element row, position). -/
def occurrences (nn : ℕ) (els : List (List ℤ)) (k : ℕ) : List (List ℤ × ℕ) :=
  els.flatMap fun el => (spots nn el k).map fun a => (el, a)

/-- Mean of a quantity over a list; none for the empty list. -/
def mean {α K : Type} [Field K] (l : List α) (f : α → K) : Option K :=
  if l = [] then none else some ((l.map f).sum / (l.length : K))

/-- The displacement table holds the field `c + G x` at the nodes. -/
def Samples {K : Type} [Field K] (nodes sol : Table K) (c : Fin 2 → K) (G : Matrix (Fin 2) (Fin 2) K) : Prop :=
  sol.length = nodes.length ∧ ∀ (i : ℕ) (nd u : List K), nodes[i]? = some nd → sol[i]? = some u →
    ∀ x y, nd[1]? = some x → nd[2]? = some y →
      u[0]? = some (c 0 + (G 0 0 * x + G 0 1 * y)) ∧ u[1]? = some (c 1 + (G 1 0 * x + G 1 1 * y))

end Spec
end SolidsPy
