import Verif.Spec.Loads
import Verif.Spec.Scatter

/-! Specification of static equilibrium, at the level of nodes: no equation numbers appear. A nodal
field is a function `u p j` of the node position `p` and the component `j`. -/

namespace SolidsPy
namespace Spec

/-- An element as mechanics sees it: the positions of its nodes and its stiffness coefficients.
Local degree of freedom `j` of its `a`-th node has index `nd*a + j`. -/
structure Member (K : Type) where
  nodes : List ℕ
  k : ℕ → ℕ → K

section
variable {K : Type} [Field K]

/-- Force on component `j` of the `a`-th node of the element under the nodal field `u`. -/
def Member.force (nd : ℕ) (m : Member K) (u : ℕ → ℕ → K) (a j : ℕ) : K :=
  ∑ b ∈ Finset.range m.nodes.length, ∑ c ∈ Finset.range nd,
    m.k (nd * a + j) (nd * b + c) * u (m.nodes.getD b 0) c

/-- The stiffness form of the element on two nodal fields. -/
def Member.form (nd : ℕ) (m : Member K) (v u : ℕ → ℕ → K) : K :=
  ∑ a ∈ Finset.range m.nodes.length, ∑ j ∈ Finset.range nd,
    v (m.nodes.getD a 0) j * m.force nd u a j

/-- Internal force at component `j` of node `p`: the sum over the elements meeting there. -/
def internal (nd : ℕ) (ms : List (Member K)) (u : ℕ → ℕ → K) (p j : ℕ) : K :=
  (ms.map fun m => ∑ a ∈ Finset.range m.nodes.length,
    if m.nodes[a]? = some p then m.force nd u a j else 0).sum

variable [LinearOrder K]

/-- `x` is the load applied to component `j` of node `p`: the last row naming the node decides, and it
is 0 if there is none. -/
def IsLoad (n : ℕ) (loads : List (List K)) (p j : ℕ) (x : K) : Prop :=
  ((∀ L ∈ loads, ¬ Names n L p) ∧ x = 0) ∨
  ∃ pre L post, loads = pre ++ L :: post ∧ Names n L p ∧ (∀ L' ∈ post, ¬ Names n L' p) ∧
    L[j + 1]? = some x

/-- The field vanishes at every existing degree of freedom that is not free. -/
def Admissible (cons : List (List K)) (nd : ℕ) (u : ℕ → ℕ → K) : Prop :=
  ∀ p j, p < cons.length → j < nd → ¬ Free cons nd p j → u p j = 0

/-- The field is admissible and internal forces balance the loads at every free degree of freedom. -/
def Equilibrium (cons : List (List K)) (nd : ℕ) (loads : List (List K)) (ms : List (Member K))
    (u : ℕ → ℕ → K) : Prop :=
  Admissible cons nd u ∧
  ∀ p j, Free cons nd p j → IsLoad cons.length loads p j (internal nd ms u p j)

/-- The structure is stable: the only admissible field without internal forces is zero. -/
def Stable (cons : List (List K)) (nd : ℕ) (ms : List (Member K)) : Prop :=
  ∀ u : ℕ → ℕ → K, Admissible cons nd u → (∀ p j, Free cons nd p j → internal nd ms u p j = 0) →
    ∀ p j, p < cons.length → j < nd → u p j = 0

/-- `m` is the element described by the row `el`: its nodes are those of the connectivity, and its
stiffness is what routine `fn ty` computes from the coordinates of those nodes (the columns after the
id) and the material row. -/
def IsMember (fn : ℤ → Uel K → Prop) (mats nodes : List (List K)) (el : List ℤ) (m : Member K) :
    Prop :=
  ∃ ty mi params rows f kl ml, el[1]? = some ty ∧ el[2]? = some mi ∧
    (∃ q, Resolves mats.length mi q ∧ mats[q]? = some params) ∧
    List.Forall₂ (Resolves nodes.length) (el.drop 3) m.nodes ∧
    List.Forall₂ (fun p row => nodes[p]? = some row) m.nodes rows ∧
    fn ty f ∧ f (rows.map (List.drop 1)) params = .ok (kl, ml) ∧ m.k = cell kl

end

/-- The nodal field stored in a table (one row per node). -/
def fieldOf {K : Type} [Field K] (t : List (List K)) (p j : ℕ) : K := (entry t p j).getD 0

end Spec
end SolidsPy
