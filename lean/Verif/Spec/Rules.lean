import Verif.Spec.Element

/-! Quadrature rules of the element routines (points and weights from the tables of `gaussutil`), and the
reading of returned arrays by nodes and components. -/

namespace SolidsPy
namespace Spec
open Fem Uel Gauss

section
variable {K : Type} [Field K] [LinearOrder K] {d n : ℕ}

/-- Shape functions at the points of a rule, with weights. -/
abbrev QRule (K : Type) (d n : ℕ) := List (Shape K d n × K)

/-- Sum of weight times Jacobian determinant: area or volume according to the rule. -/
def extent (R : List (Shape K d n × K)) (X : Matrix (Fin n) (Fin d) K) : K :=
  (R.map fun x => x.2 * (x.1.2 * X).det).sum

/-- Jacobian determinant at a point of the rule. -/
def jdet (sh : Shape K d n) (X : Matrix (Fin n) (Fin d) K) : K := (sh.2 * X).det

/-- Rule of `elast_tri3`. -/
def ruleTri3 : QRule K 2 3 :=
  (ptsTri2.zip wtsTri2).map fun x => (shapeTri3 (x.1.1 : K) (x.1.2 : K), 0.5 * (x.2 : K))

/-- Rule of `elast_tri6`. -/
def ruleTri6 : QRule K 2 6 :=
  (ptsTri3.zip wtsTri3).map fun x => (shapeTri6 (x.1.1 : K) (x.1.2 : K), 0.5 * (x.2 : K))

/-- Shape functions at a point of a tensor rule. -/
def at2 (f : K → K → Shape K 2 n) (p : List ℚ) : Shape K 2 n := f (p.getD 0 0 : ℚ) (p.getD 1 0 : ℚ)

/-- Shape functions at a point of a tensor rule. -/
def at3 (f : K → K → K → Shape K 3 n) (p : List ℚ) : Shape K 3 n :=
  f (p.getD 0 0 : ℚ) (p.getD 1 0 : ℚ) (p.getD 2 0 : ℚ)

/-- Rule of the quadrilateral routines. -/
def ruleQuad (f : K → K → Shape K 2 n) (pts wts : List ℚ) : QRule K 2 n :=
  ((prodRepeat pts 2).zip ((prodRepeat wts 2).map List.prod)).map fun x => (at2 f x.1, (x.2 : K))

/-- Rule of `elast_hex8`. -/
def ruleHex8 : QRule K 3 8 :=
  ((prodRepeat pts1d2 3).zip ((prodRepeat wts1d2 3).map List.prod)).map
    fun x => (at3 shapeHex8 x.1, (x.2 : K))

/-- Rule of `elast_tet4`. -/
def ruleTet4 : QRule K 3 4 :=
  (ptsTet3.zip wtsTet3).map fun x =>
    (shapeTet4 (x.1.1 : K) (x.1.2.1 : K) (x.1.2.2 : K), (x.2 : K) / 6)

/-- The rule of `elast_axi_quad9`. -/
abbrev ruleAxi : QRule K 2 9 := ruleQuad shapeQuad9 pts1d3 wts1d3

/-- The plane routines with their rules. -/
inductive PlaneRule : (n : ℕ) → Uel K → QRule K 2 n → Prop
  | tri3 : PlaneRule 3 elastTri3 ruleTri3
  | tri6 : PlaneRule 6 elastTri6 ruleTri6
  | quad4 : PlaneRule 4 elastQuad4 (ruleQuad shapeQuad4 pts1d2 wts1d2)
  | quad9 : PlaneRule 9 elastQuad9 (ruleQuad shapeQuad9 pts1d3 wts1d3)
  | quad8 : PlaneRule 8 elastQuad8 (ruleQuad shapeQuad8 pts1d3 wts1d3)

/-- The solid routines with their rules. -/
inductive SolidRule : (n : ℕ) → Uel K → QRule K 3 n → Prop
  | tet4 : SolidRule 4 elastTet4 ruleTet4
  | hex8 : SolidRule 8 elastHex8 ruleHex8

/-- The array holds `M`: a square array whose entry for (node `a`, component `i`), (node `b`, component
`j`) is at row `d a + i`, column `d b + j`. -/
def Holds (A : NdArr K) (M : Matrix (Fin n × Fin d) (Fin n × Fin d) K) : Prop :=
  (∃ B, A = .mat (n * d) (n * d) B) ∧
    ∀ p q, A.get2 (d * p.1 + p.2) (d * q.1 + q.2) = .ok (M p q)

/-- The routine returns stiffness `k` and mass `m` for the element with node coordinates `X`. -/
def Returns (f : Uel K) (X : Matrix (Fin n) (Fin d) K) (params : List K)
    (k m : Matrix (Fin n × Fin d) (Fin n × Fin d) K) : Prop :=
  ∃ A B, f (matRows X) params = .ok (A, B) ∧ Holds A k ∧ Holds B m

end

end Spec
end SolidsPy
