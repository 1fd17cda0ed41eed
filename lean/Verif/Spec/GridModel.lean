import Verif.Spec.Patch

/-! A rectangular plate meshed by `rect_grid`. -/

namespace SolidsPy
namespace Spec

section
variable {K : Type} [Field K]

/-- Length of mesh side tributary to position `i` of `0..n` spaced by `h`: half at the ends. -/
def tributary (n : ℕ) (h : K) (i : ℕ) : K := ((if 0 < i then h else 0) + (if i < n then h else 0)) / 2

/-- Outward direction at position `i` of `0..n`: -1 at the start, 1 at the end, 0 between. -/
def edgeSign (n i : ℕ) : K := (if 0 < i then 1 else 0) - (if i < n then 1 else 0)

/-- Force on node (row `r`, column `c`) of a grid of `nx` by `ny` cells of size `hx` by `hy` under the tractions
of the uniform stress `s = (sx, sy, txy)` on the edges of the plate. -/
def edgeLoad (s : Fin 3 → K) (nx ny : ℕ) (hx hy : K) (r c : ℕ) : Fin 2 → K :=
  ![s 0 * (edgeSign nx c * tributary ny hy r) + s 2 * (edgeSign ny r * tributary nx hx c),
    s 2 * (edgeSign nx c * tributary ny hy r) + s 1 * (edgeSign ny r * tributary nx hx c)]

end

end Spec
end SolidsPy
