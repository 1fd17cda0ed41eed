import Verif.Props.Gauss

/-! # Symmetry of the triangle and tetrahedron rules (C63, C64) -/

namespace SolidsPy
open Gauss Spec

theorem quad2_zip (p : List (ℚ × ℚ)) (w : List ℚ) (g : ℝ → ℝ → ℝ) :
    quad2 p w g = ((p.zip w).map fun x => (x.2 : ℝ) * g x.1.1 x.1.2).sum := by
  unfold quad2
  rw [List.map_zip_eq_zipWith]
  rfl

theorem quad3_zip (p : List (ℚ × ℚ × ℚ)) (w : List ℚ) (g : ℝ → ℝ → ℝ → ℝ) :
    quad3 p w g = ((p.zip w).map fun x => (x.2 : ℝ) * g x.1.1 x.1.2.1 x.1.2.2).sum := by
  unfold quad3
  rw [List.map_zip_eq_zipWith]
  rfl

/-- C63.  Exchanging the coordinates does not change what a triangle rule gives, for any function. -/
theorem C63_symmetric {n : ℕ} {p : List (ℚ × ℚ)} {w : List ℚ} (h : gaussTri n = .ok (p, w)) (g : ℝ → ℝ → ℝ) :
    quad2 p w (fun x y => g y x) = quad2 p w g := by
  have hn : 1 ≤ n ∧ n ≤ 7 := by
    by_contra hc
    rw [C63_raises n (by omega)] at h
    simp at h
  have key : ((p.zip w).map fun x => ((x.1.2, x.1.1), x.2)).Perm (p.zip w) := by
    obtain ⟨h1, h7⟩ := hn
    interval_cases n <;> (cases h; decide +kernel)
  rw [quad2_zip, quad2_zip, ← (key.map _).sum_eq, List.map_map]
  rfl

/-- C64.  Exchanging two coordinates does not change what a tetrahedron rule gives, for any function. -/
theorem C64_symmetric {n : ℕ} {p : List (ℚ × ℚ × ℚ)} {w : List ℚ} (h : gaussTet n = .ok (p, w)) (g : ℝ → ℝ → ℝ → ℝ) :
    quad3 p w (fun x y z => g y x z) = quad3 p w g ∧ quad3 p w (fun x y z => g x z y) = quad3 p w g := by
  have hn : 1 ≤ n ∧ n ≤ 10 := by
    by_contra hc
    rw [C64_raises n (by omega)] at h
    simp at h
  have key : ((p.zip w).map fun x => ((x.1.2.1, x.1.1, x.1.2.2), x.2)).Perm (p.zip w) := by
    obtain ⟨h1, h7⟩ := hn
    interval_cases n <;> (cases h; decide +kernel)
  have key' : ((p.zip w).map fun x => ((x.1.1, x.1.2.2, x.1.2.1), x.2)).Perm (p.zip w) := by
    obtain ⟨h1, h7⟩ := hn
    interval_cases n <;> (cases h; decide +kernel)
  constructor
  · rw [quad3_zip, quad3_zip, ← (key.map _).sum_eq, List.map_map]
    rfl
  · rw [quad3_zip, quad3_zip, ← (key'.map _).sum_eq, List.map_map]
    rfl

/-- Cases: the moments of `x y²` and of `x² y` by the rule of order six, and those of `x y² z³` in another order of the letters. -/
example : quad2 ptsTri6 wtsTri6 (fun x y => x * y ^ 2) = quad2 ptsTri6 wtsTri6 fun x y => y * x ^ 2 :=
  C63_symmetric (n := 6) rfl fun x y => y * x ^ 2

example : quad3 ptsTet8 wtsTet8 (fun x y z => x * y ^ 2 * z ^ 3) = quad3 ptsTet8 wtsTet8 fun x y z => y * x ^ 2 * z ^ 3 :=
  (C64_symmetric (n := 8) rfl fun x y z => y * x ^ 2 * z ^ 3).1

end SolidsPy
