import Verif.Props.FrameSupports
import Verif.Props.Placement

/-! # C128: turned, mirrored and magnified frames of beams -/

set_option linter.unusedSectionVars false

namespace SolidsPy
open Spec Assem Matrix

section
variable {K : Type} [Field K] [LinearOrder K] [IsStrictOrderedRing K] [FloorRing K]
variable {sq : K → K} {cons cons' mats mats' nodes nodes' loads : Table K} {elements : List (List ℤ)} {el : List ℤ} {m m' : Member K}
  {a b : ℕ} {X : Matrix (Fin 2) (Fin 2) K} {L EI EA γ ν : K} {U V F F' : ℕ → ℕ → K} {ks ks' ms ms' : List (Member K)}
  {Q : Matrix (Fin 2) (Fin 2) K} {s α β σ : K} {t : Fin 2 → K}

/-- The points `X` turned by `Q`, magnified by `s` and shifted by `t`. -/
def Spec.movedEnds (Q : Matrix (Fin 2) (Fin 2) K) (s : K) (t : Fin 2 → K) (X : Matrix (Fin 2) (Fin 2) K) : Matrix (Fin 2) (Fin 2) K :=
  of fun c i => s * (Q i 0 * X c 0 + Q i 1 * X c 1) + t i

/-- The field of the moved frame: displacements are mirrored in the first axis, multiplied by `Q` and mirrored back (for a rotation:
turned the other way); rotations are divided by `s`, and change sign with the orientation. -/
def Spec.movedField (Q : Matrix (Fin 2) (Fin 2) K) (s : K) (u : ℕ → ℕ → K) (p j : ℕ) : K :=
  if j = 0 then Q 0 0 * u p 0 - Q 0 1 * u p 1 else if j = 1 then Q 1 1 * u p 1 - Q 1 0 * u p 0 else if j = 2 then Q.det * u p 2 / s else 0

/-- A row of loads for the moved frame: forces `σ` times as large, moved as displacements are, and couples `σ s` times as large. -/
def Spec.movedLoad (Q : Matrix (Fin 2) (Fin 2) K) (s σ : K) : List K → List K
  | [p, x, y, c] => [p, σ * (Q 0 0 * x - Q 0 1 * y), σ * (Q 1 1 * y - Q 1 0 * x), σ * (s * Q.det * c)]
  | l => l

/-- Every beam of the first frame is, in the second, turned by `Q`, magnified by `s` and shifted by `t`, `α` times as stiff axially,
`α s²` times as stiff in bending, and `β` times as heavy per length. -/
def Spec.SimilarBeams (Q : Matrix (Fin 2) (Fin 2) K) (s α β : K) (t : Fin 2 → K) (mats nodes mats' nodes' : Table K)
    (elements : List (List ℤ)) : Prop :=
  ∀ el ∈ elements, ∃ a b X L EI EA γ ν, IsBeam mats nodes el a b X L EI EA γ ν ∧
    IsBeam mats' nodes' el a b (movedEnds Q s t X) (s * L) (α * s ^ 2 * EI) (α * EA) (β * γ) (β * ν)

theorem movedField_fields (u : ℕ → ℕ → K) (p : ℕ) : movedField Q s u p 0 = Q 0 0 * u p 0 - Q 0 1 * u p 1 ∧
    movedField Q s u p 1 = Q 1 1 * u p 1 - Q 1 0 * u p 0 ∧ movedField Q s u p 2 = Q.det * u p 2 / s := by
  refine ⟨?_, ?_, ?_⟩ <;> simp [movedField]

/-- The cells of an orthogonal matrix. -/
theorem ortho_cells (hQ : Q.transpose * Q = 1) : Q 1 1 = Q.det * Q 0 0 ∧ Q 1 0 = -(Q.det * Q 0 1) ∧ Q.det * Q.det = 1 ∧
    Q 0 0 * Q 0 0 + Q 0 1 * Q 0 1 = 1 := by
  obtain ⟨h1, h2, h3⟩ := rot_cells hQ
  have h4 : Q 0 0 * Q 0 0 + Q 0 1 * Q 0 1 = 1 := by
    have hQ' : Q * Q.transpose = 1 := mul_eq_one_comm.1 hQ
    simpa [Matrix.mul_apply, Fin.sum_univ_two] using congrFun₂ hQ' 0 0
  have h5 : Q 0 0 * Q 1 0 + Q 0 1 * Q 1 1 = 0 := by
    have hQ' : Q * Q.transpose = 1 := mul_eq_one_comm.1 hQ
    simpa [Matrix.mul_apply, Fin.sum_univ_two] using congrFun₂ hQ' 0 1
  rw [det_fin_two]
  refine ⟨?_, ?_, ?_, h4⟩
  · linear_combination -Q 1 1 * h4 + Q 0 1 * h5
  · linear_combination -Q 1 0 * h4 + Q 0 0 * h5
  · linear_combination (Q 0 1 * Q 0 1 + Q 1 1 * Q 1 1) * h1 + h3 - (Q 0 0 * Q 0 1 + Q 1 0 * Q 1 1) * h2

theorem moved_across (hQ : Q.transpose * Q = 1) (hs : s ≠ 0) (u : ℕ → ℕ → K) (i : Fin 2) :
    across (movedEnds Q s t X) (s * L) (endsOf a b (movedField Q s u)) i = Q.det * across X L (endsOf a b u) i ∧
      along (movedEnds Q s t X) (s * L) (endsOf a b (movedField Q s u)) i = along X L (endsOf a b u) i := by
  obtain ⟨h1, h2, h3, h4⟩ := ortho_cells hQ
  have key : ∀ x y : K, (s * (Q 1 0 * X 1 0 + Q 1 1 * X 1 1) + t 1 - (s * (Q 1 0 * X 0 0 + Q 1 1 * X 0 1) + t 1)) * (Q 0 0 * x - Q 0 1 * y) +
        (s * (Q 0 0 * X 1 0 + Q 0 1 * X 1 1) + t 0 - (s * (Q 0 0 * X 0 0 + Q 0 1 * X 0 1) + t 0)) * (Q 1 1 * y - Q 1 0 * x) =
        s * (Q.det * ((X 1 1 - X 0 1) * x + (X 1 0 - X 0 0) * y)) ∧
      (s * (Q 0 0 * X 1 0 + Q 0 1 * X 1 1) + t 0 - (s * (Q 0 0 * X 0 0 + Q 0 1 * X 0 1) + t 0)) * (Q 0 0 * x - Q 0 1 * y) -
        (s * (Q 1 0 * X 1 0 + Q 1 1 * X 1 1) + t 1 - (s * (Q 1 0 * X 0 0 + Q 1 1 * X 0 1) + t 1)) * (Q 1 1 * y - Q 1 0 * x) =
        s * ((X 1 0 - X 0 0) * x - (X 1 1 - X 0 1) * y) := by
    intro x y
    rw [h1, h2]
    generalize Q.det = e at h3 ⊢
    constructor
    · linear_combination s * e * ((X 1 1 - X 0 1) * x + (X 1 0 - X 0 0) * y) * h4
    · linear_combination s * ((X 1 0 - X 0 0) * x - (X 1 1 - X 0 1) * y) * h4 +
        s * ((Q 0 0 * (X 1 1 - X 0 1) - Q 0 1 * (X 1 0 - X 0 0)) * -(Q 0 0 * y + Q 0 1 * x)) * h3
  have go : ∀ c : ℕ, (∀ v : ℕ → ℕ → K, ∀ j : Fin 3, endsOf a b v (i, j) = v c j) → _ := fun c hc => by
    obtain ⟨k1, k2⟩ := key (u c 0) (u c 1)
    obtain ⟨m0, m1, -⟩ := movedField_fields (Q := Q) (s := s) u c
    have e1 : across (movedEnds Q s t X) (s * L) (endsOf a b (movedField Q s u)) i = Q.det * across X L (endsOf a b u) i ∧
        along (movedEnds Q s t X) (s * L) (endsOf a b (movedField Q s u)) i = along X L (endsOf a b u) i := by
      unfold across along
      simp only [hc, Fin.val_zero, Fin.val_one, m0, m1, movedEnds, of_apply]
      rw [k1, k2, mul_div_mul_left _ _ hs, mul_div_mul_left _ _ hs, mul_div_assoc]
      exact ⟨rfl, rfl⟩
    exact e1
  revert go
  revert i
  refine Fin.forall_fin_two.2 ⟨fun go => go a fun v j => rfl, fun go => go b fun v j => rfl⟩

theorem hermite_cells (L v0 t0 v1 t1 : K) : (hermite L v0 t0 v1 t1).coeff 0 = v0 ∧ (hermite L v0 t0 v1 t1).coeff 1 = t0 ∧
    (hermite L v0 t0 v1 t1).coeff 2 = (3 * (v1 - v0) - L * (2 * t0 + t1)) / L ^ 2 ∧
    (hermite L v0 t0 v1 t1).coeff 3 = (2 * (v0 - v1) + L * (t0 + t1)) / L ^ 3 := by
  unfold hermite
  refine ⟨?_, ?_, ?_, ?_⟩ <;> simp [Polynomial.coeff_X, Polynomial.coeff_C]

theorem moved_deflection (hQ : Q.transpose * Q = 1) (hs : s ≠ 0) (hL : L ≠ 0) (u : ℕ → ℕ → K) (k : ℕ) (hk : k ≤ 3) :
    (deflection a b (movedEnds Q s t X) (s * L) (movedField Q s u)).coeff k = Q.det * (deflection a b X L u).coeff k / s ^ k := by
  unfold deflection
  obtain ⟨c0, c1, c2, c3⟩ := hermite_cells (s * L) (across (movedEnds Q s t X) (s * L) (endsOf a b (movedField Q s u)) 0)
    (movedField Q s u a 2) (across (movedEnds Q s t X) (s * L) (endsOf a b (movedField Q s u)) 1) (movedField Q s u b 2)
  obtain ⟨d0, d1, d2, d3⟩ := hermite_cells L (across X L (endsOf a b u) 0) (u a 2) (across X L (endsOf a b u) 1) (u b 2)
  have x0 := (moved_across (a := a) (b := b) (X := X) (L := L) (t := t) hQ hs u 0).1
  have x1 := (moved_across (a := a) (b := b) (X := X) (L := L) (t := t) hQ hs u 1).1
  rcases (by omega : k = 0 ∨ k = 1 ∨ k = 2 ∨ k = 3) with rfl | rfl | rfl | rfl
  · rw [c0, d0, x0]; simp
  · rw [c1, d1, (movedField_fields u a).2.2]; simp
  · rw [c2, d2, x0, x1, (movedField_fields u a).2.2, (movedField_fields u b).2.2]; field_simp
  · rw [c3, d3, x0, x1, (movedField_fields u a).2.2, (movedField_fields u b).2.2]; field_simp

theorem moved_extension (hQ : Q.transpose * Q = 1) (hs : s ≠ 0) (hL : L ≠ 0) (u : ℕ → ℕ → K) (k : ℕ) (hk : k ≤ 3) :
    (extension a b (movedEnds Q s t X) (s * L) (movedField Q s u)).coeff k = (extension a b X L u).coeff k / s ^ k := by
  unfold extension
  rw [(moved_across (a := a) (b := b) (X := X) (L := L) (t := t) hQ hs u 0).2, (moved_across (a := a) (b := b) (X := X) (L := L) (t := t) hQ hs u 1).2]
  rcases (by omega : k = 0 ∨ k = 1 ∨ k = 2 ∨ k = 3) with rfl | rfl | rfl | rfl <;> simp [Polynomial.coeff_X, Polynomial.coeff_C]
  field_simp

theorem bendInt_moved {e : K} (he : e * e = 1) (hs : s ≠ 0) {P P' R R' : Polynomial K} (hP : ∀ k ≤ 3, P'.coeff k = e * P.coeff k / s ^ k)
    (hR : ∀ k ≤ 3, R'.coeff k = e * R.coeff k / s ^ k) : bendInt (s * L) P' R' = bendInt L P R / s ^ 3 := by
  unfold bendInt
  rw [hP 2 (by omega), hP 3 (by omega), hR 2 (by omega), hR 3 (by omega)]
  have h : ∀ x y i j, e * x / s ^ i * (e * y / s ^ j) = x * y / (s ^ i * s ^ j) := fun x y i j => by
    rw [div_mul_div_comm]
    congr 1
    linear_combination x * y * he
  simp only [h]
  field_simp

theorem prodInt_moved {e : K} (he : e * e = 1) (hs : s ≠ 0) {P P' R R' : Polynomial K} (hP : ∀ k ≤ 3, P'.coeff k = e * P.coeff k / s ^ k)
    (hR : ∀ k ≤ 3, R'.coeff k = e * R.coeff k / s ^ k) : prodInt (s * L) P' R' = s * prodInt L P R := by
  unfold prodInt
  rw [hP 0 (by omega), hP 1 (by omega), hP 2 (by omega), hP 3 (by omega), hR 0 (by omega), hR 1 (by omega), hR 2 (by omega), hR 3 (by omega)]
  have h : ∀ x y i j, e * x / s ^ i * (e * y / s ^ j) = x * y / (s ^ i * s ^ j) := fun x y i j => by
    rw [div_mul_div_comm]
    congr 1
    linear_combination x * y * he
  simp only [h]
  field_simp

/-- Springs and masses of a moved beam. -/
theorem moved_beam (hsq : SqrtFn sq) (hQ : Q.transpose * Q = 1) (hs : s ≠ 0) (h : IsBeam mats nodes el a b X L EI EA γ ν)
    (h' : IsBeam mats' nodes' el a b (movedEnds Q s t X) (s * L) (α * s ^ 2 * EI) (α * EA) (β * γ) (β * ν)) (V U : ℕ → ℕ → K) :
    (∀ m m', IsMember (Routine sq) mats nodes el m → IsMember (Routine sq) mats' nodes' el m' →
      m'.form 3 (movedField Q s V) (movedField Q s U) = α / s * m.form 3 V U) ∧
    ∀ m m', IsMember (MassRoutine sq) mats nodes el m → IsMember (MassRoutine sq) mats' nodes' el m' →
      m'.form 3 (movedField Q s V) (movedField Q s U) = β * s * m.form 3 V U := by
  have hL := h.length.1.ne'
  have h3 := (ortho_cells hQ).2.2.1
  have dV := moved_deflection (a := a) (b := b) (X := X) (t := t) hQ hs hL V
  have dU := moved_deflection (a := a) (b := b) (X := X) (t := t) hQ hs hL U
  have eV := moved_extension (a := a) (b := b) (X := X) (t := t) hQ hs hL V
  have eU := moved_extension (a := a) (b := b) (X := X) (t := t) hQ hs hL U
  constructor
  · intro m m' g g'
    rw [(h.spring hsq g).2, (h'.spring hsq g').2, bendInt_moved h3 hs dV dU, eV 1 (by omega), eU 1 (by omega)]
    field_simp
  · intro m m' g g'
    rw [(h.mass hsq g).2, (h'.mass hsq g').2, prodInt_moved h3 hs dV dU,
      prodInt_moved (e := 1) (P := extension a b X L V) (R := extension a b X L U) (one_mul 1) hs (fun k hk => by rw [eV k hk, one_mul]) fun k hk => by rw [eU k hk, one_mul]]
    ring

/-- C128.  The springs of the moved frame do `α / s` times, its masses `β s` times the work of those of the first. -/
theorem C128_forms (hsq : SqrtFn sq) (hQ : Q.transpose * Q = 1) (hs : s ≠ 0) (h : SimilarBeams Q s α β t mats nodes mats' nodes' elements)
    (hk : List.Forall₂ (IsMember (Routine sq) mats nodes) elements ks) (hk' : List.Forall₂ (IsMember (Routine sq) mats' nodes') elements ks')
    (hm : List.Forall₂ (IsMember (MassRoutine sq) mats nodes) elements ms)
    (hm' : List.Forall₂ (IsMember (MassRoutine sq) mats' nodes') elements ms') (V U : ℕ → ℕ → K) :
    (ks'.map fun m => m.form 3 (movedField Q s V) (movedField Q s U)).sum = α / s * (ks.map fun m => m.form 3 V U).sum ∧
    (ms'.map fun m => m.form 3 (movedField Q s V) (movedField Q s U)).sum = β * s * (ms.map fun m => m.form 3 V U).sum := by
  constructor
  · rw [← List.sum_map_mul_left]
    refine (sum_pairs hk' hk fun el hel m' m g' g => ?_)
    obtain ⟨a, b, X, L, EI, EA, γ, ν, h1, h2⟩ := h el hel
    exact (moved_beam hsq hQ hs h1 h2 V U).1 m m' g g'
  · rw [← List.sum_map_mul_left]
    refine (sum_pairs hm' hm fun el hel m' m g' g => ?_)
    obtain ⟨a, b, X, L, EI, EA, γ, ν, h1, h2⟩ := h el hel
    exact (moved_beam hsq hQ hs h1 h2 V U).2 m m' g g'

theorem moved_springs (hsq : SqrtFn sq) (hQ : Q.transpose * Q = 1) (hs : s ≠ 0) (h : SimilarBeams Q s α β t mats nodes mats' nodes' elements)
    (hk : List.Forall₂ (IsMember (Routine sq) mats nodes) elements ks) (hk' : List.Forall₂ (IsMember (Routine sq) mats' nodes') elements ks')
    (V U : ℕ → ℕ → K) :
    (ks'.map fun m => m.form 3 (movedField Q s V) (movedField Q s U)).sum = α / s * (ks.map fun m => m.form 3 V U).sum := by
  rw [← List.sum_map_mul_left]
  refine (sum_pairs hk' hk fun el hel m' m g' g => ?_)
  obtain ⟨a, b, X, L, EI, EA, γ, ν, h1, h2⟩ := h el hel
  exact (moved_beam hsq hQ hs h1 h2 V U).1 m m' g g'

/-- Equilibrium in weak form, for any number of degrees of freedom per node. -/
theorem weak_iff {nd n : ℕ} (hsz : cons.length = n) (hn : ∀ m ∈ ks, ∀ p ∈ m.nodes, p < n)
    (hF : ∀ p < n, ∀ j < nd, IsLoad n loads p j (F p j)) : Equilibrium cons nd loads ks U ↔ Admissible cons nd U ∧
      ∀ V, Admissible cons nd V → ∑ p ∈ Finset.range n, ∑ j ∈ Finset.range nd, V p j * F p j = (ks.map fun m => m.form nd V U).sum := by
  subst hsz
  constructor
  · intro h
    refine ⟨h.1, fun V hV => ?_⟩
    rw [← virtual_work hn V U]
    refine Finset.sum_congr rfl fun p hp => Finset.sum_congr rfl fun j hj => ?_
    rw [Finset.mem_range] at hp hj
    by_cases hf : Free cons nd p j
    · rw [isLoad_unique (h.2 p j hf) (hF p hp j hj)]
    · rw [hV p j hp hj hf, zero_mul, zero_mul]
  · rintro ⟨ha, H⟩
    refine ⟨ha, fun p j hf => ?_⟩
    have hp := free_lt hf
    have hV : Admissible cons nd (fun p' j' => if p' = p ∧ j' = j then (1 : K) else 0) := by
      intro p' j' _ _ hf'
      dsimp only
      rw [if_neg]
      rintro ⟨rfl, rfl⟩
      exact hf' hf
    have := H _ hV
    rw [← internal_unit ks U p hf.1] at this
    rw [← this, Finset.sum_eq_single p, Finset.sum_eq_single j]
    · simpa using hF p hp j hf.1
    · intro b _ hb
      simp [hb]
    · intro hc
      exact absurd (Finset.mem_range.2 hf.1) hc
    · intro b _ hb
      simp [hb]
    · intro hc
      exact absurd (Finset.mem_range.2 hp) hc

/-- Stability in weak form. -/
theorem stable_weak_iff {nd n : ℕ} (hsz : cons.length = n) (hn : ∀ m ∈ ks, ∀ p ∈ m.nodes, p < n) : Stable cons nd ks ↔
    ∀ U, Admissible cons nd U → (∀ V, Admissible cons nd V → (ks.map fun m => m.form nd V U).sum = 0) → ∀ p < n, ∀ j < nd, U p j = 0 := by
  subst hsz
  constructor
  · intro hst U hU H p hp j hj
    refine hst U hU (fun p j hf => ?_) p j hp hj
    rw [internal_unit ks U p hf.1]
    refine H _ fun p' j' _ _ hf' => if_neg ?_
    rintro ⟨rfl, rfl⟩
    exact hf' hf
  · intro H U hU h0 p j hp hj
    refine H U hU (fun V hV => ?_) p hp j hj
    rw [← virtual_work hn V U]
    refine Finset.sum_eq_zero fun p hp => Finset.sum_eq_zero fun j hj => ?_
    rw [Finset.mem_range] at hp hj
    by_cases hf : Free cons nd p j
    · rw [h0 p j hf, mul_zero]
    · rw [hV p j hp hj hf, zero_mul]

theorem form_fields {nd : ℕ} {V' U' : ℕ → ℕ → K} (hV : ∀ p, ∀ j < nd, V' p j = V p j) (hU : ∀ p, ∀ j < nd, U' p j = U p j) (m : Member K) :
    m.form nd V' U' = m.form nd V U := by
  unfold Member.form Member.force
  refine Finset.sum_congr rfl fun a _ => Finset.sum_congr rfl fun j hj => ?_
  rw [hV _ j (Finset.mem_range.1 hj)]
  congr 1
  refine Finset.sum_congr rfl fun b _ => Finset.sum_congr rfl fun c hc => ?_
  rw [hU _ c (Finset.mem_range.1 hc)]

theorem form_scaled (nd : ℕ) (c : K) (V U : ℕ → ℕ → K) (m : Member K) : m.form nd V (fun p j => c * U p j) = c * m.form nd V U := by
  unfold Member.form Member.force
  simp only [Finset.mul_sum]
  refine Finset.sum_congr rfl fun a _ => Finset.sum_congr rfl fun j _ => Finset.sum_congr rfl fun b _ => Finset.sum_congr rfl fun i _ => ?_
  ring

theorem moved_back (hQ : Q.transpose * Q = 1) (hs : s ≠ 0) (u : ℕ → ℕ → K) (p : ℕ) :
    ∀ j < 3, movedField Q s (movedField Q.transpose s⁻¹ u) p j = u p j := by
  obtain ⟨h1, h2, h3, h4⟩ := ortho_cells hQ
  obtain ⟨a0, a1, a2⟩ := movedField_fields (Q := Q) (s := s) (movedField Q.transpose s⁻¹ u) p
  obtain ⟨b0, b1, b2⟩ := movedField_fields (Q := Q.transpose) (s := s⁻¹) u p
  rw [det_transpose] at b2
  simp only [transpose_apply] at b0 b1
  intro j hj
  rcases (by omega : j = 0 ∨ j = 1 ∨ j = 2) with rfl | rfl | rfl
  · rw [a0, b0, b1, h1, h2]
    linear_combination u p 0 * h4
  · rw [a1, b0, b1, h1, h2]
    generalize Q.det = e at h3 ⊢
    linear_combination u p 1 * h4 + u p 1 * (Q 0 0 * Q 0 0 + Q 0 1 * Q 0 1) * h3
  · rw [a2, b2]
    generalize Q.det = e at h3 ⊢
    field_simp
    linear_combination u p 2 * h3

theorem moved_forth (hQ : Q.transpose * Q = 1) (hs : s ≠ 0) (u : ℕ → ℕ → K) (p : ℕ) :
    ∀ j < 3, movedField Q.transpose s⁻¹ (movedField Q s u) p j = u p j := by
  have := moved_back (Q := Q.transpose) (s := s⁻¹) (by rw [transpose_transpose]; exact mul_eq_one_comm.1 hQ) (inv_ne_zero hs) u p
  rwa [transpose_transpose, inv_inv] at this

theorem admissible_fields {nd : ℕ} {U' : ℕ → ℕ → K} (h : ∀ p, ∀ j < nd, U' p j = U p j) : Admissible cons nd U' ↔ Admissible cons nd U :=
  ⟨fun H p j hp hj hf => (h p j hj).symm.trans (H p j hp hj hf), fun H p j hp hj hf => (h p j hj).trans (H p j hp hj hf)⟩

/-- The row that decides the load of a node decides all its components. -/
theorem isLoad_row {nd n p : ℕ} {x : ℕ → K} (hx : ∀ j < nd, IsLoad n loads p j (x j)) :
    ((∀ l ∈ loads, ¬ Names n l p) ∧ ∀ j < nd, x j = 0) ∨
    ∃ pre l post, loads = pre ++ l :: post ∧ Names n l p ∧ (∀ l' ∈ post, ¬ Names n l' p) ∧ ∀ j < nd, l[j + 1]? = some (x j) := by
  by_cases h0 : ∀ l ∈ loads, ¬ Names n l p
  · refine .inl ⟨h0, fun j hj => ?_⟩
    rcases hx j hj with ⟨-, h⟩ | ⟨pre, l, post, e, h1, -⟩
    · exact h
    · exact absurd h1 (h0 l (by rw [e]; simp))
  · right
    rcases Nat.eq_zero_or_pos nd with rfl | hnd
    · classical
      clear hx
      induction loads using List.reverseRecOn with
      | nil => simp at h0
      | append_singleton ls l ih =>
        by_cases hl : Names n l p
        · exact ⟨ls, l, [], rfl, hl, by simp, by simp⟩
        · obtain ⟨pre, l', post, e, h1, h2, -⟩ := ih fun h => h0 fun l' hl' => by
            rcases List.mem_append.1 hl' with h' | h'
            · exact h l' h'
            · rw [List.mem_singleton.1 h']
              exact hl
          refine ⟨pre, l', post ++ [l], by rw [e]; simp, h1, fun l'' hl'' => ?_, by simp⟩
          rcases List.mem_append.1 hl'' with h' | h'
          · exact h2 l'' h'
          · rw [List.mem_singleton.1 h']
            exact hl
    · rcases hx 0 hnd with ⟨h, -⟩ | ⟨pre, l, post, e, h1, h2, -⟩
      · exact absurd h h0
      refine ⟨pre, l, post, e, h1, h2, fun j hj => ?_⟩
      rcases hx j hj with ⟨h, -⟩ | ⟨pre', l', post', e', h1', h2', h3'⟩
      · exact absurd h h0
      · have hll : l = l' := by
          rw [e] at e'
          rcases List.append_eq_append_iff.1 e' with ⟨as, h5, h6⟩ | ⟨bs, h5, h6⟩
          · cases as with
            | nil => simpa using (List.cons_eq_cons.1 h6).1
            | cons a as =>
              rw [List.cons_append, List.cons_eq_cons] at h6
              exact absurd h1' (h2 l' (by rw [h6.2]; simp))
          · cases bs with
            | nil => simpa using (List.cons_eq_cons.1 h6).1.symm
            | cons b bs =>
              rw [List.cons_append, List.cons_eq_cons] at h6
              exact absurd h1 (h2' l (by rw [h6.2]; simp))
        rw [hll]
        exact h3'

theorem isLoad_some {nd n p : ℕ} (hl : ∀ l ∈ loads, nd + 1 ≤ l.length) {j : ℕ} (hj : j < nd) : ∃ x, IsLoad n loads p j x := by
  classical
  induction loads using List.reverseRecOn with
  | nil => exact ⟨0, .inl ⟨fun L hL => by simp at hL, rfl⟩⟩
  | append_singleton l L ih =>
    by_cases hL : Names n L p
    · have h3 := hl L (by simp)
      exact ⟨L[j + 1]'(by omega), .inr ⟨l, L, [], rfl, hL, fun _ h => by simp at h, List.getElem?_eq_getElem _⟩⟩
    · obtain ⟨x, hx⟩ := ih fun L hL => hl L (by simp [hL])
      refine ⟨x, ?_⟩
      rcases hx with ⟨h0, e⟩ | ⟨pre, L', post, e, h1, h2, h3⟩
      · refine .inl ⟨fun L' hL' => ?_, e⟩
        rcases List.mem_append.1 hL' with h | h
        · exact h0 L' h
        · rw [List.mem_singleton.1 h]
          exact hL
      · refine .inr ⟨pre, L', post ++ [L], by rw [e]; simp, h1, fun L'' hL'' => ?_, h3⟩
        rcases List.mem_append.1 hL'' with h | h
        · exact h2 L'' h
        · rw [List.mem_singleton.1 h]
          exact hL

theorem loads_field {nd : ℕ} (n : ℕ) (hl : ∀ l ∈ loads, nd + 1 ≤ l.length) : ∃ F : ℕ → ℕ → K, ∀ p < n, ∀ j < nd, IsLoad n loads p j (F p j) := by
  choose F hF using fun (p j : ℕ) (hj : j < nd) => isLoad_some (n := n) (p := p) hl hj
  exact ⟨fun p j => if h : j < nd then F p j h else 0, fun p _ j hj => by
    dsimp only
    rw [dif_pos hj]
    exact hF p j hj⟩

theorem names_movedLoad (n : ℕ) (l : List K) (p : ℕ) : Names n (movedLoad Q s σ l) p ↔ Names n l p := by
  unfold Names movedLoad
  split <;> rfl

/-- The loads of the moved frame. -/
theorem isLoad_moved {n p : ℕ} {x : ℕ → K} (hl : ∀ l ∈ loads, l.length = 4) (hx : ∀ j < 3, IsLoad n loads p j (x j)) :
    IsLoad n (loads.map (movedLoad Q s σ)) p 0 (σ * (Q 0 0 * x 0 - Q 0 1 * x 1)) ∧
      IsLoad n (loads.map (movedLoad Q s σ)) p 1 (σ * (Q 1 1 * x 1 - Q 1 0 * x 0)) ∧
      IsLoad n (loads.map (movedLoad Q s σ)) p 2 (σ * (s * Q.det * x 2)) := by
  rcases isLoad_row hx with ⟨h0, h1⟩ | ⟨pre, l, post, e, h1, h2, h3⟩
  · have hno : ∀ l ∈ loads.map (movedLoad Q s σ), ¬ Names n l p := by
      intro l hl
      obtain ⟨l', hl', rfl⟩ := List.mem_map.1 hl
      rw [names_movedLoad]
      exact h0 l' hl'
    rw [h1 0 (by omega), h1 1 (by omega), h1 2 (by omega)]
    exact ⟨.inl ⟨hno, by ring⟩, .inl ⟨hno, by ring⟩, .inl ⟨hno, by ring⟩⟩
  · have key : ∀ j y, (movedLoad Q s σ l)[j + 1]? = some y → IsLoad n (loads.map (movedLoad Q s σ)) p j y := by
      intro j y hy
      refine .inr ⟨pre.map (movedLoad Q s σ), _, post.map (movedLoad Q s σ), by rw [e]; simp, (names_movedLoad _ _ _).2 h1, ?_, hy⟩
      intro l' hl'
      obtain ⟨l'', hl'', rfl⟩ := List.mem_map.1 hl'
      rw [names_movedLoad]
      exact h2 _ hl''
    have hll := hl l (by rw [e]; simp)
    match l, hll with
    | [q, fx, fy, c], _ =>
      have x0 := h3 0 (by omega)
      have x1 := h3 1 (by omega)
      have x2 := h3 2 (by omega)
      simp at x0 x1 x2
      subst x0 x1 x2
      exact ⟨key 0 _ rfl, key 1 _ rfl, key 2 _ rfl⟩

/-- The work of the moved loads. -/
theorem moved_work (hQ : Q.transpose * Q = 1) (hs : s ≠ 0) (v x x' : ℕ → ℕ → K) (p : ℕ) (h0 : x' p 0 = σ * (Q 0 0 * x p 0 - Q 0 1 * x p 1))
    (h1 : x' p 1 = σ * (Q 1 1 * x p 1 - Q 1 0 * x p 0)) (h2 : x' p 2 = σ * (s * Q.det * x p 2)) :
    ∑ j ∈ Finset.range 3, movedField Q s v p j * x' p j = σ * ∑ j ∈ Finset.range 3, v p j * x p j := by
  obtain ⟨c1, c2, h3, h4⟩ := ortho_cells hQ
  obtain ⟨a0, a1, a2⟩ := movedField_fields (Q := Q) (s := s) v p
  simp only [Finset.sum_range_succ, Finset.sum_range_zero, zero_add, a0, a1, a2, h0, h1, h2, c1, c2]
  generalize Q.det = e at h3 ⊢
  field_simp
  linear_combination (σ * (v p 0 * x p 0 + v p 1 * x p 1)) * h4 + (σ * v p 2 * x p 2 +
    σ * ((Q 0 0 * v p 1 + Q 0 1 * v p 0) * (Q 0 0 * x p 1 + Q 0 1 * x p 0))) * h3

/-- C128.  The moved frame is stable exactly when the first is. -/
theorem C128_stable_iff (hsq : SqrtFn sq) (hQ : Q.transpose * Q = 1) (hs : s ≠ 0) (hα : α ≠ 0)
    (h : SimilarBeams Q s α β t mats nodes mats' nodes' elements) (hf : Frame cons nodes elements) (hf' : Frame cons' nodes' elements)
    (hn : nodes'.length = nodes.length) (hsup : ∀ u, Admissible cons 3 u ↔ Admissible cons' 3 (movedField Q s u))
    (hk : List.Forall₂ (IsMember (Routine sq) mats nodes) elements ks)
    (hk' : List.Forall₂ (IsMember (Routine sq) mats' nodes') elements ks') : Stable cons' 3 ks' ↔ Stable cons 3 ks := by
  rw [stable_weak_iff hf.size (members_lt hk), stable_weak_iff hf'.size (members_lt hk'), hn]
  have hz : ∀ u : ℕ → ℕ → K, ∀ p, (∀ j < 3, u p j = 0) → ∀ Q s, ∀ j < 3, movedField Q s u p j = 0 := by
    intro u p h0 Q s j hj
    obtain ⟨a0, a1, a2⟩ := movedField_fields (Q := Q) (s := s) u p
    rcases (by omega : j = 0 ∨ j = 1 ∨ j = 2) with rfl | rfl | rfl
    · rw [a0, h0 0 (by omega), h0 1 (by omega)]; ring
    · rw [a1, h0 0 (by omega), h0 1 (by omega)]; ring
    · rw [a2, h0 2 (by omega)]; ring
  have has : α / s ≠ 0 := div_ne_zero hα hs
  constructor
  · intro H U hU hV p hp j hj
    rw [← moved_forth hQ hs U p j hj]
    refine hz _ p (fun j hj => H (movedField Q s U) ((hsup U).1 hU) (fun V' hV' => ?_) p hp j hj) _ _ j hj
    have e : ∀ m : Member K, m.form 3 V' (movedField Q s U) = m.form 3 (movedField Q s (movedField Q.transpose s⁻¹ V')) (movedField Q s U) :=
      form_fields (fun p j hj => (moved_back hQ hs V' p j hj).symm) fun _ _ _ => rfl
    simp only [e]
    rw [moved_springs hsq hQ hs h hk hk', hV _ ((hsup _).2 ((admissible_fields (moved_back hQ hs V')).2 hV')), mul_zero]
  · intro H U' hU' hV p hp j hj
    rw [← moved_back hQ hs U' p j hj]
    refine hz _ p (fun j hj => H (movedField Q.transpose s⁻¹ U') ((hsup _).2 ((admissible_fields (moved_back hQ hs U')).2 hU')) (fun V hV' => ?_)
      p hp j hj) _ _ j hj
    have e : ∀ m : Member K, m.form 3 (movedField Q s V) U' = m.form 3 (movedField Q s V) (movedField Q s (movedField Q.transpose s⁻¹ U')) :=
      form_fields (fun _ _ _ => rfl) fun p j hj => (moved_back hQ hs U' p j hj).symm
    have := hV _ ((hsup V).1 hV')
    simp only [e] at this
    rw [moved_springs hsq hQ hs h hk hk'] at this
    exact (mul_eq_zero.1 this).resolve_left has

/-- C128.  Equilibrium of the first frame is, moved, equilibrium of the second under the moved loads. -/
theorem C128_equilibrium (hsq : SqrtFn sq) (hQ : Q.transpose * Q = 1) (hs : s ≠ 0) (hα : α ≠ 0)
    (h : SimilarBeams Q s α β t mats nodes mats' nodes' elements) (hf : Frame cons nodes elements) (hf' : Frame cons' nodes' elements)
    (hn : nodes'.length = nodes.length) (hsup : ∀ u, Admissible cons 3 u ↔ Admissible cons' 3 (movedField Q s u))
    (hk : List.Forall₂ (IsMember (Routine sq) mats nodes) elements ks)
    (hk' : List.Forall₂ (IsMember (Routine sq) mats' nodes') elements ks') (hl : ∀ l ∈ loads, l.length = 4)
    (hU : Equilibrium cons 3 loads ks U) :
    Equilibrium cons' 3 (loads.map (movedLoad Q s σ)) ks' fun p j => σ * s / α * movedField Q s U p j := by
  obtain ⟨F, hF⟩ := loads_field (nd := 3) nodes.length fun l h => (hl l h).ge
  obtain ⟨F', hF'⟩ := loads_field (nd := 3) (loads := loads.map (movedLoad Q s σ)) nodes.length fun l h => by
    obtain ⟨l', h', rfl⟩ := List.mem_map.1 h
    match l', hl l' h' with
    | [q, fx, fy, c], _ => exact le_rfl
  obtain ⟨ha, hw⟩ := (weak_iff hf.size (members_lt hk) hF).1 hU
  refine (weak_iff (F := F') (hf'.size.trans hn) (fun m hm p hp => by rw [← hn]; exact members_lt hk' m hm p hp) hF').2 ⟨fun p j hp hj hfr => ?_, fun V' hV' => ?_⟩
  · dsimp only
    rw [(hsup U).1 ha p j hp hj hfr, mul_zero]
  · have hV := (hsup _).2 ((admissible_fields (moved_back hQ hs V')).2 hV')
    have e : ∀ m : Member K, m.form 3 V' (fun p j => σ * s / α * movedField Q s U p j) =
        σ * s / α * m.form 3 (movedField Q s (movedField Q.transpose s⁻¹ V')) (movedField Q s U) := fun m => by
      rw [form_scaled, form_fields (fun p j hj => (moved_back hQ hs V' p j hj).symm) fun _ _ _ => rfl]
    simp only [e]
    rw [List.sum_map_mul_left, moved_springs hsq hQ hs h hk hk', ← hw _ hV, ← mul_assoc,
      (by field_simp : σ * s / α * (α / s) = σ), Finset.mul_sum]
    refine Finset.sum_congr rfl fun p hp => ?_
    rw [Finset.mem_range] at hp
    obtain ⟨f0, f1, f2⟩ := isLoad_moved (Q := Q) (s := s) (σ := σ) hl (hF p hp)
    rw [← moved_work hQ hs (movedField Q.transpose s⁻¹ V') F F' p (isLoad_unique (hF' p hp 0 (by omega)) f0)
      (isLoad_unique (hF' p hp 1 (by omega)) f1) (isLoad_unique (hF' p hp 2 (by omega)) f2)]
    refine Finset.sum_congr rfl fun j hj => ?_
    rw [moved_back hQ hs V' p j (Finset.mem_range.1 hj)]

theorem similar_members (hsq : SqrtFn sq) (h : SimilarBeams Q s α β t mats nodes mats' nodes' elements) :
    (∃ ks, List.Forall₂ (IsMember (Routine sq) mats nodes) elements ks) ∧
      ∃ ks', List.Forall₂ (IsMember (Routine sq) mats' nodes') elements ks' := by
  unfold SimilarBeams at h
  induction elements with
  | nil => exact ⟨⟨[], .nil⟩, ⟨[], .nil⟩⟩
  | cons el t ih =>
    obtain ⟨⟨ks, hk⟩, ⟨ks', hk'⟩⟩ := ih fun e he => h e (by simp [he])
    obtain ⟨a, b, X, L, EI, EA, γ, ν, hb, hb'⟩ := h el (by simp)
    obtain ⟨m, hm⟩ := hb.exists_member hsq
    obtain ⟨m', hm'⟩ := hb'.exists_member hsq
    exact ⟨⟨m :: ks, .cons hm hk⟩, ⟨m' :: ks', .cons hm' hk'⟩⟩

/-- C128.  The analysis of the moved frame returns the moved displacements and rotations, `σ s / α` times as large. -/
theorem C128_run (hsq : SqrtFn sq) (hQ : Q.transpose * Q = 1) (hs : s ≠ 0) (hα : α ≠ 0)
    (h : SimilarBeams Q s α β t mats nodes mats' nodes' elements) (hf : Frame cons nodes elements) (hf' : Frame cons' nodes' elements)
    (hn : nodes'.length = nodes.length) (hsup : ∀ u, Admissible cons 3 u ↔ Admissible cons' 3 (movedField Q s u))
    (hk : List.Forall₂ (IsMember (Routine sq) mats nodes) elements ks) (hst : Stable cons 3 ks)
    (hl : ∀ l ∈ loads, l.length = 4 ∧ ∃ p, Names nodes.length l p) {sp de : Sol.Solver K} (hsp : SolverOk sp) (hde : SolverOk de)
    (sparse sparse' : Bool) : ∃ full full', frameRun sq sp de sparse cons elements mats nodes loads = .ok full ∧
      frameRun sq sp de sparse' cons' elements mats' nodes' (loads.map (movedLoad Q s σ)) = .ok full' ∧
      ∀ p < nodes.length, ∃ x y z, entry full p 0 = some x ∧ entry full p 1 = some y ∧ entry full p 2 = some z ∧
        entry full' p 0 = some (σ * s / α * (Q 0 0 * x - Q 0 1 * y)) ∧ entry full' p 1 = some (σ * s / α * (Q 1 1 * y - Q 1 0 * x)) ∧
        entry full' p 2 = some (σ / α * (Q.det * z)) := by
  obtain ⟨-, ks', hk'⟩ := similar_members hsq h
  have hst' := (C128_stable_iff hsq hQ hs hα h hf hf' hn hsup hk hk').2 hst
  obtain ⟨full, r1, e1⟩ := C117_solved hf hk hst hsp hde sparse (loads := loads) fun l hl' => ⟨(hl l hl').1.ge, (hl l hl').2⟩
  obtain ⟨full', r2, -⟩ := C117_solved hf' hk' hst' hsp hde sparse' (loads := loads.map (movedLoad Q s σ)) fun l hl' => by
    obtain ⟨l', h', rfl⟩ := List.mem_map.1 hl'
    obtain ⟨h4, p, hp⟩ := hl l' h'
    refine ⟨?_, p, (names_movedLoad _ _ _).2 (by rw [hn]; exact hp)⟩
    match l', h4 with
    | [q, fx, fy, c], _ => exact le_rfl
  refine ⟨full, full', r1, r2, fun p hp => ⟨fieldOf full p 0, fieldOf full p 1, fieldOf full p 2, ?_, ?_, ?_, ?_⟩⟩
  · exact C117_unique hf hk hst hsp hde r1 e1 p 0 hp (by omega)
  · exact C117_unique hf hk hst hsp hde r1 e1 p 1 hp (by omega)
  · exact C117_unique hf hk hst hsp hde r1 e1 p 2 hp (by omega)
  · have u := C117_unique hf' hk' hst' hsp hde r2 (C128_equilibrium (σ := σ) hsq hQ hs hα h hf hf' hn hsup hk hk' (fun l hl' => (hl l hl').1) e1) p
    obtain ⟨a0, a1, a2⟩ := movedField_fields (Q := Q) (s := s) (fieldOf full) p
    rw [u 0 (by omega) (by omega), u 1 (by omega) (by omega), u 2 (by omega) (by omega), a0, a1, a2]
    refine ⟨rfl, rfl, ?_⟩
    congr 1
    field_simp

/-- The node in the row, moved. -/
def Spec.movedNode (Q : Matrix (Fin 2) (Fin 2) K) (s : K) (t : Fin 2 → K) : List K → List K
  | [id, x, y] => [id, s * (Q 0 0 * x + Q 0 1 * y) + t 0, s * (Q 1 0 * x + Q 1 1 * y) + t 1]
  | r => r

/-- The material and section of a beam with axial deformation, all lengths of the section multiplied by `s`. -/
def Spec.magnifiedSection (s : K) : List K → List K
  | [E, I, A] => [E, s ^ 4 * I, s ^ 2 * A]
  | [E, I, A, ρ] => [E, s ^ 4 * I, s ^ 2 * A, ρ]
  | r => r

theorem moved_length (hQ : Q.transpose * Q = 1) (hs : 0 < s) (h : IsLength X L) : IsLength (movedEnds Q s t X) (s * L) := by
  obtain ⟨h1, h2, h3⟩ := rot_cells hQ
  refine ⟨mul_pos hs h.1, ?_⟩
  simp only [movedEnds, of_apply]
  linear_combination s ^ 2 * h.2 - s ^ 2 * (X 1 0 - X 0 0) ^ 2 * h1 - 2 * s ^ 2 * (X 1 0 - X 0 0) * (X 1 1 - X 0 1) * h2 -
    s ^ 2 * (X 1 1 - X 0 1) ^ 2 * h3

theorem moved_rows (h : IsBeam mats nodes el a b X L EI EA γ ν) :
    List.Forall₂ (Resolves (nodes.map (movedNode Q s t)).length) (el.drop 3) [a, b] ∧
      (∃ id, (nodes.map (movedNode Q s t))[a]? = some [id, movedEnds Q s t X 0 0, movedEnds Q s t X 0 1]) ∧
      ∃ id, (nodes.map (movedNode Q s t))[b]? = some [id, movedEnds Q s t X 1 0, movedEnds Q s t X 1 1] := by
  obtain ⟨i, hi⟩ := h.first
  obtain ⟨i', hi'⟩ := h.second
  refine ⟨by rw [List.length_map]; exact h.ends, ⟨i, ?_⟩, ⟨i', ?_⟩⟩
  · rw [List.getElem?_map, hi]
    rfl
  · rw [List.getElem?_map, hi']
    rfl

/-- C128.  Turning, mirroring and shifting the table of nodes moves every beam, with the same materials. -/
theorem C128_turned (hQ : Q.transpose * Q = 1) (h : ∀ el ∈ elements, ∃ a b X L EI EA γ ν, IsBeam mats nodes el a b X L EI EA γ ν)
    (t : Fin 2 → K) : SimilarBeams Q 1 1 1 t mats nodes mats (nodes.map (movedNode Q 1 t)) elements := by
  intro el hel
  obtain ⟨a, b, X, L, EI, EA, γ, ν, hb⟩ := h el hel
  obtain ⟨r1, r2, r3⟩ := moved_rows (Q := Q) (s := 1) (t := t) hb
  refine ⟨a, b, X, L, EI, EA, γ, ν, hb, r1, r2, r3, moved_length hQ one_pos hb.length, ?_⟩
  simpa using hb.material

/-- C128.  Multiplying all lengths, those of the sections included, by `s` makes every beam with axial deformation `s²` times as stiff
axially, `s⁴` times as stiff in bending and `s²` times as heavy per length. -/
theorem C128_magnified (hs : 0 < s) (h : ∀ el ∈ elements, ∃ a b X L EI EA γ ν, IsBeam mats nodes el a b X L EI EA γ ν)
    (h8 : ∀ el ∈ elements, el[1]? = some 8) :
    SimilarBeams 1 s (s ^ 2) (s ^ 2) 0 mats nodes (mats.map (magnifiedSection s)) (nodes.map (movedNode 1 s 0)) elements := by
  intro el hel
  obtain ⟨a, b, X, L, EI, EA, γ, ν, hb⟩ := h el hel
  obtain ⟨r1, r2, r3⟩ := moved_rows (Q := 1) (s := s) (t := 0) hb
  refine ⟨a, b, X, L, EI, EA, γ, ν, hb, r1, r2, r3, moved_length (by simp) hs hb.length, ?_⟩
  obtain ⟨mi, q, params, c1, c2, c3, c4⟩ := hb.material
  rcases c4 with ⟨e7, -⟩ | ⟨e8, rfl, E, I, A, ⟨hI, hp⟩, rfl, rfl⟩
  · rw [h8 el hel] at e7
    simp at e7
  refine ⟨mi, q, magnifiedSection s params, c1, by rw [List.length_map]; exact c2, by rw [List.getElem?_map, c3]; rfl,
    .inr ⟨e8, rfl, E, s ^ 4 * I, s ^ 2 * A, ⟨mul_ne_zero (pow_ne_zero 4 hs.ne') hI, ?_⟩, by ring, by ring⟩⟩
  rcases hp with ⟨rfl, rfl⟩ | ⟨ρ, rfl, rfl⟩
  · exact .inl ⟨rfl, rfl⟩
  · exact .inr ⟨ρ, rfl, by ring⟩

/-- Supports that hold or leave free both displacements of a node are the same in every direction. -/
theorem moved_supports (hQ : Q.transpose * Q = 1) (hs : s ≠ 0) (hc : ∀ p < cons.length, Free cons 3 p 0 ↔ Free cons 3 p 1) (u : ℕ → ℕ → K) :
    Admissible cons 3 u ↔ Admissible cons 3 (movedField Q s u) := by
  have key : ∀ (Q : Matrix (Fin 2) (Fin 2) K) (s : K) (u : ℕ → ℕ → K), Admissible cons 3 u → Admissible cons 3 (movedField Q s u) := by
    intro Q s u hu p j hp hj hf
    obtain ⟨a0, a1, a2⟩ := movedField_fields (Q := Q) (s := s) u p
    rcases (by omega : j = 0 ∨ j = 1 ∨ j = 2) with rfl | rfl | rfl
    · rw [a0, hu p 0 hp (by omega) hf, hu p 1 hp (by omega) fun h => hf ((hc p hp).2 h)]; ring
    · rw [a1, hu p 0 hp (by omega) fun h => hf ((hc p hp).1 h), hu p 1 hp (by omega) hf]; ring
    · rw [a2, hu p 2 hp (by omega) hf]; ring
  refine ⟨key Q s u, fun h => ?_⟩
  exact (admissible_fields (moved_forth hQ hs u)).1 (key _ _ _ h)

/-- Supports along the axes stay in place under a change of size or a reflection in an axis. -/
theorem straight_supports (h0 : Q 0 1 = 0) (h1 : Q 1 0 = 0) (hQ : Q.transpose * Q = 1) (hs : s ≠ 0) (u : ℕ → ℕ → K) :
    Admissible cons 3 u ↔ Admissible cons 3 (movedField Q s u) := by
  have key : ∀ (Q : Matrix (Fin 2) (Fin 2) K) (s : K) (u : ℕ → ℕ → K), Q 0 1 = 0 → Q 1 0 = 0 → Admissible cons 3 u →
      Admissible cons 3 (movedField Q s u) := by
    intro Q s u h0 h1 hu p j hp hj hf
    obtain ⟨a0, a1, a2⟩ := movedField_fields (Q := Q) (s := s) u p
    rcases (by omega : j = 0 ∨ j = 1 ∨ j = 2) with rfl | rfl | rfl
    · rw [a0, hu p 0 hp (by omega) hf, h0]; ring
    · rw [a1, hu p 1 hp (by omega) hf, h1]; ring
    · rw [a2, hu p 2 hp (by omega) hf]; ring
  refine ⟨key Q s u h0 h1, fun h => ?_⟩
  exact (admissible_fields (moved_forth hQ hs u)).1 (key _ _ _ (by simpa using h1) (by simpa using h0) h)

/-- Displacement along and across a beam, as in textbooks. -/
def Spec.trueAlong (X : Matrix (Fin 2) (Fin 2) K) (L : K) (u : ℕ → K) : K := ((X 1 0 - X 0 0) * u 0 + (X 1 1 - X 0 1) * u 1) / L
def Spec.trueAcross (X : Matrix (Fin 2) (Fin 2) K) (L : K) (u : ℕ → K) : K := ((X 1 0 - X 0 0) * u 1 - (X 1 1 - X 0 1) * u 0) / L

/-- The internal work of a textbook beam: with the cubics of the given end deflections and rotations, and the elongations. -/
noncomputable def Spec.textbookWork (a b : ℕ) (X : Matrix (Fin 2) (Fin 2) K) (L EI EA : K) (V U : ℕ → ℕ → K) : K :=
  EI * bendInt L (hermite L (trueAcross X L (V a)) (V a 2) (trueAcross X L (V b)) (V b 2))
    (hermite L (trueAcross X L (U a)) (U a 2) (trueAcross X L (U b)) (U b 2)) +
  EA * ((trueAlong X L (V b) - trueAlong X L (V a)) * (trueAlong X L (U b) - trueAlong X L (U a)) / L)

/-- Mirror image in the first axis. -/
def Spec.flipY : Matrix (Fin 2) (Fin 2) K := !![1, 0; 0, -1]

theorem flip_fields (u : ℕ → ℕ → K) (p : ℕ) : movedField flipY 1 u p 0 = u p 0 ∧ movedField flipY 1 u p 1 = -u p 1 ∧
    movedField flipY 1 u p 2 = -u p 2 := by
  obtain ⟨a0, a1, a2⟩ := movedField_fields (Q := flipY) (s := (1 : K)) u p
  rw [a0, a1, a2]
  refine ⟨?_, ?_, ?_⟩ <;> simp [flipY, det_fin_two]

theorem flip_ortho : (flipY : Matrix (Fin 2) (Fin 2) K).transpose * flipY = 1 := by
  ext i j
  fin_cases i <;> fin_cases j <;> simp [flipY, Matrix.mul_apply, Fin.sum_univ_two]

/-- The beam of the code on a mirrored field does the work of the textbook beam. -/
theorem flip_beam (hsq : SqrtFn sq) (h : IsBeam mats nodes el a b X L EI EA γ ν) (g : IsMember (Routine sq) mats nodes el m) (V U : ℕ → ℕ → K) :
    m.form 3 (movedField flipY 1 V) (movedField flipY 1 U) = textbookWork a b X L EI EA V U := by
  have hL := h.length.1.ne'
  have hd : ∀ (u : ℕ → ℕ → K) k, k ≤ 3 → (deflection a b X L (movedField flipY 1 u)).coeff k =
      -1 * (hermite L (trueAcross X L (u a)) (u a 2) (trueAcross X L (u b)) (u b 2)).coeff k / 1 ^ k := by
    intro u k hk
    unfold deflection
    rw [(across_left _).1, (across_right _).1]
    obtain ⟨a0, a1, a2⟩ := flip_fields u a
    obtain ⟨b0, b1, b2⟩ := flip_fields u b
    rw [a0, a1, a2, b0, b1, b2]
    obtain ⟨c0, c1, c2, c3⟩ := hermite_cells L (((X 1 1 - X 0 1) * u a 0 + (X 1 0 - X 0 0) * -u a 1) / L) (-u a 2)
      (((X 1 1 - X 0 1) * u b 0 + (X 1 0 - X 0 0) * -u b 1) / L) (-u b 2)
    obtain ⟨d0, d1, d2, d3⟩ := hermite_cells L (trueAcross X L (u a)) (u a 2) (trueAcross X L (u b)) (u b 2)
    unfold trueAcross at *
    rcases (by omega : k = 0 ∨ k = 1 ∨ k = 2 ∨ k = 3) with rfl | rfl | rfl | rfl
    · rw [c0, d0]; ring
    · rw [c1, d1]; ring
    · rw [c2, d2]; ring
    · rw [c3, d3]; ring
  have he : ∀ u : ℕ → ℕ → K, (extension a b X L (movedField flipY 1 u)).coeff 1 = (trueAlong X L (u b) - trueAlong X L (u a)) / L := by
    intro u
    unfold extension
    rw [(across_left _).2, (across_right _).2]
    obtain ⟨a0, a1, a2⟩ := flip_fields u a
    obtain ⟨b0, b1, b2⟩ := flip_fields u b
    rw [a0, a1, b0, b1]
    unfold trueAlong
    simp [Polynomial.coeff_C]
  have hb := bendInt_moved (L := L) (e := -1) (s := (1 : K)) (by ring) one_ne_zero (hd V) (hd U)
  rw [one_mul, one_pow, div_one] at hb
  rw [(h.spring hsq g).2, hb, he, he]
  unfold textbookWork
  congr 2
  field_simp

/-- The nodal field `U` is the equilibrium of textbook beams between the nodes under the nodal forces and couples `F`. -/
def Spec.TextbookEquilibrium (cons mats nodes : Table K) (elements : List (List ℤ)) (F U : ℕ → ℕ → K) : Prop :=
  Admissible cons 3 U ∧ ∀ work : List ℤ → K, ∀ V, Admissible cons 3 V →
    (∀ el ∈ elements, ∃ a b X L EI EA γ ν, IsBeam mats nodes el a b X L EI EA γ ν ∧ work el = textbookWork a b X L EI EA V U) →
    ∑ p ∈ Finset.range nodes.length, ∑ j ∈ Finset.range 3, V p j * F p j = (elements.map work).sum

/-- C128.  What the analysis computes is the mirror image of a textbook equilibrium: a field balances the loads in the textbook frame
exactly when its mirror image balances the mirror image of the loads in the frame of the code. -/
theorem C128_textbook (hsq : SqrtFn sq) (hb : ∀ el ∈ elements, ∃ a b X L EI EA γ ν, IsBeam mats nodes el a b X L EI EA γ ν)
    (hf : Frame cons nodes elements) (hk : List.Forall₂ (IsMember (Routine sq) mats nodes) elements ks) (hl : ∀ l ∈ loads, l.length = 4)
    (hF : ∀ p < nodes.length, ∀ j < 3, IsLoad nodes.length loads p j (F p j)) :
    TextbookEquilibrium cons mats nodes elements F U ↔
      Equilibrium cons 3 (loads.map (movedLoad flipY 1 1)) ks (movedField flipY 1 U) := by
  obtain ⟨F', hF'⟩ := loads_field (nd := 3) (loads := loads.map (movedLoad flipY 1 1)) nodes.length fun l h => by
    obtain ⟨l', h', rfl⟩ := List.mem_map.1 h
    match l', hl l' h' with
    | [q, fx, fy, c], _ => exact le_rfl
  have hsup := straight_supports (cons := cons) (Q := flipY) (s := (1 : K)) rfl rfl flip_ortho one_ne_zero
  rw [weak_iff hf.size (members_lt hk) hF', ← hsup]
  have hwork : ∀ V : ℕ → ℕ → K, ∑ p ∈ Finset.range nodes.length, ∑ j ∈ Finset.range 3, movedField flipY 1 V p j * F' p j =
      ∑ p ∈ Finset.range nodes.length, ∑ j ∈ Finset.range 3, V p j * F p j := by
    intro V
    refine Finset.sum_congr rfl fun p hp => ?_
    rw [Finset.mem_range] at hp
    obtain ⟨f0, f1, f2⟩ := isLoad_moved (Q := flipY) (s := 1) (σ := 1) hl (hF p hp)
    rw [moved_work flip_ortho one_ne_zero V F F' p (isLoad_unique (hF' p hp 0 (by omega)) f0)
      (isLoad_unique (hF' p hp 1 (by omega)) f1) (isLoad_unique (hF' p hp 2 (by omega)) f2), one_mul]
  have hform : ∀ (V : ℕ → ℕ → K) (work : List ℤ → K), (∀ el ∈ elements, ∃ a b X L EI EA γ ν, IsBeam mats nodes el a b X L EI EA γ ν ∧
      work el = textbookWork a b X L EI EA V U) →
      (ks.map fun m => m.form 3 (movedField flipY 1 V) (movedField flipY 1 U)).sum = (elements.map work).sum := by
    intro V work hw
    clear hb hf hF' hF hwork hl
    induction hk with
    | nil => rfl
    | cons g t ih =>
      obtain ⟨a, b, X, L, EI, EA, γ, ν, h1, h2⟩ := hw _ List.mem_cons_self
      rw [List.map_cons, List.map_cons, List.sum_cons, List.sum_cons, ih fun e he => hw e (by simp [he]), h2, flip_beam hsq h1 g]
  unfold TextbookEquilibrium
  refine and_congr_right fun _ => ?_
  constructor
  · intro H V' hV'
    have hV := (hsup _).2 ((admissible_fields (moved_back flip_ortho one_ne_zero V')).2 hV')
    set V := movedField flipY.transpose 1⁻¹ V' with hVd
    have e : ∀ m : Member K, m.form 3 V' (movedField flipY 1 U) = m.form 3 (movedField flipY 1 V) (movedField flipY 1 U) :=
      form_fields (fun p j hj => (moved_back flip_ortho one_ne_zero V' p j hj).symm) fun _ _ _ => rfl
    simp only [e]
    choose! a₀ b₀ X₀ L₀ EI₀ EA₀ γ₀ ν₀ hB using hb
    have hw : ∀ el ∈ elements, ∃ a b X L EI EA γ ν, IsBeam mats nodes el a b X L EI EA γ ν ∧
        (fun el => textbookWork (a₀ el) (b₀ el) (X₀ el) (L₀ el) (EI₀ el) (EA₀ el) V U) el = textbookWork a b X L EI EA V U :=
      fun el hel => ⟨_, _, _, _, _, _, _, _, hB el hel, rfl⟩
    rw [hform V _ hw, ← H _ V hV hw, ← hwork V]
    refine Finset.sum_congr rfl fun p _ => Finset.sum_congr rfl fun j hj => ?_
    rw [moved_back flip_ortho one_ne_zero V' p j (Finset.mem_range.1 hj)]
  · intro H work V hV hw
    rw [← hform V work hw, ← H _ ((hsup V).1 hV), hwork V]

end

section
variable {sq : ℝ → ℝ} {cons cons' mats mats' nodes nodes' : Table ℝ} {elements : List (List ℤ)} {ks ks' ms ms' : List (Member ℝ)} {neq neq' : ℕ}
  {Kg Mg : Matrix (Fin neq) (Fin neq) ℝ} {Kg' Mg' : Matrix (Fin neq') (Fin neq') ℝ} {w : Fin neq → ℝ} {φ : Fin neq → Fin neq → ℝ}
  {w' : Fin neq' → ℝ} {φ' : Fin neq' → Fin neq' → ℝ} {Q : Matrix (Fin 2) (Fin 2) ℝ} {s α β : ℝ} {t : Fin 2 → ℝ}

theorem moved_sum (Q : Matrix (Fin 2) (Fin 2) ℝ) (s : ℝ) {r : ℕ} (c : Fin r → ℝ) (u : Fin r → ℕ → ℕ → ℝ) :
    movedField Q s (fun p j => ∑ i, c i * u i p j) = fun p j => ∑ i, c i * movedField Q s (u i) p j := by
  funext p j
  unfold movedField
  split_ifs
  · rw [Finset.mul_sum, Finset.mul_sum, ← Finset.sum_sub_distrib]
    exact Finset.sum_congr rfl fun i _ => by ring
  · rw [Finset.mul_sum, Finset.mul_sum, ← Finset.sum_sub_distrib]
    exact Finset.sum_congr rfl fun i _ => by ring
  · rw [Finset.mul_sum, Finset.sum_div]
    exact Finset.sum_congr rfl fun i _ => by ring
  · simp

/-- Fields carried over with multiplied energies. -/
theorem slow_carried {nd : ℕ} {T : (ℕ → ℕ → ℝ) → ℕ → ℕ → ℝ} {x y τ : ℝ} {r : ℕ} (hx : 0 ≤ x) (hy : 0 < y)
    (hsum : ∀ {r : ℕ} (c : Fin r → ℝ) (u : Fin r → ℕ → ℕ → ℝ), T (fun p j => ∑ i, c i * u i p j) = fun p j => ∑ i, c i * T (u i) p j)
    (hadm : ∀ u, Admissible cons nd u → Admissible cons' nd (T u))
    (hz : ∀ u, (∀ p < cons'.length, ∀ j < nd, T u p j = 0) → ∀ p < cons.length, ∀ j < nd, u p j = 0)
    (hk : ∀ u, energyOf nd ks' (T u) = x * energyOf nd ks u) (hm : ∀ u, energyOf nd ms' (T u) = y * energyOf nd ms u)
    (h : Slow cons nd ks ms τ r) : Slow cons' nd ks' ms' (x / y * τ) r := by
  obtain ⟨u, h1, h2, h3⟩ := h
  refine ⟨fun i => T (u i), fun i => hadm _ (h1 i), fun c hc => h2 c (hz _ ?_), fun c => ?_⟩
  · rw [hsum]
    exact hc
  · rw [← hsum, hk, hm]
    calc _ ≤ x * (τ * energyOf nd ms (fun p j => ∑ i, c i * u i p j)) := mul_le_mul_of_nonneg_left (h3 c) hx
      _ = _ := by field_simp

/-- C128.  The squared frequencies of the moved frame are `α / (β s²)` times those of the first. -/
theorem C128_frequencies (hsq : SqrtFn sq) (hQ : Q.transpose * Q = 1) (hs : 0 < s) (hα : 0 < α) (hβ : 0 < β)
    (h : SimilarBeams Q s α β t mats nodes mats' nodes' elements)
    (hsup : ∀ u, Admissible cons 3 u ↔ Admissible cons' 3 (movedField Q s u)) (hn : nodes'.length = nodes.length)
    (hb : BeamModel sq cons mats nodes elements ks ms Kg Mg) (hb' : BeamModel sq cons' mats' nodes' elements ks' ms' Kg' Mg')
    (hm : Modes Kg Mg w φ) (hm' : Modes Kg' Mg' w' φ') (k : Fin neq) (k' : Fin neq') (hkk : (k : ℕ) = k') :
    w' k' = α / (β * s ^ 2) * w k := by
  have hlen : cons'.length = cons.length := by rw [hb.frame.size, hb'.frame.size, hn]
  have hz : ∀ (Q : Matrix (Fin 2) (Fin 2) ℝ) (s : ℝ), Q.transpose * Q = 1 → s ≠ 0 → ∀ u : ℕ → ℕ → ℝ, ∀ n,
      (∀ p < n, ∀ j < 3, movedField Q s u p j = 0) → ∀ p < n, ∀ j < 3, u p j = 0 := by
    intro Q s hQ hs u n h0 p hp j hj
    rw [← moved_forth hQ hs u p j hj]
    obtain ⟨a0, a1, a2⟩ := movedField_fields (Q := Q.transpose) (s := s⁻¹) (movedField Q s u) p
    rcases (by omega : j = 0 ∨ j = 1 ∨ j = 2) with rfl | rfl | rfl
    · rw [a0, h0 p hp 0 (by omega), h0 p hp 1 (by omega)]; ring
    · rw [a1, h0 p hp 0 (by omega), h0 p hp 1 (by omega)]; ring
    · rw [a2, h0 p hp 2 (by omega)]; ring
  have hE := C128_forms hsq hQ hs.ne' h hb.springs hb'.springs hb.masses hb'.masses
  have hQ' : Q.transpose.transpose * Q.transpose = 1 := by
    rw [transpose_transpose]
    exact mul_eq_one_comm.1 hQ
  have e1 : α / s / (β * s) = α / (β * s ^ 2) := by field_simp
  have e2 : s / α / (1 / (β * s)) = β * s ^ 2 / α := by field_simp
  refine le_antisymm ?_ ?_
  · rw [C122_minmax hsq hb' hm', ← hkk, ← e1]
    exact slow_carried (by positivity) (by positivity) (moved_sum Q s) (fun u => (hsup u).1)
      (fun u hu => hz Q s hQ hs.ne' u _ (by rw [hlen] at hu; exact hu)) (fun u => (hE u u).1) (fun u => (hE u u).2)
      ((C122_minmax hsq hb hm k _).1 le_rfl)
  · have key : w k ≤ β * s ^ 2 / α * w' k' := by
      rw [C122_minmax hsq hb hm, hkk, ← e2]
      have hform : ∀ (l : List (Member ℝ)) u, energyOf 3 l u =
          energyOf 3 l (movedField Q s (movedField Q.transpose s⁻¹ u)) := fun l u => by
        unfold energyOf
        congr 1
        exact List.map_congr_left fun m _ => form_fields (fun p j hj => (moved_back hQ hs.ne' u p j hj).symm)
          (fun p j hj => (moved_back hQ hs.ne' u p j hj).symm) m
      refine slow_carried (by positivity) (by positivity) (moved_sum Q.transpose s⁻¹)
        (fun u hu => (hsup _).2 ((admissible_fields (moved_back hQ hs.ne' u)).2 hu))
        (fun u hu => hz _ _ hQ' (inv_ne_zero hs.ne') u _ (by rw [hlen]; exact hu)) (fun u => ?_) (fun u => ?_)
        ((C122_minmax hsq hb' hm' k' _).1 le_rfl)
      · have := (hE (movedField Q.transpose s⁻¹ u) (movedField Q.transpose s⁻¹ u)).1
        rw [hform ks' u]
        unfold energyOf
        rw [this]
        field_simp
      · have := (hE (movedField Q.transpose s⁻¹ u) (movedField Q.transpose s⁻¹ u)).2
        rw [hform ms' u]
        unfold energyOf
        rw [this]
        field_simp
    rw [div_mul_eq_mul_div, div_le_iff₀ (by positivity)]
    rw [div_mul_eq_mul_div, le_div_iff₀ hα] at key
    linarith

end
theorem testFrame_held : ∀ p < testFrame.1.length, Free testFrame.1 3 p 0 ↔ Free testFrame.1 3 p 1 := by
  intro p _
  rw [testFrame_free, testFrame_free]
  omega

theorem frame_moved {cons nodes : Table ℝ} {elements : List (List ℤ)} (hf : Frame cons nodes elements) (f : List ℝ → List ℝ) :
    Frame cons (nodes.map f) elements := ⟨hf.codes, hf.width, by rw [List.length_map]; exact hf.size, hf.beams⟩

/-- The frame of the tests turned by the rotation with cosine 3/5 and sine 4/5 and shifted, its load turned the other way: the corner
moves as before, turned the other way, and rotates as before. -/
example (sparse : Bool) : ∃ full, frameRun Real.sqrt cramerR cramerR sparse testFrame.1 testFrame.2.1 testFrame.2.2.1
      (testFrame.2.2.2.1.map (movedNode slant 1 ![7, -2])) (testFrame.2.2.2.2.map (movedLoad slant 1 1)) = .ok full ∧
    entry full 1 0 = some (3 / 5 * (-181569276 / 28874167400125) + 4 / 5 * (-489357306 / 28874167400125)) ∧
    entry full 1 1 = some (3 / 5 * (-489357306 / 28874167400125) - 4 / 5 * (-181569276 / 28874167400125)) ∧
    entry full 1 2 = some (-507505867191 / 3840264264216625) := by
  have hQ := slant_rot.1
  have hs := C128_turned (elements := testFrame.2.1) (mats := testFrame.2.2.1) (nodes := testFrame.2.2.2.1) hQ (fun el hel => by
    obtain ⟨a, b, X, L, h⟩ := testFrame_beams el hel
    exact ⟨a, b, X, L, _, _, _, _, h⟩) ![7, -2]
  obtain ⟨⟨ks, hk⟩, -⟩ := similar_members sqrtFn_real hs
  obtain ⟨full, r, e0, e1, e2⟩ := testFrame_solved sparse
  obtain ⟨full₀, full', r0, r1, h⟩ := C128_run (σ := 1) sqrtFn_real hQ one_ne_zero one_ne_zero hs testFrame_frame (frame_moved testFrame_frame _) (by simp)
    (moved_supports hQ one_ne_zero testFrame_held) hk (testFrame_stable hk) (loads := testFrame.2.2.2.2) (by
      intro L hL
      rw [testFrame, List.mem_singleton] at hL
      subst hL
      exact ⟨rfl, 1, (names_nat (p := 1) (by show 1 < 3; omega) (by simp)).2 rfl⟩) cramerR_ok cramerR_ok sparse sparse
  rw [r, Except.ok.injEq] at r0
  subst r0
  obtain ⟨x, y, z, h0, h1, h2, g0, g1, g2⟩ := h 1 (by simp [testFrame])
  rw [e0, Option.some.injEq] at h0
  rw [e1, Option.some.injEq] at h1
  rw [e2, Option.some.injEq] at h2
  subst h0 h1 h2
  refine ⟨full', r1, ?_, ?_, ?_⟩
  · rw [g0, Option.some.injEq]
    simp only [slant, of_apply, cons_val', cons_val_zero, cons_val_one, cons_val_fin_one]
    norm_num
  · rw [g1, Option.some.injEq]
    simp only [slant, of_apply, cons_val', cons_val_zero, cons_val_one, cons_val_fin_one]
    norm_num
  · rw [g2, slant_rot.2, Option.some.injEq]
    norm_num

/-- The frame of the tests made three times as large in all dimensions, under the same forces and couples three times as large: the
displacements are a third. -/
example (sparse : Bool) : ∃ full, frameRun Real.sqrt cramerR cramerR sparse testFrame.1 testFrame.2.1 (testFrame.2.2.1.map (magnifiedSection 3))
      (testFrame.2.2.2.1.map (movedNode 1 3 0)) (testFrame.2.2.2.2.map (movedLoad 1 3 1)) = .ok full ∧
    entry full 1 0 = some (1 / 3 * (-181569276 / 28874167400125)) ∧ entry full 1 1 = some (1 / 3 * (-489357306 / 28874167400125)) ∧
    entry full 1 2 = some (1 / 9 * (-507505867191 / 3840264264216625)) := by
  have hQ : (1 : Matrix (Fin 2) (Fin 2) ℝ).transpose * 1 = 1 := by simp
  have hs := C128_magnified (s := 3) (elements := testFrame.2.1) (mats := testFrame.2.2.1) (nodes := testFrame.2.2.2.1) (by norm_num) (fun el hel => by
    obtain ⟨a, b, X, L, h⟩ := testFrame_beams el hel
    exact ⟨a, b, X, L, _, _, _, _, h⟩) (by simp [testFrame])
  obtain ⟨⟨ks, hk⟩, -⟩ := similar_members sqrtFn_real hs
  obtain ⟨full, r, e0, e1, e2⟩ := testFrame_solved sparse
  obtain ⟨full₀, full', r0, r1, h⟩ := C128_run (σ := 1) sqrtFn_real hQ (by norm_num) (by norm_num) hs testFrame_frame (frame_moved testFrame_frame _)
    (by simp) (straight_supports (by simp) (by simp) hQ (by norm_num)) hk (testFrame_stable hk) (loads := testFrame.2.2.2.2) (by
      intro L hL
      rw [testFrame, List.mem_singleton] at hL
      subst hL
      exact ⟨rfl, 1, (names_nat (p := 1) (by show 1 < 3; omega) (by simp)).2 rfl⟩) cramerR_ok cramerR_ok sparse sparse
  rw [r, Except.ok.injEq] at r0
  subst r0
  obtain ⟨x, y, z, h0, h1, h2, g0, g1, g2⟩ := h 1 (by simp [testFrame])
  rw [e0, Option.some.injEq] at h0
  rw [e1, Option.some.injEq] at h1
  rw [e2, Option.some.injEq] at h2
  subst h0 h1 h2
  refine ⟨full', r1, ?_, ?_, ?_⟩
  · rw [g0, Option.some.injEq]
    norm_num
  · rw [g1, Option.some.injEq]
    norm_num
  · rw [g2, Option.some.injEq, det_one]
    norm_num

/-- The analysis of the frame of the tests under the mirror image of the load returns the mirror image of the textbook solution. -/
example {ks : List (Member ℝ)} (hk : List.Forall₂ (IsMember (Routine Real.sqrt) testFrame.2.2.1 testFrame.2.2.2.1) testFrame.2.1 ks)
    {F U : ℕ → ℕ → ℝ} (hF : ∀ p < 3, ∀ j < 3, IsLoad 3 [[1, -12000, -24000, -6000]] p j (F p j)) :
    TextbookEquilibrium testFrame.1 testFrame.2.2.1 testFrame.2.2.2.1 testFrame.2.1 F U ↔
      Equilibrium testFrame.1 3 [[1, -12000, 24000, 6000]] ks (movedField flipY 1 U) := by
  have h := C128_textbook (F := F) (U := U) (loads := [[1, -12000, -24000, -6000]]) sqrtFn_real (fun el hel => by
    obtain ⟨a, b, X, L, h⟩ := testFrame_beams el hel
    exact ⟨a, b, X, L, _, _, _, _, h⟩) testFrame_frame hk (by simp) hF
  have e : List.map (movedLoad flipY 1 1) [[(1 : ℝ), -12000, -24000, -6000]] = [[1, -12000, 24000, 6000]] := by
    simp [movedLoad, flipY, det_fin_two]
  rwa [e] at h

end SolidsPy
