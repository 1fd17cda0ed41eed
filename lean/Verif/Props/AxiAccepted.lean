import Verif.Props.Accepted
import Verif.Props.AxiBodies

/-! # C152: which axisymmetric elements are accepted -/

set_option linter.unusedSectionVars false

namespace SolidsPy
open Spec Fem Uel Gauss Assem Matrix

section
variable {K : Type} [Field K] [LinearOrder K] [IsStrictOrderedRing K] [FloorRing K]

/-- With the middle nodes on straight sides the nine-node element places a point like the four-node one. -/
theorem place_straight {Q : Matrix (Fin 4) (Fin 2) K} {X : Matrix (Fin 9) (Fin 2) K} (hX : ∀ a i, X a i = inQuad Q (quadNode a) i)
    (r s : K) (i : Fin 2) : place (shapeQuad9 r s).1 X i = inQuad Q (r, s) i := by
  obtain ⟨h0, h1, h2, h3, h4, h5, h6, h7, h8⟩ := inQuad_nodes Q i
  have e : ∀ f : Fin 9 → K, ∑ a, f a = f 0 + f 1 + f 2 + f 3 + f 4 + f 5 + f 6 + f 7 + f 8 := fun f => by
    rw [Fin.sum_univ_castSucc, Fin.sum_univ_eight]; rfl
  unfold place
  simp only [hX, e, h0, h1, h2, h3, h4, h5, h6, h7, h8]
  simp [inQuad, shapeQuad9, lit_quarter, lit_half, lit_one, lit_two]
  ring

/-- An accepted point of the axisymmetric element: the Jacobian as in the plane, and the radius positive at the four points next to
the corners. -/
theorem accAxi_iff {Q : Matrix (Fin 4) (Fin 2) K} {X : Matrix (Fin 9) (Fin 2) K} (hX : ∀ a i, X a i = inQuad Q (quadNode a) i) :
    AccAxi ruleAxi X ↔
      (∀ a, 4e-8 < 0.774596669241483377 * cornerArea Q a + (1 - 0.774596669241483377) * quadArea Q) ∧
      ∀ sx ∈ [(-1 : K), 1], ∀ sy ∈ [(-1 : K), 1], 0 < inQuad Q (0.774596669241483377 * sx, 0.774596669241483377 * sy) 0 := by
  rw [← acc_quad3 (straight_quad9 hX)]
  have e : ((0.774596669241483377 : ℚ) : K) = 0.774596669241483377 := by norm_num
  have split : AccAxi ruleAxi X ↔ Acc (ruleQuad shapeQuad9 pts1d3 wts1d3) X ∧ ∀ x ∈ ruleAxi (K := K), 0 < place x.1.1 X 0 :=
    ⟨fun h => ⟨fun x hx => (h x hx).2, fun x hx => (h x hx).1⟩, fun h x hx => ⟨h.2 x hx, h.1 x hx⟩⟩
  rw [split]
  refine and_congr_right fun _ => ?_
  unfold ruleAxi ruleQuad
  simp only [pts1d3, wts1d3, prodRepeat, List.flatMap_cons, List.flatMap_nil, List.map_cons, List.map_nil, List.append_nil,
    List.cons_append, List.nil_append, List.zip_cons_cons, List.zip_nil_left, List.forall_mem_cons, List.not_mem_nil,
    at2, List.getD_cons_zero, List.getD_cons_succ, Rat.cast_neg, Rat.cast_zero, e, place_straight hX]
  have hg : (0 : K) < 0.774596669241483377 ∧ (0.774596669241483377 : K) < 1 := by constructor <;> norm_num
  generalize (0.774596669241483377 : K) = g at *
  simp only [inQuad, mul_neg, mul_one]
  constructor
  · rintro ⟨k0, -, k3, -, -, -, k1, -, k2, -⟩
    exact ⟨⟨k0, k3, fun _ h => h.elim⟩, ⟨k1, k2, fun _ h => h.elim⟩, fun _ h => h.elim⟩
  · rintro ⟨⟨k0, k3, -⟩, ⟨k1, k2, -⟩, -⟩
    refine ⟨?_, ?_, ?_, ?_, ?_, ?_, ?_, ?_, ?_, fun _ h => h.elim⟩ <;> linarith

/-- C152.  The axisymmetric element with straight sides is accepted exactly when the plane element is and the four points next to
its corners lie strictly on the positive side of the axis. -/
theorem C152_axi {Q : Matrix (Fin 4) (Fin 2) K} {X : Matrix (Fin 9) (Fin 2) K} (hX : ∀ a i, X a i = inQuad Q (quadNode a) i)
    {E nu ρ : K} (hnu : 1 + nu ≠ 0) (hnu' : 1 - 2 * nu ≠ 0) :
    (∃ r, elastAxiQuad9 (matRows X) [E, nu, ρ] = .ok r) ↔
      (∀ a, 4e-8 < 0.774596669241483377 * cornerArea Q a + (1 - 0.774596669241483377) * quadArea Q) ∧
      ∀ sx ∈ [(-1 : K), 1], ∀ sy ∈ [(-1 : K), 1], 0 < inQuad Q (0.774596669241483377 * sx, 0.774596669241483377 * sy) 0 := by
  rw [← accAxi_iff hX]
  obtain ⟨C, hC⟩ : ∃ C, elastMatAxi [E, nu] = .ok C :=
    ⟨_, elastMatAxi_ok.2 ⟨E, nu, rfl, hnu, hnu', _, E / (1 + nu) / 2, rfl, by ring, rfl⟩⟩
  constructor
  · rintro ⟨r, hr⟩
    obtain ⟨_, _, _, ha, _⟩ := repAxi_ok.1 hr
    exact ha
  · intro ha
    exact ⟨_, repAxi_ok.2 ⟨C, ρ, ⟨rfl, hC, rfl⟩, ha, rfl⟩⟩

/-- C152.  In particular a convex element whose corners have radii of at least zero is accepted, also when it touches the axis. -/
theorem C152_axi_convex {Q : Matrix (Fin 4) (Fin 2) K} {X : Matrix (Fin 9) (Fin 2) K} (hX : ∀ a i, X a i = inQuad Q (quadNode a) i)
    (hc : ∀ a, 4e-8 < cornerArea Q a) (hr : ∀ a, 0 ≤ Q a 0) {E nu ρ : K} (hnu : 1 + nu ≠ 0) (hnu' : 1 - 2 * nu ≠ 0) :
    ∃ r, elastAxiQuad9 (matRows X) [E, nu, ρ] = .ok r := by
  rw [C152_axi hX hnu hnu']
  have ha := (C152_opposite Q).1
  have hg : (0 : K) < 0.774596669241483377 ∧ (0.774596669241483377 : K) < 1 := by constructor <;> norm_num
  generalize (0.774596669241483377 : K) = g at *
  have h0 := hc 0
  have h2 := hc 2
  have hq : 4e-8 < quadArea Q := by linarith
  refine ⟨fun a => ?_, ?_⟩
  · have := hc a
    have k1 := mul_lt_mul_of_pos_left this hg.1
    have k2 := mul_lt_mul_of_pos_left hq (sub_pos.2 hg.2)
    linarith
  · have hsum : 0 < Q 0 0 + Q 1 0 + Q 2 0 + Q 3 0 := by
      have s0 := hr 0
      have s1 := hr 1
      have s2 := hr 2
      have s3 := hr 3
      rcases (add_nonneg (add_nonneg (add_nonneg s0 s1) s2) s3).lt_or_eq with h | h
      · exact h
      · exfalso
        have z0 : Q 0 0 = 0 := by linarith
        have z1 : Q 1 0 = 0 := by linarith
        have z2 : Q 2 0 = 0 := by linarith
        have z3 : Q 3 0 = 0 := by linarith
        have : quadArea Q = 0 := by
          unfold quadArea turnArea
          simp [z0, z1, z2, z3]
        rw [this] at hq
        norm_num at hq
    have key : ∀ x y : K, -1 < x → x < 1 → -1 < y → y < 1 → 0 < inQuad Q (x, y) 0 := by
      intro x y x1 x2 y1 y2
      have a1 : 0 < (1 - x) / 2 := by linarith
      have a2 : 0 < (1 + x) / 2 := by linarith
      have b1 : 0 < (1 - y) / 2 := by linarith
      have b2 : 0 < (1 + y) / 2 := by linarith
      have some : 0 < Q 0 0 ∨ 0 < Q 1 0 ∨ 0 < Q 2 0 ∨ 0 < Q 3 0 := by
        by_contra hno
        push Not at hno
        linarith [hno.1, hno.2.1, hno.2.2.1, hno.2.2.2]
      have m0 := mul_nonneg (mul_pos b1 a1).le (hr 0)
      have m1 := mul_nonneg (mul_pos b1 a2).le (hr 1)
      have m2 := mul_nonneg (mul_pos b2 a2).le (hr 2)
      have m3 := mul_nonneg (mul_pos b2 a1).le (hr 3)
      have e : inQuad Q (x, y) 0 = (1 - y) / 2 * ((1 - x) / 2) * Q 0 0 + (1 - y) / 2 * ((1 + x) / 2) * Q 1 0 +
          (1 + y) / 2 * ((1 + x) / 2) * Q 2 0 + (1 + y) / 2 * ((1 - x) / 2) * Q 3 0 := by
        unfold inQuad
        ring
      rw [e]
      rcases some with h | h | h | h
      · linarith [mul_pos (mul_pos b1 a1) h]
      · linarith [mul_pos (mul_pos b1 a2) h]
      · linarith [mul_pos (mul_pos b2 a2) h]
      · linarith [mul_pos (mul_pos b2 a1) h]
    intro sx hx sy hy
    simp only [List.mem_cons, List.not_mem_nil, or_false] at hx hy
    obtain ⟨g0, g1⟩ := hg
    rcases hx with rfl | rfl <;> rcases hy with rfl | rfl <;> apply key <;> linarith

end

/-- A ring touching the axis is accepted, and the same ring pushed across the axis is not. -/
def axisQuad (t : ℚ) : Matrix (Fin 4) (Fin 2) ℚ := !![t, 0; 2 + t, 0; 3 + t, 2; t, 1]
def axisRing (t : ℚ) : Matrix (Fin 9) (Fin 2) ℚ := Matrix.of fun a i => inQuad (axisQuad t) (quadNode a) i

example : (∃ r, elastAxiQuad9 (matRows (axisRing 0)) [1, 1/4, 1] = .ok r) ∧
    ¬ ∃ r, elastAxiQuad9 (matRows (axisRing (-1))) [1, 1/4, 1] = .ok r := by
  constructor
  · exact C152_axi_convex (Q := axisQuad 0) (fun _ _ => rfl) (by decide +kernel) (by decide +kernel) (by norm_num) (by norm_num)
  · rw [C152_axi (Q := axisQuad (-1)) (X := axisRing (-1)) (fun _ _ => rfl) (by norm_num) (by norm_num)]
    decide +kernel

end SolidsPy
