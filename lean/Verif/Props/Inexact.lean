import Verif.Props.Success
import Mathlib.Algebra.Order.BigOperators.Ring.Finset
import Mathlib.Tactic.LinearCombination
import Mathlib.Tactic.FieldSimp
import Mathlib.Tactic.Positivity

/-! # C162: displacements found by an inexact solver

The linear solver of a real run rounds.  Here it is arbitrary, or leaves a bounded residual, or solves a system with slightly
different coefficients (backward stable, the usual guarantee for an LU factorization). -/

set_option linter.unusedSectionVars false

namespace SolidsPy
open Spec Assem

namespace Spec
variable {K : Type} [Field K] [LinearOrder K]

/-- The forces at the free degrees of freedom miss the loads by at most `ε`. -/
def NearEquilibrium (cons : List (List K)) (nd : ℕ) (loads : List (List K)) (ms : List (Member K)) (ε : K) (u : ℕ → ℕ → K) : Prop :=
  Admissible cons nd u ∧
  ∀ p j x, Free cons nd p j → IsLoad cons.length loads p j x → |internal nd ms u p j - x| ≤ ε

/-- The solver answers every nonsingular system with a vector of residual at most `ε`. -/
def SolverWithin (ε : K) (sp : Sol.Solver K) : Prop :=
  ∀ n (M : Matrix (Fin n) (Fin n) K) (b : Fin n → K), M.det ≠ 0 → ∃ x, sp n M b = .ok x ∧ ∀ i, |M.mulVec x i - b i| ≤ ε

/-- The solver answers every nonsingular system with the exact solution of a system whose coefficients differ by at most `η` times the
size of the matrix. -/
def BackwardStable (η : K) (sp : Sol.Solver K) : Prop :=
  ∀ n (M : Matrix (Fin n) (Fin n) K) (b : Fin n → K), M.det ≠ 0 →
    ∃ x E, sp n M b = .ok x ∧ (M + E).mulVec x = b ∧ ∀ i j, |E i j| ≤ η * ∑ k, ∑ l, |M k l|

end Spec

section
variable {K : Type} [Field K] [LinearOrder K] [IsStrictOrderedRing K] [FloorRing K]

/-- A bound of the inverse of a nonsingular matrix. -/
theorem inverse_bound {n : ℕ} {A : Matrix (Fin n) (Fin n) K} (hA : A.det ≠ 0) :
    ∃ C : K, 0 ≤ C ∧ ∀ (v : Fin n → K) (ε : K), (∀ i, |A.mulVec v i| ≤ ε) → ∀ i, |v i| ≤ C * ε := by
  refine ⟨∑ r, ∑ c, |A.det⁻¹ * A.adjugate r c|, Finset.sum_nonneg fun _ _ => Finset.sum_nonneg fun _ _ => abs_nonneg _,
    fun v ε hv i => ?_⟩
  have hi : v i = ∑ c, A.det⁻¹ * A.adjugate i c * A.mulVec v c := by
    have : v = A.det⁻¹ • A.adjugate.mulVec (A.mulVec v) := by
      rw [Matrix.mulVec_mulVec, Matrix.adjugate_mul, Matrix.smul_mulVec, Matrix.one_mulVec, smul_smul, inv_mul_cancel₀ hA, one_smul]
    conv_lhs => rw [this]
    simp only [Pi.smul_apply, smul_eq_mul, Matrix.mulVec, dotProduct, Finset.mul_sum, mul_assoc]
  have hε : 0 ≤ ε := (abs_nonneg _).trans (hv i)
  rw [hi, Finset.sum_mul]
  calc |∑ c, A.det⁻¹ * A.adjugate i c * A.mulVec v c| ≤ ∑ c, |A.det⁻¹ * A.adjugate i c| * ε :=
        (Finset.abs_sum_le_sum_abs _ _).trans (Finset.sum_le_sum fun c _ => by
          rw [abs_mul]
          exact mul_le_mul_of_nonneg_left (hv c) (abs_nonneg _))
    _ = (∑ c, |A.det⁻¹ * A.adjugate i c|) * ε := (Finset.sum_mul _ _ _).symm
    _ ≤ ∑ r, (∑ c, |A.det⁻¹ * A.adjugate r c|) * ε :=
        Finset.single_le_sum (f := fun r => (∑ c, |A.det⁻¹ * A.adjugate r c|) * ε)
          (fun r _ => mul_nonneg (Finset.sum_nonneg fun _ _ => abs_nonneg _) hε) (Finset.mem_univ i)

/-- A bound of the error made by changing the coefficients of a system. -/
theorem perturbed_bound {n : ℕ} {A : Matrix (Fin n) (Fin n) K} (hA : A.det ≠ 0) :
    ∃ κ : K, 0 ≤ κ ∧ ∀ (η : K) (E : Matrix (Fin n) (Fin n) K) (x x₀ : Fin n → K) (B : K), 0 ≤ η → κ * η < 1 →
      (∀ i j, |E i j| ≤ η * ∑ k, ∑ l, |A k l|) → (A + E).mulVec x = A.mulVec x₀ → (∀ i, |x₀ i| ≤ B) →
      ∀ i, |x i - x₀ i| ≤ κ * η / (1 - κ * η) * B := by
  obtain ⟨C, hC, hb⟩ := inverse_bound hA
  set S : K := ∑ k, ∑ l, |A k l| with hS
  have hS0 : 0 ≤ S := Finset.sum_nonneg fun _ _ => Finset.sum_nonneg fun _ _ => abs_nonneg _
  refine ⟨n * n * (C * S), by positivity, fun η E x x₀ B hη hlt hE hx hB i => ?_⟩
  have hn : 1 ≤ (n : K) := by
    have : 1 ≤ n := Nat.succ_le_of_lt (Nat.zero_lt_of_lt i.2)
    exact_mod_cast this
  have hB0 : 0 ≤ B := (abs_nonneg _).trans (hB i)
  have hCS : 0 ≤ C * S * η := mul_nonneg (mul_nonneg hC hS0) hη
  -- the residual
  have hres : ∀ r, |A.mulVec (x - x₀) r| ≤ η * S * ∑ j, |x j| := by
    intro r
    have h1 : A.mulVec (x - x₀) r = -(E.mulVec x r) := by
      have := congrFun hx r
      rw [Matrix.add_mulVec] at this
      rw [Matrix.mulVec_sub]
      simp only [Pi.add_apply, Pi.sub_apply] at this ⊢
      linear_combination this
    have h2 : E.mulVec x r = ∑ j, E r j * x j := rfl
    rw [h1, abs_neg, Finset.mul_sum, h2]
    refine (Finset.abs_sum_le_sum_abs _ _).trans (Finset.sum_le_sum fun j _ => ?_)
    rw [abs_mul]
    exact mul_le_mul_of_nonneg_right (hE r j) (abs_nonneg _)
  have herr := hb (x - x₀) _ hres
  simp only [Pi.sub_apply] at herr
  set e : K := ∑ j, |x j - x₀ j| with he
  have he1 : e ≤ n * (C * (η * S * ∑ j, |x j|)) := by
    refine (Finset.sum_le_sum fun j _ => herr j).trans ?_
    simp
  have hsum : ∑ j, |x j| ≤ n * B + e := by
    have : ∀ j, |x j| ≤ B + |x j - x₀ j| := fun j => by
      have h1 := abs_add_le (x₀ j) (x j - x₀ j)
      rw [add_sub_cancel] at h1
      linarith [hB j]
    refine (Finset.sum_le_sum fun j _ => this j).trans ?_
    rw [Finset.sum_add_distrib]
    simp [he]
  have hq : 0 < 1 - n * n * (C * S) * η := by linarith
  have hCn : 0 ≤ n * (C * S * η) := mul_nonneg (by linarith) hCS
  have hk : n * (C * S * η) ≤ n * n * (C * S) * η := by nlinarith
  have he0 : 0 ≤ e := Finset.sum_nonneg fun _ _ => abs_nonneg _
  have he2 : e * (1 - n * n * (C * S) * η) ≤ n * n * (C * S) * η * B := by
    have h1 : e ≤ n * (C * S * η) * (n * B + e) := by
      refine he1.trans (le_of_eq_of_le ?_ (mul_le_mul_of_nonneg_left hsum hCn))
      ring
    have h2 := mul_le_mul_of_nonneg_right hk he0
    linarith
  have he3 : |x i - x₀ i| ≤ e := Finset.single_le_sum (f := fun j => |x j - x₀ j|) (fun _ _ => abs_nonneg _) (Finset.mem_univ i)
  refine he3.trans ?_
  rw [div_mul_eq_mul_div, le_div_iff₀ hq]
  exact he2

variable {sq : K → K} {sp de : Sol.Solver K} {d : Gui.Data K} {plot : Bool} {res : Gui.Result K}
  {ms : List (Member K)}

/-- C162.  A solver that leaves a residual leaves forces out of balance by no more. -/
theorem C162_residual {ε : K} (hwf : WellFormed d) (hsp : SolverWithin ε sp) (hms : Members sq d ms)
    (hst : Stable d.cons 2 ms) (h : Gui.solidsAuto sq sp de d plot = .ok res) :
    NearEquilibrium d.cons 2 d.loads ms ε (fieldOf res.disp) := by
  obtain ⟨neq, bc, Kg, Mg, op, ms', hms', s, _, _, rhs, x, ok, h3, h4, _, _, hc⟩ := auto_solves hwf h
  obtain rfl := members_unique hms hms'
  obtain ⟨x', hx', hsol⟩ := hsp neq Kg rhs (det_ne_zero_of_stable s hst)
  rw [h4, Except.ok.injEq] at hx'
  subst hx'
  refine ⟨completes_admissible s.eq s.valid hc, fun p j y hf hy => ?_⟩
  rcases free_or_fixed s.eq s.valid (free_lt hf) hf.1 with ⟨_, i, hi, _⟩ | ⟨hnf, _⟩
  · rw [← s.mul x _ hc p j i hf hi, isLoad_unique hy (rhs_isLoad s.eq s.valid h3 hf hi)]
    exact hsol i
  · exact absurd hf hnf

/-- All runs on one structure share numbering and matrix. -/
theorem runs_share (hwf : WellFormed d) (hms : Members sq d ms) :
    (∀ (sp de : Sol.Solver K) (L : Table K) (plot : Bool) (res : Gui.Result K),
      Gui.solidsAuto sq sp de { d with loads := L } plot ≠ .ok res) ∨
    ∃ neq bc, ∃ Kg : Matrix (Fin neq) (Fin neq) K, Setup (Routine sq) d.cons d.elements d.mats d.nodes 2 neq bc Kg ms ∧
      ∀ (sp de : Sol.Solver K) (L : Table K) (plot : Bool) (res : Gui.Result K),
        Gui.solidsAuto sq sp de { d with loads := L } plot = .ok res →
        ∃ rhs x ok, loadasem L bc neq = .ok rhs ∧ sp neq Kg rhs = .ok x ∧ Gui.balanced Kg x rhs = .ok ok ∧ res.warned = !ok ∧
          Completes d.cons bc 2 neq x (fieldOf res.disp) := by
  have w : ∀ L, WellFormed { d with loads := L } := fun L => ⟨hwf.codes, hwf.width, hwf.size⟩
  by_cases hex : ∃ (sp de : Sol.Solver K) (L : Table K) (plot : Bool) (res : Gui.Result K),
      Gui.solidsAuto sq sp de { d with loads := L } plot = .ok res
  · right
    obtain ⟨sp, de, L, plot, res, h⟩ := hex
    obtain ⟨neq, bc, Kg, Mg, op, ms', hms', s, hd, ha, _⟩ := auto_solves (w L) h
    obtain rfl := members_unique (d := d) hms hms'
    refine ⟨neq, bc, Kg, s, fun sp de L plot res h => ?_⟩
    obtain ⟨neq', bc', Kg', Mg', op', ms', _, _, hd', ha', rhs, x, ok, h3, h4, h5, h6, h7⟩ := auto_solves (w L) h
    dsimp only at hd hd' ha ha'
    rw [hd, Except.ok.injEq, Prod.mk.injEq, Prod.mk.injEq] at hd'
    obtain ⟨rfl, rfl, rfl⟩ := hd'
    rw [ha, Except.ok.injEq, Prod.mk.injEq] at ha'
    obtain ⟨rfl, rfl⟩ := ha'
    exact ⟨rhs, x, ok, h3, h4, h5, h6, h7⟩
  · left
    intro sp de L plot res h
    exact hex ⟨sp, de, L, plot, res, h⟩

/-- C162.  For every stable structure there is a number `C` such that, whatever the solver returned and whatever the loads, unbalanced
forces of at most `ε` mean displacements within `C ε` of the exact ones. -/
theorem C162_error_bound (hwf : WellFormed d) (hms : Members sq d ms) (hst : Stable d.cons 2 ms) :
    ∃ C : K, 0 ≤ C ∧ ∀ (sp de : Sol.Solver K) (L : Table K) (plot : Bool) (res : Gui.Result K) (ε : K) (V : ℕ → ℕ → K),
      Gui.solidsAuto sq sp de { d with loads := L } plot = .ok res → Equilibrium d.cons 2 L ms V →
      NearEquilibrium d.cons 2 L ms ε (fieldOf res.disp) → 0 ≤ ε →
      ∀ p j, p < d.nodes.length → j < 2 → |fieldOf res.disp p j - V p j| ≤ C * ε := by
  rcases runs_share hwf hms with hno | ⟨neq, bc, Kg, s, hall⟩
  · exact ⟨0, le_rfl, fun sp de L plot res ε V h => absurd h (hno sp de L plot res)⟩
  obtain ⟨C, hC, hb⟩ := inverse_bound (det_ne_zero_of_stable s hst)
  refine ⟨C, hC, fun sp de L plot res ε V h hV hN hε p j hp hj => ?_⟩
  obtain ⟨rhs, x, ok, h3, h4, _, _, hc⟩ := hall sp de L plot res h
  obtain ⟨v, hv⟩ := exists_reduced s.eq s.valid hV.1
  have hsol := (equilibrium_iff s h3 hv).1 hV
  have hr : ∀ i, |Kg.mulVec (x - v) i| ≤ ε := by
    intro i
    obtain ⟨p, j, hf, hr⟩ := exists_free s.eq i.2
    have hi : DofEq bc neq p j i := ⟨i, by rw [(free_entry s.eq hf).1, hr], by omega, i.2, Or.inl rfl⟩
    have := hN.2 p j _ hf (rhs_isLoad s.eq s.valid h3 hf hi)
    rw [Matrix.mulVec_sub, Pi.sub_apply, hsol, s.mul x _ hc p j i hf hi]
    exact this
  rw [← hwf.size] at hp
  rcases free_or_fixed s.eq s.valid hp hj with ⟨_, i, hi, _⟩ | ⟨_, _, hno⟩
  · rw [(hc p hp j hj).1 i hi, (hv p hp j hj).1 i hi]
    exact hb _ _ hr i
  · rw [(hc p hp j hj).2 hno, (hv p hp j hj).2 hno, sub_self, abs_zero]
    exact mul_nonneg hC hε

/-- C162.  What the silence of the equilibrium check is worth: with a number `C` of the structure, a run without warning is within
`C (1e-8 mx + 1e-5 P)` of the exact displacements, whatever the solver returned; `mx` is the largest entry of the matrix, `P` a bound of
the loads. -/
theorem C162_silent (hwf : WellFormed d) (hms : Members sq d ms) (hst : Stable d.cons 2 ms)
    {op bc : List (List ℤ)} {neq : ℕ} {Kg Mg : Matrix (Fin neq) (Fin neq) K} (hd : dme d.cons d.elements = .ok (op, bc, neq))
    (ha : assembler (Uel.eleFun sq) d.elements d.mats d.nodes neq op = .ok (Kg, Mg)) :
    ∃ C : K, 0 ≤ C ∧ ∀ (sp de : Sol.Solver K) (L : Table K) (plot : Bool) (res : Gui.Result K) (P : K) (V : ℕ → ℕ → K),
      Gui.solidsAuto sq sp de { d with loads := L } plot = .ok res → res.warned = false → Equilibrium d.cons 2 L ms V → 0 ≤ P →
      (∀ p j x, Free d.cons 2 p j → IsLoad d.cons.length L p j x → |x| ≤ P) →
      ∃ mx, (∃ i j, Kg i j = mx) ∧ ∀ p j, p < d.nodes.length → j < 2 →
        |fieldOf res.disp p j - V p j| ≤ C * (1e-8 * |mx| + 1e-5 * P) := by
  obtain ⟨C, hC, hb⟩ := C162_error_bound hwf hms hst
  refine ⟨C, hC, fun sp de L plot res P V h hq hV hP hL => ?_⟩
  have w : WellFormed { d with loads := L } := ⟨hwf.codes, hwf.width, hwf.size⟩
  obtain ⟨mx, h1, _, h3⟩ := C25_silence_means_small_residual w (ms := ms) hms h hq hd ha
  refine ⟨mx, h1, hb sp de L plot res _ V h hV ⟨?_, fun p j x hf hx => ?_⟩ (by positivity)⟩
  · obtain ⟨neq', bc', Kg', Mg', op', ms', hms', s, _, _, rhs, x, ok, _, _, _, _, hc⟩ := auto_solves w h
    exact completes_admissible s.eq s.valid hc
  · refine (h3 p j x hf hx).trans ?_
    have := mul_le_mul_of_nonneg_left (hL p j x hf hx) (by norm_num : (0 : K) ≤ 1e-5)
    linarith

/-- C162.  For every stable structure there is a number `κ` (a condition number) such that a backward stable solver with unit `η`,
`κ η < 1`, gives displacements with an error of at most `κ η / (1 - κ η)` times the largest displacement, for all loads. -/
theorem C162_condition (hwf : WellFormed d) (hms : Members sq d ms) (hst : Stable d.cons 2 ms) :
    ∃ κ : K, 0 ≤ κ ∧ ∀ (η : K) (sp de : Sol.Solver K) (L : Table K) (plot : Bool) (res : Gui.Result K) (B : K) (V : ℕ → ℕ → K),
      0 ≤ η → κ * η < 1 → BackwardStable η sp →
      Gui.solidsAuto sq sp de { d with loads := L } plot = .ok res → Equilibrium d.cons 2 L ms V →
      (∀ p j, p < d.nodes.length → j < 2 → |V p j| ≤ B) →
      ∀ p j, p < d.nodes.length → j < 2 → |fieldOf res.disp p j - V p j| ≤ κ * η / (1 - κ * η) * B := by
  rcases runs_share hwf hms with hno | ⟨neq, bc, Kg, s, hall⟩
  · exact ⟨0, le_rfl, fun η sp de L plot res B V _ _ _ h => absurd h (hno sp de L plot res)⟩
  have hdet := det_ne_zero_of_stable s hst
  obtain ⟨κ, hκ, hb⟩ := perturbed_bound hdet
  refine ⟨κ, hκ, fun η sp de L plot res B V hη hlt hsp h hV hB p j hp hj => ?_⟩
  obtain ⟨rhs, x, ok, h3, h4, _, _, hc⟩ := hall sp de L plot res h
  obtain ⟨v, hv⟩ := exists_reduced s.eq s.valid hV.1
  have hsol := (equilibrium_iff s h3 hv).1 hV
  obtain ⟨x', E, hx', hE1, hE2⟩ := hsp neq Kg rhs hdet
  rw [h4, Except.ok.injEq] at hx'
  subst hx'
  have hvB : ∀ i, |v i| ≤ B := by
    intro i
    obtain ⟨p, j, hf, hr⟩ := exists_free s.eq i.2
    have hi : DofEq bc neq p j i := ⟨i, by rw [(free_entry s.eq hf).1, hr], by omega, i.2, Or.inl rfl⟩
    rw [← (hv p (free_lt hf) j hf.1).1 i hi]
    exact hB p j (by rw [← hwf.size]; exact free_lt hf) hf.1
  have := hb η E x v B hη hlt hE2 (by rw [hE1, hsol]) hvB
  have hB0 := (abs_nonneg _).trans (hB p j hp hj)
  rw [← hwf.size] at hp
  rcases free_or_fixed s.eq s.valid hp hj with ⟨_, i, hi, _⟩ | ⟨_, _, hno⟩
  · rw [(hc p hp j hj).1 i hi, (hv p hp j hj).1 i hi]
    exact this i
  · rw [(hc p hp j hj).2 hno, (hv p hp j hj).2 hno, sub_self, abs_zero]
    exact mul_nonneg (div_nonneg (mul_nonneg hκ hη) (by linarith)) hB0

/-- C162.  Every tolerance is met: for a stable structure and given loads a small enough unit suffices. -/
theorem C162_tolerance (hwf : WellFormed d) (hms : Members sq d ms) (hst : Stable d.cons 2 ms) {V : ℕ → ℕ → K}
    (hV : Equilibrium d.cons 2 d.loads ms V) {ε : K} (hε : 0 < ε) :
    ∃ η > 0, ∀ (sp de : Sol.Solver K) (plot : Bool) (res : Gui.Result K), BackwardStable η sp →
      Gui.solidsAuto sq sp de d plot = .ok res →
      ∀ p j, p < d.nodes.length → j < 2 → |fieldOf res.disp p j - V p j| ≤ ε := by
  obtain ⟨κ, hκ, hb⟩ := C162_condition hwf hms hst
  set B : K := ∑ p ∈ Finset.range d.nodes.length, ∑ j ∈ Finset.range 2, |V p j| with hBdef
  have hB0 : 0 ≤ B := Finset.sum_nonneg fun _ _ => Finset.sum_nonneg fun _ _ => abs_nonneg _
  have hB : ∀ p j, p < d.nodes.length → j < 2 → |V p j| ≤ B := fun p j hp hj =>
    (Finset.single_le_sum (f := fun j => |V p j|) (fun _ _ => abs_nonneg _) (Finset.mem_range.2 hj)).trans
      (Finset.single_le_sum (f := fun p => ∑ j ∈ Finset.range 2, |V p j|) (fun _ _ => Finset.sum_nonneg fun _ _ => abs_nonneg _)
        (Finset.mem_range.2 hp))
  have hpos : 0 < (κ + 1) * (B + ε) := by positivity
  refine ⟨ε / ((κ + 1) * (B + ε)), by positivity, fun sp de plot res hsp h p j hp hj => ?_⟩
  have h1 : κ * (ε / ((κ + 1) * (B + ε))) ≤ ε / (B + ε) := by
    rw [mul_div_assoc', div_le_div_iff₀ hpos (by positivity)]
    nlinarith [mul_nonneg hB0 hε.le, sq_nonneg ε, sq_nonneg (B + ε), mul_pos hε (by positivity : 0 < B + ε)]
  have h1' : κ * (ε / ((κ + 1) * (B + ε))) < 1 := by
    rw [mul_div_assoc', div_lt_one hpos]
    nlinarith [mul_nonneg hκ hB0]
  refine (hb _ sp de d.loads plot res B V (by positivity) h1' hsp h hV hB p j hp hj).trans ?_
  set q := κ * (ε / ((κ + 1) * (B + ε))) with hq
  have h2 : q * (B + ε) ≤ ε := by rwa [le_div_iff₀ (by positivity)] at h1
  rw [div_mul_eq_mul_div, div_le_iff₀ (by linarith)]
  linarith

/-- C162.  A solver that merely answers is enough for the run to return: the model is solved by an exact solver exactly when it is by a
rounding one. -/
theorem C162_returns (hwf : WellFormed d) (hms : Members sq d ms) (hst : Stable d.cons 2 ms) {sp' de' : Sol.Solver K}
    (hsp : ∀ n (M : Matrix (Fin n) (Fin n) K) b, M.det ≠ 0 → ∃ x, sp n M b = .ok x) {plot : Bool} {res' : Gui.Result K}
    (h : Gui.solidsAuto sq sp' de' d plot = .ok res') : ∃ res, Gui.solidsAuto sq sp de d plot = .ok res ∧ res.neq = res'.neq := by
  obtain ⟨op, bc, neq, Kg, Mg, rhs, x, ok, full, plots, h1, h2, h3, h4, h5, h6, h7, rfl⟩ := auto_ok.1 h
  obtain ⟨ms', s⟩ := auto_setup h1 h2 hwf.codes hwf.width hwf.size
  obtain rfl := members_unique hms s.mem
  obtain ⟨y, hy⟩ := hsp neq Kg rhs (det_ne_zero_of_stable s hst)
  obtain ⟨full', h6', _⟩ := C15_constrained_zero s.eq hwf.codes y
  rw [hwf.size] at h6'
  obtain ⟨ok', h5'⟩ : ∃ ok, Gui.balanced Kg y rhs = .ok ok := by
    unfold Gui.balanced at h5 ⊢
    rw [bind_ok] at h5
    obtain ⟨mx, hmx, _⟩ := h5
    rw [hmx, ok_bind]
    split <;> exact ⟨_, rfl⟩
  exact ⟨_, auto_ok.2 ⟨op, bc, neq, Kg, Mg, rhs, y, ok', full', plots, h1, h2, h3, hy, h5', h6', h7, rfl⟩, rfl⟩

/-- C162.  The equilibrium check is blind to small loads: if every load is at most `1e-8` times the largest entry of the matrix, a solver
that returns zeros passes without warning. -/
theorem C162_blind (hwf : WellFormed d)
    {op bc : List (List ℤ)} {neq : ℕ} {Kg Mg : Matrix (Fin neq) (Fin neq) K} (hd : dme d.cons d.elements = .ok (op, bc, neq))
    (ha : assembler (Uel.eleFun sq) d.elements d.mats d.nodes neq op = .ok (Kg, Mg)) {i₀ j₀ : Fin neq} (h0 : 0 < Kg i₀ j₀)
    (hL : ∀ p j x, Free d.cons 2 p j → IsLoad d.cons.length d.loads p j x → |x| ≤ 1e-8 * Kg i₀ j₀)
    (hsp : ∀ n M b, sp n M b = .ok 0) (h : Gui.solidsAuto sq sp de d plot = .ok res) :
    res.warned = false ∧ ∀ p j, p < d.nodes.length → j < 2 → fieldOf res.disp p j = 0 := by
  obtain ⟨neq', bc', Kg', Mg', op', ms', hms', s, hd', ha', rhs, x, ok, hl, hx, hb, hwarn, hc⟩ :=
    auto_solves hwf h
  rw [hd, Except.ok.injEq, Prod.mk.injEq, Prod.mk.injEq] at hd'
  obtain ⟨rfl, rfl, rfl⟩ := hd'
  rw [ha, Except.ok.injEq, Prod.mk.injEq] at ha'
  obtain ⟨rfl, rfl⟩ := ha'
  rw [hsp, Except.ok.injEq] at hx
  subst hx
  constructor
  · unfold Gui.balanced at hb
    rw [bind_ok] at hb
    obtain ⟨mx, hmx, hb⟩ := hb
    have hle : Kg i₀ j₀ ≤ mx := listMax_le hmx _
      (List.mem_flatMap.2 ⟨i₀, List.mem_finRange i₀, List.mem_map.2 ⟨j₀, List.mem_finRange j₀, rfl⟩⟩)
    have hmx0 : 0 < mx := lt_of_lt_of_le h0 hle
    rw [if_neg hmx0.ne', pure_ok] at hb
    rw [hwarn, ← hb, Bool.not_eq_false']
    simp only [Gui.allclose, List.all_eq_true]
    intro i _
    obtain ⟨p, j, hf, hr⟩ := exists_free s.eq i.2
    have hi : DofEq bc neq p j i := ⟨i, by rw [(free_entry s.eq hf).1, hr], by omega, i.2, Or.inl rfl⟩
    have hx := (hL p j _ hf (rhs_isLoad s.eq s.valid hl hf hi)).trans
      (mul_le_mul_of_nonneg_left hle (by norm_num : (0 : K) ≤ 1e-8))
    unfold Fem.isclose
    simp only [Matrix.mulVec_zero, Pi.zero_apply, zero_div, zero_sub, abs_neg, decide_eq_true_eq]
    have h1 : |rhs i / mx| ≤ 1e-8 := by
      rw [abs_div, abs_of_pos hmx0, div_le_iff₀ hmx0]
      exact hx
    have := mul_nonneg (by norm_num : (0 : K) ≤ 1e-5) (abs_nonneg (rhs i / mx))
    linarith
  · intro p j hp hj
    rw [← hwf.size] at hp
    rcases free_or_fixed s.eq s.valid hp hj with ⟨_, i, hi, _⟩ | ⟨_, _, hno⟩
    · rw [(hc p hp j hj).1 i hi]
      rfl
    · exact (hc p hp j hj).2 hno

end

/-! ## Cases -/

section demo

/-- A solver that rounds: its answers are too small by the factor `1 + η`. -/
noncomputable def shrinkR (η : ℝ) : Sol.Solver ℝ := fun _ M b =>
  open Classical in if M.det = 0 then .error .linAlg else .ok ((1 + η)⁻¹ • M.det⁻¹ • M.cramer b)

/-- It is backward stable: it solves the system with all coefficients larger by that factor. -/
theorem shrinkR_stable {η : ℝ} (hη : 0 ≤ η) : BackwardStable η (shrinkR η) := by
  intro n M b hM
  have h1 : (1 + η) ≠ 0 := by positivity
  refine ⟨_, η • M, by unfold shrinkR; rw [if_neg hM], ?_, fun i j => ?_⟩
  · have : M + η • M = (1 + η) • M := by rw [add_smul, one_smul]
    rw [this, Matrix.mulVec_smul, Matrix.smul_mulVec, smul_smul, inv_mul_cancel₀ h1, one_smul, Matrix.mulVec_smul,
      Matrix.mulVec_cramer, smul_smul, inv_mul_cancel₀ hM, one_smul]
  · rw [Matrix.smul_apply, smul_eq_mul, abs_mul, abs_of_nonneg hη]
    refine mul_le_mul_of_nonneg_left ?_ hη
    exact (Finset.single_le_sum (f := fun l => |M i l|) (fun _ _ => abs_nonneg _) (Finset.mem_univ j)).trans
      (Finset.single_le_sum (f := fun k => ∑ l, |M k l|) (fun _ _ => Finset.sum_nonneg fun _ _ => abs_nonneg _) (Finset.mem_univ i))

/-- Case for C162: with rounding small enough the truss of two bars is solved within a thousandth. -/
example : ∃ ms V, Members Real.sqrt trussR ms ∧ Equilibrium trussR.cons 2 trussR.loads ms V ∧
    ∃ η > 0, ∃ sp res, BackwardStable η sp ∧ Gui.solidsAuto Real.sqrt sp sp trussR false = .ok res ∧
      ∀ p j, p < 3 → j < 2 → |fieldOf res.disp p j - V p j| ≤ 1 / 1000 := by
  obtain ⟨ms, hms⟩ := truss_members sqrtFn_real trussR_bars
  have hst := trussR_stable hms
  have hn : Names trussR.nodes.length [2, (4 : ℝ), -6] 2 := (names_nat (by decide) rfl).2 rfl
  obtain ⟨res, hres⟩ := C93_solids_auto_returns (de := cramerR) trussR_plane trussR_wf cramerR_ok hms hst
    ⟨2, 0, trussR_free 0 (by omega)⟩ (by
      intro L hL
      simp only [trussR, List.mem_singleton] at hL
      subst hL
      exact ⟨by simp, 2, hn⟩)
  have hV := (C18_nodal_equilibrium trussR_wf cramerR_ok hms hst hres).2
  obtain ⟨η, hη, h⟩ := C162_tolerance trussR_wf hms hst hV (ε := 1 / 1000) (by norm_num)
  obtain ⟨res', hr, _⟩ := C162_returns (sp := shrinkR η) (de := shrinkR η) trussR_wf hms hst
    (fun n M b hM => by
      obtain ⟨x, _, hx, _⟩ := shrinkR_stable hη.le n M b hM
      exact ⟨x, hx⟩) hres
  exact ⟨ms, _, hms, hV, η, hη, shrinkR η, res', shrinkR_stable hη.le, hr, fun p j hp hj =>
    h _ _ _ _ (shrinkR_stable hη.le) hr p j hp hj⟩

/-- The truss of two bars with stiff bars and a load of a thousand. -/
def stiffTruss : Gui.Data ℚ := { demoTruss with mats := [[125 * 10 ^ 10, 1], [9 * 10 ^ 10, 1]], loads := [[2, 0, 1000]] }

set_option maxRecDepth 100000 in
/-- Case for C162: the check does not notice that the load was ignored. -/
theorem stiffTruss_silent : (Gui.solidsAuto demoSq (fun _ _ _ => .ok 0) (fun _ _ _ => .ok 0) stiffTruss false).map
    (fun r => (r.disp, r.warned)) = .ok ([[0, 0], [0, 0], [0, 0]], false) := by
  decide +kernel

end demo

end SolidsPy
