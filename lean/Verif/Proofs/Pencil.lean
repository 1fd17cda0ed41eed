import Mathlib.Analysis.Matrix.Spectrum
import Mathlib.Data.Fin.Tuple.Sort

/-! Modes of a pair of symmetric matrices. -/

namespace SolidsPy
open Matrix

/-- The vectors `φ k` vibrate in the squared frequencies `w k`, in increasing order, and are orthonormal in the mass. -/
structure Spec.Modes {n : ℕ} (K M : Matrix (Fin n) (Fin n) ℝ) (w : Fin n → ℝ) (φ : Fin n → Fin n → ℝ) : Prop where
  order : Monotone w
  motion : ∀ k, K.mulVec (φ k) = w k • M.mulVec (φ k)
  normal : ∀ k l, φ k ⬝ᵥ M.mulVec (φ l) = if k = l then 1 else 0

open Spec
variable {n : ℕ} {K M : Matrix (Fin n) (Fin n) ℝ} {w : Fin n → ℝ} {φ : Fin n → Fin n → ℝ}

theorem exists_spectrum (hK : K.IsSymm) : ∃ (w : Fin n → ℝ) (e : Fin n → Fin n → ℝ), (∀ k, K.mulVec (e k) = w k • e k) ∧
    ∀ k l, e k ⬝ᵥ e l = if k = l then 1 else 0 := by
  have hH : K.IsHermitian := by
    rw [Matrix.IsHermitian, Matrix.conjTranspose_eq_transpose_of_trivial]
    exact hK
  refine ⟨hH.eigenvalues, fun k => (hH.eigenvectorBasis k).ofLp, fun k => hH.mulVec_eigenvectorBasis k, fun k l => ?_⟩
  have := orthonormal_iff_ite.1 hH.eigenvectorBasis.orthonormal l k
  rw [EuclideanSpace.inner_eq_star_dotProduct] at this
  rw [show (hH.eigenvectorBasis k).ofLp ⬝ᵥ (hH.eigenvectorBasis l).ofLp = if l = k then 1 else 0 from this]
  exact if_congr eq_comm rfl rfl

theorem dotProduct_symm (hM : M.IsSymm) (u v : Fin n → ℝ) : u ⬝ᵥ M.mulVec v = v ⬝ᵥ M.mulVec u := by
  rw [Matrix.dotProduct_mulVec, ← Matrix.mulVec_transpose, hM.eq, dotProduct_comm]

theorem exists_modes (hK : K.IsSymm) (hM : M.IsSymm) (hp : ∀ v, v ≠ 0 → 0 < v ⬝ᵥ M.mulVec v) : ∃ w φ, Modes K M w φ := by
  obtain ⟨μ, e, he, ho⟩ := exists_spectrum hM
  have hμ : ∀ k, 0 < μ k := by
    intro k
    have h0 : e k ≠ 0 := by
      intro h
      have := ho k k
      simp [h] at this
    have := hp _ h0
    rwa [he, dotProduct_smul, ho, if_pos rfl, smul_eq_mul, mul_one] at this
  let S : Matrix (Fin n) (Fin n) ℝ := Matrix.of fun i k => e k i / Real.sqrt (μ k)
  have hScol : ∀ k, S.transpose k = (1 / Real.sqrt (μ k)) • e k := by
    intro k
    funext i
    simp [S, div_eq_inv_mul]
  have hS : S.transpose * M * S = 1 := by
    ext k l
    have h1 : (S.transpose * M * S) k l = S.transpose k ⬝ᵥ M.mulVec (S.transpose l) := by
      rw [Matrix.mul_assoc, Matrix.mul_apply]
      rfl
    rw [h1, hScol, hScol, Matrix.mulVec_smul, he, smul_dotProduct, dotProduct_smul, dotProduct_smul, ho, Matrix.one_apply]
    by_cases hkl : k = l
    · subst hkl
      rw [if_pos rfl]
      have := Real.sqrt_pos.2 (hμ k)
      simp only [smul_eq_mul, mul_one]
      field_simp
      exact (Real.sq_sqrt (hμ k).le).symm
    · rw [if_neg hkl]
      simp
  have hA : (S.transpose * K * S).IsSymm := by
    rw [Matrix.IsSymm, Matrix.transpose_mul, Matrix.transpose_mul, Matrix.transpose_transpose, hK.eq, Matrix.mul_assoc]
  obtain ⟨w, f, hf, hn⟩ := exists_spectrum hA
  have hinj : ∀ v, S.transpose.mulVec v = 0 → v = 0 := by
    intro v hv
    have h1 : S.transpose * (M * S) = 1 := by rw [← Matrix.mul_assoc]; exact hS
    have h2 := _root_.mul_eq_one_comm.1 h1
    have := congrArg (M * S).mulVec hv
    rwa [Matrix.mulVec_mulVec, h2, Matrix.one_mulVec, Matrix.mulVec_zero] at this
  have hmot : ∀ k, K.mulVec (S.mulVec (f k)) = w k • M.mulVec (S.mulVec (f k)) := by
    intro k
    refine sub_eq_zero.1 (hinj _ ?_)
    rw [Matrix.mulVec_sub, Matrix.mulVec_smul]
    simp only [Matrix.mulVec_mulVec, ← Matrix.mul_assoc]
    rw [hS, hf, Matrix.one_mulVec, sub_self]
  have hnor : ∀ k l, S.mulVec (f k) ⬝ᵥ M.mulVec (S.mulVec (f l)) = if k = l then 1 else 0 := by
    intro k l
    rw [← hn k l, Matrix.dotProduct_mulVec, ← Matrix.mulVec_transpose, Matrix.mulVec_mulVec, Matrix.dotProduct_mulVec,
      ← Matrix.mulVec_transpose, Matrix.mulVec_mulVec, hM.eq, ← Matrix.mul_assoc, hS, Matrix.one_mulVec]
  let σ := Tuple.sort w
  exact ⟨w ∘ σ, fun k => S.mulVec (f (σ k)), Tuple.monotone_sort w, fun k => hmot _, fun k l => by
    rw [hnor]
    exact if_congr σ.injective.eq_iff rfl rfl⟩

namespace Spec.Modes

theorem independent (h : Modes K M w φ) : LinearIndependent ℝ φ := by
  rw [Fintype.linearIndependent_iff]
  intro c hc l
  have h1 : (∑ k, c k • φ k) ⬝ᵥ M.mulVec (φ l) = 0 := by rw [hc, zero_dotProduct]
  rw [sum_dotProduct] at h1
  simpa [smul_dotProduct, h.normal] using h1

/-- Every vector is the sum of its components along the modes. -/
theorem expand (h : Modes K M w φ) (v : Fin n → ℝ) : v = ∑ k, (φ k ⬝ᵥ M.mulVec v) • φ k := by
  have hspan : Submodule.span ℝ (Set.range φ) = ⊤ :=
    h.independent.span_eq_top_of_card_eq_finrank' (by simp)
  obtain ⟨c, hc⟩ := (Submodule.mem_span_range_iff_exists_fun ℝ).1 (hspan ▸ Submodule.mem_top : v ∈ Submodule.span ℝ (Set.range φ))
  conv_lhs => rw [← hc]
  refine Finset.sum_congr rfl fun k _ => ?_
  congr 1
  rw [← hc, Matrix.mulVec_sum, dotProduct_sum]
  simp [Matrix.mulVec_smul, h.normal]

theorem form_mass (h : Modes K M w φ) (v : Fin n → ℝ) : v ⬝ᵥ M.mulVec v = ∑ k, (φ k ⬝ᵥ M.mulVec v) ^ 2 := by
  conv_lhs => lhs; rw [h.expand v]
  rw [sum_dotProduct]
  exact Finset.sum_congr rfl fun k _ => by rw [smul_dotProduct, smul_eq_mul, sq]

theorem form_stiff (h : Modes K M w φ) (hM : M.IsSymm) (v : Fin n → ℝ) :
    v ⬝ᵥ K.mulVec v = ∑ k, w k * (φ k ⬝ᵥ M.mulVec v) ^ 2 := by
  have e1 : K.mulVec v = ∑ k, (φ k ⬝ᵥ M.mulVec v) • w k • M.mulVec (φ k) := by
    conv_lhs => rw [h.expand v]
    rw [Matrix.mulVec_sum]
    exact Finset.sum_congr rfl fun k _ => by rw [Matrix.mulVec_smul, h.motion]
  rw [e1, dotProduct_sum]
  refine Finset.sum_congr rfl fun k _ => ?_
  rw [dotProduct_smul, dotProduct_smul, dotProduct_symm hM v, smul_eq_mul, smul_eq_mul]
  ring

/-- The frequencies are the only ones in which the pair can vibrate. -/
theorem eigen_iff (h : Modes K M w φ) (t : ℝ) : (∃ v, v ≠ 0 ∧ K.mulVec v = t • M.mulVec v) ↔ ∃ k, w k = t := by
  constructor
  · rintro ⟨v, hv, he⟩
    by_contra hno
    push Not at hno
    have hz : ∑ k, ((w k - t) * (φ k ⬝ᵥ M.mulVec v)) • M.mulVec (φ k) = 0 := by
      have e1 : K.mulVec v = ∑ k, (φ k ⬝ᵥ M.mulVec v) • w k • M.mulVec (φ k) := by
        conv_lhs => rw [h.expand v]
        rw [Matrix.mulVec_sum]
        exact Finset.sum_congr rfl fun k _ => by rw [Matrix.mulVec_smul, h.motion]
      have e2 : M.mulVec v = ∑ k, (φ k ⬝ᵥ M.mulVec v) • M.mulVec (φ k) := by
        conv_lhs => rw [h.expand v]
        rw [Matrix.mulVec_sum]
        exact Finset.sum_congr rfl fun k _ => by rw [Matrix.mulVec_smul]
      have e3 := sub_eq_zero.2 he
      rw [e1] at e3
      conv at e3 => lhs; rhs; rw [e2]
      rw [Finset.smul_sum, ← Finset.sum_sub_distrib] at e3
      rw [← e3]
      refine Finset.sum_congr rfl fun k _ => ?_
      rw [smul_smul, smul_smul, ← sub_smul]
      congr 1
      ring
    apply hv
    rw [h.expand v]
    refine Finset.sum_eq_zero fun l _ => ?_
    have := congrArg (fun x => φ l ⬝ᵥ x) hz
    simp [dotProduct_sum, h.normal] at this
    rcases this with h1 | h1
    · exact absurd (sub_eq_zero.1 h1) (hno l)
    · rw [h1, zero_smul]
  · rintro ⟨k, rfl⟩
    refine ⟨φ k, fun h0 => ?_, h.motion k⟩
    have := h.normal k k
    simp [h0] at this

/-- Least and greatest values of the quotient of energies: the `k`-th frequency is the least number that bounds the quotient on some
`k + 1` independent vectors. -/
theorem minmax (h : Modes K M w φ) (hM : M.IsSymm) (k : Fin n) (t : ℝ) :
    w k ≤ t ↔ ∃ u : Fin (k + 1) → Fin n → ℝ, LinearIndependent ℝ u ∧
      ∀ c : Fin (k + 1) → ℝ, (∑ a, c a • u a) ⬝ᵥ K.mulVec (∑ a, c a • u a) ≤ t * ((∑ a, c a • u a) ⬝ᵥ M.mulVec (∑ a, c a • u a)) := by
  constructor
  · intro hk
    refine ⟨fun a => φ ⟨a, by omega⟩, h.independent.comp (fun a : Fin (k + 1) => (⟨a, by omega⟩ : Fin n)) (by
      intro a b hab
      simpa [Fin.ext_iff] using hab), fun c => ?_⟩
    rw [h.form_stiff hM, h.form_mass, Finset.mul_sum]
    refine Finset.sum_le_sum fun l _ => ?_
    by_cases hl : l ≤ k
    · exact mul_le_mul_of_nonneg_right ((h.order hl).trans hk) (sq_nonneg _)
    · have : φ l ⬝ᵥ M.mulVec (∑ a : Fin (k + 1), c a • φ ⟨a, by omega⟩) = 0 := by
        rw [Matrix.mulVec_sum, dotProduct_sum]
        refine Finset.sum_eq_zero fun a _ => ?_
        rw [Matrix.mulVec_smul, dotProduct_smul, h.normal, if_neg, smul_zero]
        intro hla
        apply hl
        rw [hla, Fin.le_def]
        dsimp only
        omega
      rw [this]
      simp
  · rintro ⟨u, hu, hb⟩
    by_contra hlt
    push Not at hlt
    -- a combination of the vectors without components along the first modes
    obtain ⟨c, hc, hne⟩ : ∃ c : Fin (k + 1) → ℝ, (∀ l : Fin k, φ ⟨l, by omega⟩ ⬝ᵥ M.mulVec (∑ a, c a • u a) = 0) ∧ c ≠ 0 := by
      let A : Matrix (Fin k) (Fin (k + 1)) ℝ := Matrix.of fun l a => φ ⟨l, by omega⟩ ⬝ᵥ M.mulVec (u a)
      obtain ⟨c, hz, hc⟩ := (Submodule.ne_bot_iff _).1 (LinearMap.ker_ne_bot_of_finrank_lt (f := A.mulVecLin) (by simp))
      refine ⟨c, fun l => ?_, hc⟩
      have : A.mulVec c l = 0 := congrFun (LinearMap.mem_ker.1 hz) l
      rw [Matrix.mulVec_sum, dotProduct_sum]
      simp only [Matrix.mulVec_smul, dotProduct_smul, smul_eq_mul]
      rw [← this]
      simp [A, Matrix.mulVec, dotProduct, mul_comm]
    have h1 := hb c
    rw [h.form_stiff hM, h.form_mass, Finset.mul_sum] at h1
    have h2 : ∀ l, t * (φ l ⬝ᵥ M.mulVec (∑ a, c a • u a)) ^ 2 ≤ w l * (φ l ⬝ᵥ M.mulVec (∑ a, c a • u a)) ^ 2 := by
      intro l
      by_cases hl : l < k
      · have := hc ⟨l, hl⟩
        simp only [Fin.eta] at this
        rw [this]
        simp
      · exact mul_le_mul_of_nonneg_right (hlt.le.trans (h.order (not_lt.1 hl))) (sq_nonneg _)
    have h3 : ∀ l, φ l ⬝ᵥ M.mulVec (∑ a, c a • u a) = 0 := by
      intro l
      by_cases hl : l < k
      · exact hc ⟨l, hl⟩
      · have h4 := (Finset.sum_eq_sum_iff_of_le fun l _ => h2 l).1 (le_antisymm (Finset.sum_le_sum fun l _ => h2 l) h1) l (Finset.mem_univ l)
        have h5 := hlt.trans_le (h.order (not_lt.1 hl))
        have h6 : (w l - t) * (φ l ⬝ᵥ M.mulVec (∑ a, c a • u a)) ^ 2 = 0 := by linarith
        exact pow_eq_zero_iff (by omega) |>.1 ((mul_eq_zero.1 h6).resolve_left (by linarith))
    have h4 : ∑ a, c a • u a = 0 := by
      rw [h.expand (∑ a, c a • u a)]
      exact Finset.sum_eq_zero fun l _ => by rw [h3, zero_smul]
    exact hne (funext (Fintype.linearIndependent_iff.1 hu c h4))

end Spec.Modes
end SolidsPy
