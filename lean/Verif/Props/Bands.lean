import Verif.Props.BlochChain
import Verif.Props.FrameWork
import Verif.Props.RunOrders
import Verif.Props.FreqBound
import Verif.Props.Compare

/-! # C179: the bands of a periodic mesh lie between the frequencies of the floating and of the clamped cell -/

set_option linter.unusedSectionVars false

namespace SolidsPy
open Spec Assem Bloch Matrix

/-- `l` in rising order are the values of the Hermitian pair `P`, `Q`, with vectors `q` that are orthonormal in `Q`. -/
structure Spec.Waves {m : ℕ} (P Q : Matrix (Fin m) (Fin m) ℂ) (l : Fin m → ℝ) (q : Fin m → Fin m → ℂ) : Prop where
  order : Monotone l
  motion : ∀ k, P.mulVec (q k) = (l k : ℂ) • Q.mulVec (q k)
  normal : ∀ k j, star (q k) ⬝ᵥ Q.mulVec (q j) = if k = j then 1 else 0

section
variable {m : ℕ} {P Q : Matrix (Fin m) (Fin m) ℂ} {l : Fin m → ℝ} {q : Fin m → Fin m → ℂ}

theorem exists_spectrumC (hK : P.IsHermitian) : ∃ (w : Fin m → ℝ) (e : Fin m → Fin m → ℂ), (∀ k, P.mulVec (e k) = (w k : ℂ) • e k) ∧
    ∀ k l, star (e k) ⬝ᵥ e l = if k = l then 1 else 0 := by
  refine ⟨hK.eigenvalues, fun k => (hK.eigenvectorBasis k).ofLp, fun k => ?_, fun k l => ?_⟩
  · have := hK.mulVec_eigenvectorBasis k
    rw [this]
    rfl
  · have := orthonormal_iff_ite.1 hK.eigenvectorBasis.orthonormal k l
    rw [EuclideanSpace.inner_eq_star_dotProduct] at this
    rw [← this, dotProduct_comm]

open scoped ComplexOrder

theorem exists_waves (hP : P.IsHermitian) (hQ : Q.PosDef) : ∃ l q, Waves P Q l q := by
  obtain ⟨μ, e, he, ho⟩ := exists_spectrumC hQ.1
  have hμ : ∀ k, 0 < μ k := by
    intro k
    have h0 : e k ≠ 0 := by
      intro h
      have := ho k k
      simp [h] at this
    have := hQ.dotProduct_mulVec_pos h0
    rw [he, dotProduct_smul, ho, if_pos rfl, smul_eq_mul, mul_one] at this
    exact_mod_cast this
  let S : Matrix (Fin m) (Fin m) ℂ := Matrix.of fun i k => e k i / (Real.sqrt (μ k) : ℂ)
  have hScol : ∀ k, S.transpose k = (1 / (Real.sqrt (μ k) : ℂ)) • e k := by
    intro k
    funext i
    simp [S, div_eq_inv_mul]
  have hS : S.conjTranspose * Q * S = 1 := by
    ext k l
    have h1 : (S.conjTranspose * Q * S) k l = star (S.transpose k) ⬝ᵥ Q.mulVec (S.transpose l) := by
      rw [Matrix.mul_assoc, Matrix.mul_apply]
      rfl
    rw [h1, hScol, hScol, Matrix.mulVec_smul, he, star_smul, smul_dotProduct, dotProduct_smul, dotProduct_smul, ho, Matrix.one_apply]
    by_cases hkl : k = l
    · subst hkl
      rw [if_pos rfl]
      have h2 := Real.sqrt_pos.2 (hμ k)
      have h3 : (Real.sqrt (μ k) : ℂ) ≠ 0 := by exact_mod_cast h2.ne'
      have h4 : (Real.sqrt (μ k) : ℂ) * Real.sqrt (μ k) = μ k := by exact_mod_cast Real.mul_self_sqrt (hμ k).le
      simp only [smul_eq_mul, mul_one, star_div₀, star_one, Complex.star_def, Complex.conj_ofReal]
      rw [← h4]
      field_simp
    · rw [if_neg hkl]
      simp
  have hA : (S.conjTranspose * P * S).IsHermitian := Matrix.isHermitian_conjTranspose_mul_mul S hP
  obtain ⟨w, f, hf, hn⟩ := exists_spectrumC hA
  have hinj : ∀ v, S.conjTranspose.mulVec v = 0 → v = 0 := by
    intro v hv
    have h1 : S.conjTranspose * (Q * S) = 1 := by rw [← Matrix.mul_assoc]; exact hS
    have h2 := _root_.mul_eq_one_comm.1 h1
    have := congrArg (Q * S).mulVec hv
    rwa [Matrix.mulVec_mulVec, h2, Matrix.one_mulVec, Matrix.mulVec_zero] at this
  have hmot : ∀ k, P.mulVec (S.mulVec (f k)) = (w k : ℂ) • Q.mulVec (S.mulVec (f k)) := by
    intro k
    refine sub_eq_zero.1 (hinj _ ?_)
    rw [Matrix.mulVec_sub, Matrix.mulVec_smul]
    simp only [Matrix.mulVec_mulVec, ← Matrix.mul_assoc]
    rw [hS, hf, Matrix.one_mulVec, sub_self]
  have hnor : ∀ k l, star (S.mulVec (f k)) ⬝ᵥ Q.mulVec (S.mulVec (f l)) = if k = l then 1 else 0 := by
    intro k l
    rw [← hn k l, star_mulVec, ← dotProduct_mulVec, mulVec_mulVec, mulVec_mulVec, hS, one_mulVec]
  let σ := Tuple.sort w
  exact ⟨w ∘ σ, fun k => S.mulVec (f (σ k)), Tuple.monotone_sort w, fun k => hmot _, fun k l => by
    rw [hnor]
    exact if_congr σ.injective.eq_iff rfl rfl⟩

namespace Spec.Waves

theorem independent (h : Waves P Q l q) : LinearIndependent ℂ q := by
  rw [Fintype.linearIndependent_iff]
  intro c hc k
  have h1 : star (q k) ⬝ᵥ Q.mulVec (∑ j, c j • q j) = 0 := by rw [hc, mulVec_zero, dotProduct_zero]
  rw [mulVec_sum, dotProduct_sum] at h1
  simpa [mulVec_smul, h.normal] using h1

theorem expand (h : Waves P Q l q) (v : Fin m → ℂ) : v = ∑ k, (star (q k) ⬝ᵥ Q.mulVec v) • q k := by
  have hspan : Submodule.span ℂ (Set.range q) = ⊤ :=
    h.independent.span_eq_top_of_card_eq_finrank' (by simp)
  obtain ⟨c, hc⟩ := (Submodule.mem_span_range_iff_exists_fun ℂ).1 (hspan ▸ Submodule.mem_top : v ∈ Submodule.span ℂ (Set.range q))
  conv_lhs => rw [← hc]
  refine Finset.sum_congr rfl fun k _ => ?_
  congr 1
  rw [← hc, Matrix.mulVec_sum, dotProduct_sum]
  simp [Matrix.mulVec_smul, h.normal]

theorem swap (hQ : Q.IsHermitian) (u v : Fin m → ℂ) : star u ⬝ᵥ Q.mulVec v = star (star v ⬝ᵥ Q.mulVec u) := by
  rw [star_dotProduct, star_mulVec, hQ.eq, ← dotProduct_mulVec]

theorem form_mass (h : Waves P Q l q) (hQ : Q.IsHermitian) (v : Fin m → ℂ) :
    (star v ⬝ᵥ Q.mulVec v).re = ∑ k, ‖star (q k) ⬝ᵥ Q.mulVec v‖ ^ 2 := by
  have e : Q.mulVec v = ∑ k, (star (q k) ⬝ᵥ Q.mulVec v) • Q.mulVec (q k) := by
    conv_lhs => rw [h.expand v]
    rw [mulVec_sum]
    exact Finset.sum_congr rfl fun k _ => by rw [mulVec_smul]
  conv_lhs => rw [e]
  rw [dotProduct_sum, Complex.re_sum]
  refine Finset.sum_congr rfl fun k _ => ?_
  rw [dotProduct_smul, swap hQ v, smul_eq_mul, Complex.star_def, Complex.mul_conj, Complex.ofReal_re, Complex.normSq_eq_norm_sq]

theorem form_stiff (h : Waves P Q l q) (hQ : Q.IsHermitian) (v : Fin m → ℂ) :
    (star v ⬝ᵥ P.mulVec v).re = ∑ k, l k * ‖star (q k) ⬝ᵥ Q.mulVec v‖ ^ 2 := by
  have e : P.mulVec v = ∑ k, (star (q k) ⬝ᵥ Q.mulVec v) • (l k : ℂ) • Q.mulVec (q k) := by
    conv_lhs => rw [h.expand v]
    rw [mulVec_sum]
    exact Finset.sum_congr rfl fun k _ => by rw [mulVec_smul, h.motion]
  conv_lhs => rw [e]
  rw [dotProduct_sum, Complex.re_sum]
  refine Finset.sum_congr rfl fun k _ => ?_
  rw [dotProduct_smul, dotProduct_smul, swap hQ v, smul_eq_mul, smul_eq_mul, mul_left_comm, Complex.re_ofReal_mul, Complex.star_def,
    Complex.mul_conj, Complex.ofReal_re, Complex.normSq_eq_norm_sq]

/-- The values are the only ones for which the pair has a vector. -/
theorem eigen_iff (h : Waves P Q l q) (hP : P.IsHermitian) (hQ : Q.IsHermitian) (z : ℂ) :
    (∃ v, v ≠ 0 ∧ P.mulVec v = z • Q.mulVec v) ↔ ∃ k, z = l k := by
  constructor
  · rintro ⟨v, hv, he⟩
    by_contra hno
    push Not at hno
    apply hv
    rw [h.expand v]
    refine Finset.sum_eq_zero fun k _ => ?_
    have e1 : star (q k) ⬝ᵥ P.mulVec v = l k * (star (q k) ⬝ᵥ Q.mulVec v) := by
      rw [swap hP, h.motion, dotProduct_smul, star_smul, ← swap hQ]
      simp
    rw [he, dotProduct_smul, smul_eq_mul, ← sub_eq_zero, ← sub_mul] at e1
    rw [(mul_eq_zero.1 e1).resolve_left (sub_ne_zero.2 (hno k)), zero_smul]
  · rintro ⟨k, rfl⟩
    refine ⟨q k, fun h0 => ?_, h.motion k⟩
    have := h.normal k k
    simp [h0] at this

/-- Least and greatest values of the quotient. -/
theorem minmax (h : Waves P Q l q) (hQ : Q.IsHermitian) (k : Fin m) (t : ℝ) :
    l k ≤ t ↔ ∃ u : Fin (k + 1) → Fin m → ℂ, LinearIndependent ℂ u ∧
      ∀ c : Fin (k + 1) → ℂ, (star (∑ a, c a • u a) ⬝ᵥ P.mulVec (∑ a, c a • u a)).re ≤
        t * (star (∑ a, c a • u a) ⬝ᵥ Q.mulVec (∑ a, c a • u a)).re := by
  constructor
  · intro hk
    refine ⟨fun a => q ⟨a, by omega⟩, h.independent.comp (fun a : Fin (k + 1) => (⟨a, by omega⟩ : Fin m)) (by
      intro a b hab
      simpa [Fin.ext_iff] using hab), fun c => ?_⟩
    rw [h.form_stiff hQ, h.form_mass hQ, Finset.mul_sum]
    refine Finset.sum_le_sum fun j _ => ?_
    by_cases hl : j ≤ k
    · exact mul_le_mul_of_nonneg_right ((h.order hl).trans hk) (sq_nonneg _)
    · have : star (q j) ⬝ᵥ Q.mulVec (∑ a : Fin (k + 1), c a • q ⟨a, by omega⟩) = 0 := by
        rw [Matrix.mulVec_sum, dotProduct_sum]
        refine Finset.sum_eq_zero fun a _ => ?_
        rw [Matrix.mulVec_smul, dotProduct_smul, h.normal, if_neg, smul_zero]
        intro hla
        apply hl
        rw [hla, Fin.le_def]
        dsimp only
        omega
      rw [this]
      simp
  · rintro ⟨u, hu, hb⟩
    by_contra hlt
    push Not at hlt
    obtain ⟨c, hc, hne⟩ : ∃ c : Fin (k + 1) → ℂ, (∀ j : Fin k, star (q ⟨j, by omega⟩) ⬝ᵥ Q.mulVec (∑ a, c a • u a) = 0) ∧ c ≠ 0 := by
      let A : Matrix (Fin k) (Fin (k + 1)) ℂ := Matrix.of fun j a => star (q ⟨j, by omega⟩) ⬝ᵥ Q.mulVec (u a)
      obtain ⟨c, hz, hc⟩ := (Submodule.ne_bot_iff _).1 (LinearMap.ker_ne_bot_of_finrank_lt (f := A.mulVecLin) (by simp))
      refine ⟨c, fun j => ?_, hc⟩
      have : A.mulVec c j = 0 := congrFun (LinearMap.mem_ker.1 hz) j
      rw [Matrix.mulVec_sum, dotProduct_sum]
      simp only [Matrix.mulVec_smul, dotProduct_smul, smul_eq_mul]
      rw [← this]
      exact Finset.sum_congr rfl fun a _ => mul_comm _ _
    have h1 := hb c
    rw [h.form_stiff hQ, h.form_mass hQ, Finset.mul_sum] at h1
    have h2 : ∀ j, t * ‖star (q j) ⬝ᵥ Q.mulVec (∑ a, c a • u a)‖ ^ 2 ≤ l j * ‖star (q j) ⬝ᵥ Q.mulVec (∑ a, c a • u a)‖ ^ 2 := by
      intro j
      by_cases hl : j < k
      · have := hc ⟨j, hl⟩
        simp only [Fin.eta] at this
        rw [this]
        simp
      · exact mul_le_mul_of_nonneg_right (hlt.le.trans (h.order (not_lt.1 hl))) (sq_nonneg _)
    have h3 : ∀ j, star (q j) ⬝ᵥ Q.mulVec (∑ a, c a • u a) = 0 := by
      intro j
      by_cases hl : j < k
      · exact hc ⟨j, hl⟩
      · have h4 := (Finset.sum_eq_sum_iff_of_le fun j _ => h2 j).1 (le_antisymm (Finset.sum_le_sum fun j _ => h2 j) h1) j (Finset.mem_univ j)
        have h5 := hlt.trans_le (h.order (not_lt.1 hl))
        have h6 : (l j - t) * ‖star (q j) ⬝ᵥ Q.mulVec (∑ a, c a • u a)‖ ^ 2 = 0 := by linarith
        exact norm_eq_zero.1 (pow_eq_zero_iff (by omega) |>.1 ((mul_eq_zero.1 h6).resolve_left (by linarith)))
    have h4 : ∑ a, c a • u a = 0 := by
      rw [h.expand (∑ a, c a • u a)]
      exact Finset.sum_eq_zero fun j _ => by rw [h3, zero_smul]
    exact hne (funext (Fintype.linearIndependent_iff.1 hu c h4))

/-- Vectors of one pair carried to another with their energies. -/
theorem compare {m' : ℕ} {P' Q' : Matrix (Fin m') (Fin m') ℂ} {l' : Fin m' → ℝ} {q' : Fin m' → Fin m' → ℂ} (h : Waves P Q l q)
    (hQ : Q.IsHermitian) (h' : Waves P' Q' l' q') (hQ' : Q'.IsHermitian) (S : (Fin m → ℂ) →ₗ[ℂ] (Fin m' → ℂ)) (hS : ∀ v, S v = 0 → v = 0)
    (e1 : ∀ v, star (S v) ⬝ᵥ P'.mulVec (S v) = star v ⬝ᵥ P.mulVec v) (e2 : ∀ v, star (S v) ⬝ᵥ Q'.mulVec (S v) = star v ⬝ᵥ Q.mulVec v)
    (k : Fin m) (k' : Fin m') (hk : (k : ℕ) = k') : l' k' ≤ l k := by
  rw [h'.minmax hQ', ← hk]
  obtain ⟨u, hu, hb⟩ := (h.minmax hQ k _).1 le_rfl
  refine ⟨fun a => S (u a), ?_, fun c => ?_⟩
  · rw [Fintype.linearIndependent_iff] at hu ⊢
    intro c hc
    refine hu c (hS _ ?_)
    rw [map_sum]
    simpa using hc
  · have := hb c
    have e : ∑ a, c a • S (u a) = S (∑ a, c a • u a) := by simp
    rwa [e, e1, e2]

end Spec.Waves

/-- The real modes of a pair are its waves. -/
theorem Spec.Modes.waves {K M : Matrix (Fin m) (Fin m) ℝ} {w : Fin m → ℝ} {φ : Fin m → Fin m → ℝ} (h : Modes K M w φ) :
    Waves (K.map Complex.ofReal) (M.map Complex.ofReal) w (fun k i => (φ k i : ℂ)) where
  order := h.order
  motion k := by
    funext i
    have : ∑ x, K i x * φ k x = w k * ∑ x, M i x * φ k x := congrFun (h.motion k) i
    rw [map_mulVec, Pi.smul_apply, map_mulVec]
    apply Complex.ext
    · simpa [Matrix.mulVec, dotProduct] using this
    · simp [Matrix.mulVec, dotProduct]
  normal k j := by
    have := h.normal k j
    have e : star (fun i => (φ k i : ℂ)) ⬝ᵥ (M.map Complex.ofReal).mulVec (fun i => (φ j i : ℂ)) = ((φ k ⬝ᵥ M.mulVec (φ j) : ℝ) : ℂ) := by
      simp [Matrix.mulVec, dotProduct]
    rw [e, this]
    split <;> simp

end

/-! ## The cell with fewer and with more supports -/

section
variable {fn fn' : ℤ → Uel ℝ → Prop} {cons cons' mats nodes : Table ℝ} {els : List (List ℤ)} {nd neq neq' : ℕ} {bc bc' : List (List ℤ)}
  {ks ms : List (Member ℝ)} {Kg Mg : Matrix (Fin neq) (Fin neq) ℝ} {Kg' Mg' : Matrix (Fin neq') (Fin neq') ℝ}

/-- The vectors of the model with more supports among those of the model with fewer. -/
theorem exists_embedding (s : Setup fn cons els mats nodes nd neq bc Kg ks) (t : Setup fn' cons els mats nodes nd neq bc Mg ms)
    (s' : Setup fn cons' els mats nodes nd neq' bc' Kg' ks) (t' : Setup fn' cons' els mats nodes nd neq' bc' Mg' ms)
    (hl : cons'.length = cons.length) (hc : ∀ p j, Free cons' nd p j → Free cons nd p j) :
    ∃ F : Matrix (Fin neq) (Fin neq') ℝ, (∀ v, F.mulVec v ⬝ᵥ Kg.mulVec (F.mulVec v) = v ⬝ᵥ Kg'.mulVec v) ∧
      (∀ v, F.mulVec v ⬝ᵥ Mg.mulVec (F.mulVec v) = v ⬝ᵥ Mg'.mulVec v) ∧ (∀ v, F.mulVec v = 0 → v = 0) ∧
      ∀ p < cons.length, ∀ j < nd, ¬ Free cons' nd p j → ∀ i : Fin neq, DofEq bc neq p j i → ∀ i', F i i' = 0 := by
  choose U hU using fun a : Fin neq' => exists_completes (cons := cons') bc' nd (Pi.single a (1 : ℝ))
  have adm' := fun a => completes_admissible s'.eq s'.valid (hU a)
  have adm : ∀ a, Admissible cons nd (U a) := fun a p j hp hj hf => adm' a p j (by rw [hl]; exact hp) hj fun hf' => hf (hc p j hf')
  choose b hb using fun a => exists_reduced s.eq s.valid (adm a)
  have c1 : ∀ v : Fin neq' → ℝ, Completes cons' bc' nd neq' v (fun p j => ∑ a, v a * U a p j) := fun v => by
    have := Completes.sum hU v
    have e : ∑ a, v a • (Pi.single a (1 : ℝ) : Fin neq' → ℝ) = v := by
      funext i
      simp [Finset.sum_apply, Pi.single_apply]
    rwa [e] at this
  have c2 : ∀ v : Fin neq' → ℝ, Completes cons bc nd neq ((Matrix.of fun i a => b a i).mulVec v) (fun p j => ∑ a, v a * U a p j) := fun v => by
    have := Completes.sum hb v
    have e : ∑ a, v a • b a = (Matrix.of fun i a => b a i).mulVec v := by
      funext i
      simp [Finset.sum_apply, Matrix.mulVec, dotProduct, mul_comm]
    rwa [e] at this
  refine ⟨Matrix.of fun i a => b a i, fun v => ?_, fun v => ?_, fun v hv => ?_, fun p hp j hj hf i hi i' => ?_⟩
  · unfold dotProduct
    rw [reduced_form s (c2 v) (c2 v), reduced_form s' (c1 v) (c1 v)]
  · unfold dotProduct
    rw [reduced_form t (c2 v) (c2 v), reduced_form t' (c1 v) (c1 v)]
  · have := (Completes.zero_iff s.eq (c2 v)).2 hv
    exact (Completes.zero_iff s'.eq (c1 v)).1 (by rw [hl]; exact this)
  · rw [Matrix.of_apply, ← (hb i' p hp j hj).1 i hi]
    exact adm' i' p j (by rw [hl]; exact hp) hj hf

end

section
variable {neq : ℕ} {nodesRef nodesIma dofsRef dofsIma : List ℤ} {refDof imaDof : ℤ → Option (List ℤ)} {newNum : List ℤ} {wave : List ℝ}
  {coords : List (List ℝ)} {T : Matrix (Fin neq) (Fin (neq - dofsRef.length)) ℂ}

/-- What a Bloch analysis is given: the ties of the degrees of freedom and a numbering of those that are not images. -/
structure Spec.Tied (neq : ℕ) (nodesRef nodesIma dofsRef dofsIma : List ℤ) (refDof imaDof : ℤ → Option (List ℤ)) (newNum : List ℤ) : Prop where
  pairing : Pairing neq dofsIma (links nodesIma nodesRef refDof imaDof)
  onto : ∀ c : Fin (neq - dofsRef.length), ∃ e : ℕ, e < neq ∧ (e : ℤ) ∉ dofsIma ∧ newNum[e]? = some ((c : ℕ) : ℤ)
  once : ∀ e e' : ℕ, e < neq → e' < neq → (e : ℤ) ∉ dofsIma → (e' : ℤ) ∉ dofsIma → newNum[e]? = newNum[e']? → e = e'

/-- A vector that is zero at all tied degrees of freedom is a Bloch vector, whatever the wave vector. -/
theorem exists_untied (ht : Tied neq nodesRef nodesIma dofsRef dofsIma refDof imaDof newNum)
    (hT : blochTransformMat wave coords neq nodesRef nodesIma dofsRef dofsIma refDof imaDof newNum = .ok T) :
    ∃ R : (Fin neq → ℂ) →ₗ[ℂ] (Fin (neq - dofsRef.length) → ℂ), ∀ y : Fin neq → ℂ,
      (∀ l ∈ links nodesIma nodesRef refDof imaDof, ∀ i : Fin neq, l.ima = ((i : ℕ) : ℤ) ∨ l.ref = ((i : ℕ) : ℤ) → y i = 0) →
      T.mulVec (R y) = y := by
  choose e he hk hn using ht.onto
  refine ⟨LinearMap.funLeft ℂ ℂ fun c => ⟨e c, he c⟩, fun y hy => ?_⟩
  have key : ∀ i : Fin neq, ((i : ℕ) : ℤ) ∉ dofsIma → T.mulVec (LinearMap.funLeft ℂ ℂ (fun c => ⟨e c, he c⟩) y) i = y i := fun i hi => by
    obtain ⟨c, c1, c2⟩ := C85_kept hT ht.pairing (LinearMap.funLeft ℂ ℂ (fun c => (⟨e c, he c⟩ : Fin neq)) y) i hi
    rw [c2, LinearMap.funLeft_apply]
    congr 1
    exact Fin.ext (ht.once _ _ (he c) i.2 (hk c) hi (by rw [hn, c1]))
  funext i
  by_cases hi : ((i : ℕ) : ℤ) ∈ dofsIma
  · obtain ⟨l, hl, hli⟩ := ht.pairing.all i i.2 hi
    obtain ⟨d, r, φ, f1, f2, -, f4⟩ := C85_images hT ht.pairing (LinearMap.funLeft ℂ ℂ (fun c => (⟨e c, he c⟩ : Fin neq)) y) l hl
    obtain rfl : i = d := Fin.ext (by exact_mod_cast hli.symm.trans f1)
    rw [f4, key r (by rw [← f2]; exact (ht.pairing.source l hl).1), hy l hl r (.inr f2), hy l hl i (.inl f1), mul_zero]
  · exact key i hi

end

section
variable {neq neq' : ℕ} {Kg Mg : Matrix (Fin neq) (Fin neq) ℝ} {Kg' Mg' : Matrix (Fin neq') (Fin neq') ℝ}
  {nodesRef nodesIma dofsRef dofsIma : List ℤ} {refDof imaDof : ℤ → Option (List ℤ)} {newNum : List ℤ} {wave : List ℝ}
  {coords : List (List ℝ)} {T : Matrix (Fin neq) (Fin (neq - dofsRef.length)) ℂ} {l : Fin (neq - dofsRef.length) → ℝ}
  {q : Fin (neq - dofsRef.length) → Fin (neq - dofsRef.length) → ℂ} {w : Fin neq → ℝ} {φ : Fin neq → Fin neq → ℝ}
  {w' : Fin neq' → ℝ} {φ' : Fin neq' → Fin neq' → ℝ}

open scoped ComplexOrder

theorem bands_exist (hK : Kg.IsSymm) (hM : Mg.IsSymm ∧ ∀ v, v ≠ 0 → 0 < v ⬝ᵥ Mg.mulVec v)
    (ht : Tied neq nodesRef nodesIma dofsRef dofsIma refDof imaDof newNum)
    (hT : blochTransformMat wave coords neq nodesRef nodesIma dofsRef dofsIma refDof imaDof newNum = .ok T) :
    ∃ l q, Waves (T.conjTranspose * Kg.map Complex.ofReal * T) (T.conjTranspose * Mg.map Complex.ofReal * T) l q ∧
      ∀ z : ℂ, (∃ v, v ≠ 0 ∧ (T.conjTranspose * Kg.map Complex.ofReal * T).mulVec v =
        z • (T.conjTranspose * Mg.map Complex.ofReal * T).mulVec v) ↔ ∃ k, z = l k := by
  have h1 := Matrix.isHermitian_conjTranspose_mul_mul T (map_hermitian hK)
  have h2 := C88_definite hT ht.pairing ht.onto (map_posDef hM.1 hM.2)
  obtain ⟨l, q, h⟩ := exists_waves h1 h2
  exact ⟨l, q, h, h.eigen_iff h1 h2.1⟩

theorem bands_above (hM : Mg.IsSymm) (hm : Modes Kg Mg w φ) (ht : Tied neq nodesRef nodesIma dofsRef dofsIma refDof imaDof newNum)
    (hT : blochTransformMat wave coords neq nodesRef nodesIma dofsRef dofsIma refDof imaDof newNum = .ok T)
    (hw : Waves (T.conjTranspose * Kg.map Complex.ofReal * T) (T.conjTranspose * Mg.map Complex.ofReal * T) l q)
    (k : Fin (neq - dofsRef.length)) (i : Fin neq) (hk : (k : ℕ) = i) : w i ≤ l k :=
  hw.compare (Matrix.isHermitian_conjTranspose_mul_mul T (map_hermitian hM)) hm.waves (map_hermitian hM) T.mulVecLin
    (fun v hv => C86_injective hT ht.pairing ht.onto (by rw [mulVec_zero]; exact hv)) (fun v => (reduced_energy _ v).symm)
    (fun v => (reduced_energy _ v).symm) k i hk

theorem bands_top (hK : Kg.IsSymm) (hM : Mg.IsSymm) (hm : Modes Kg Mg w φ) {t : ℝ} (hwt : ∀ i, w i ≤ t)
    (hw : Waves (T.conjTranspose * Kg.map Complex.ofReal * T) (T.conjTranspose * Mg.map Complex.ofReal * T) l q)
    (k : Fin (neq - dofsRef.length)) : l k ≤ t := by
  have hle : ∀ v : Fin neq → ℝ, v ⬝ᵥ Kg.mulVec v ≤ t * (v ⬝ᵥ Mg.mulVec v) := fun v => by
    rw [hm.form_stiff hM, hm.form_mass, Finset.mul_sum]
    exact Finset.sum_le_sum fun i _ => mul_le_mul_of_nonneg_right (hwt i) (sq_nonneg _)
  have e1 := hw.normal k k
  have e2 : star (q k) ⬝ᵥ (T.conjTranspose * Kg.map Complex.ofReal * T).mulVec (q k) = l k := by
    rw [hw.motion, dotProduct_smul, e1, if_pos rfl, smul_eq_mul, mul_one]
  rw [if_pos rfl] at e1
  rw [reduced_energy, complex_form hM] at e1
  rw [reduced_energy, complex_form hK] at e2
  have f1 := Complex.ofReal_eq_one.1 e1
  have f2 := Complex.ofReal_inj.1 e2
  rw [← f2, ← mul_one t, ← f1, mul_add]
  exact add_le_add (hle _) (hle _)

theorem bands_below (hK : Kg.IsSymm) (hM : Mg.IsSymm) (hK' : Kg'.IsSymm) (hM' : Mg'.IsSymm) (hm' : Modes Kg' Mg' w' φ')
    (ht : Tied neq nodesRef nodesIma dofsRef dofsIma refDof imaDof newNum)
    (hT : blochTransformMat wave coords neq nodesRef nodesIma dofsRef dofsIma refDof imaDof newNum = .ok T)
    (hw : Waves (T.conjTranspose * Kg.map Complex.ofReal * T) (T.conjTranspose * Mg.map Complex.ofReal * T) l q)
    {F : Matrix (Fin neq) (Fin neq') ℝ} (f1 : ∀ v, F.mulVec v ⬝ᵥ Kg.mulVec (F.mulVec v) = v ⬝ᵥ Kg'.mulVec v)
    (f2 : ∀ v, F.mulVec v ⬝ᵥ Mg.mulVec (F.mulVec v) = v ⬝ᵥ Mg'.mulVec v) (f3 : ∀ v, F.mulVec v = 0 → v = 0)
    (f4 : ∀ l ∈ links nodesIma nodesRef refDof imaDof, ∀ i : Fin neq, l.ima = ((i : ℕ) : ℤ) ∨ l.ref = ((i : ℕ) : ℤ) → ∀ i', F i i' = 0)
    (k : Fin (neq - dofsRef.length)) (k' : Fin neq') (hk : (k : ℕ) = k') : l k ≤ w' k' := by
  obtain ⟨R, hR⟩ := exists_untied ht hT
  have re : ∀ v : Fin neq' → ℂ, (fun i => ((F.map Complex.ofReal).mulVec v i).re) = F.mulVec fun i => (v i).re := fun v => by
    funext i
    simp [Matrix.mulVec, dotProduct]
  have im : ∀ v : Fin neq' → ℂ, (fun i => ((F.map Complex.ofReal).mulVec v i).im) = F.mulVec fun i => (v i).im := fun v => by
    funext i
    simp [Matrix.mulVec, dotProduct]
  have hTR : ∀ v, T.mulVec (R ((F.map Complex.ofReal).mulVec v)) = (F.map Complex.ofReal).mulVec v := fun v => hR _ fun l hl i hi => by
    change ∑ i', (F.map Complex.ofReal) i i' * v i' = 0
    refine Finset.sum_eq_zero fun i' _ => ?_
    rw [Matrix.map_apply, f4 l hl i hi i']
    simp
  refine hm'.waves.compare (map_hermitian hM') hw (Matrix.isHermitian_conjTranspose_mul_mul T (map_hermitian hM))
    (R ∘ₗ (F.map Complex.ofReal).mulVecLin) (fun v hv => ?_) (fun v => ?_) (fun v => ?_) k' k hk.symm
  · have h0 := hTR v
    rw [show R ((F.map Complex.ofReal).mulVec v) = 0 from hv, mulVec_zero] at h0
    have a1 := f3 (fun i => (v i).re) (by rw [← re, ← h0]; rfl)
    have a2 := f3 (fun i => (v i).im) (by rw [← im, ← h0]; rfl)
    exact funext fun i => Complex.ext (congrFun a1 i) (congrFun a2 i)
  · rw [reduced_energy]
    change star (T.mulVec (R ((F.map Complex.ofReal).mulVec v))) ⬝ᵥ _ = _
    rw [show T.mulVec ((R ∘ₗ (F.map Complex.ofReal).mulVecLin) v) = _ from hTR v, hTR v, complex_form hK, complex_form hK', re, im, f1, f1]
  · rw [reduced_energy]
    change star (T.mulVec (R ((F.map Complex.ofReal).mulVec v))) ⬝ᵥ _ = _
    rw [show T.mulVec ((R ∘ₗ (F.map Complex.ofReal).mulVecLin) v) = _ from hTR v, hTR v, complex_form hM, complex_form hM', re, im, f2, f2]

end


/-! ## Plane models and frames -/

/-- Every tied degree of freedom of the cell is held by the supports `cons'`. -/
def Spec.Clamps (cons' : Table ℝ) (nd : ℕ) (bc : List (List ℤ)) (L : List Link) : Prop :=
  ∀ l ∈ L, ∀ z, z = l.ima ∨ z = l.ref → ∃ p j, p < cons'.length ∧ j < nd ∧ entry bc p j = some z ∧ ¬ Free cons' nd p j

section
variable {fn fn' : ℤ → Uel ℝ → Prop} {cons cons' mats nodes : Table ℝ} {els : List (List ℤ)} {nd neq neq' : ℕ} {bc₀ bc bc' : List (List ℤ)}
  {ks ms : List (Member ℝ)} {Kg Mg : Matrix (Fin neq) (Fin neq) ℝ} {Kg' Mg' : Matrix (Fin neq') (Fin neq') ℝ}
  {nodesRef nodesIma dofsRef dofsIma : List ℤ} {refDof imaDof : ℤ → Option (List ℤ)} {newNum : List ℤ} {wave : List ℝ}
  {coords : List (List ℝ)} {T : Matrix (Fin neq) (Fin (neq - dofsRef.length)) ℂ} {l : Fin (neq - dofsRef.length) → ℝ}
  {q : Fin (neq - dofsRef.length) → Fin (neq - dofsRef.length) → ℂ} {w' : Fin neq' → ℝ} {φ' : Fin neq' → Fin neq' → ℝ}

theorem bands_clamped (s : Setup fn cons els mats nodes nd neq bc Kg ks) (t : Setup fn' cons els mats nodes nd neq bc Mg ms)
    (s' : Setup fn cons' els mats nodes nd neq' bc' Kg' ks) (t' : Setup fn' cons' els mats nodes nd neq' bc' Mg' ms)
    (hl : cons'.length = cons.length) (hc : ∀ p j, Free cons' nd p j → Free cons nd p j)
    (hK : Kg.IsSymm) (hM : Mg.IsSymm) (hK' : Kg'.IsSymm) (hM' : Mg'.IsSymm) (hm' : Modes Kg' Mg' w' φ')
    (hbc : eqcounter cons nd = .ok (neq, bc₀)) (hcl : Clamps cons' nd bc₀ (links nodesIma nodesRef refDof imaDof))
    (ht : Tied neq nodesRef nodesIma dofsRef dofsIma refDof imaDof newNum)
    (hT : blochTransformMat wave coords neq nodesRef nodesIma dofsRef dofsIma refDof imaDof newNum = .ok T)
    (hw : Waves (T.conjTranspose * Kg.map Complex.ofReal * T) (T.conjTranspose * Mg.map Complex.ofReal * T) l q)
    (k : Fin (neq - dofsRef.length)) (k' : Fin neq') (hk : (k : ℕ) = k') : l k ≤ w' k' := by
  have e := s.eq
  rw [hbc, Except.ok.injEq, Prod.mk.injEq] at e
  obtain ⟨-, rfl⟩ := e
  obtain ⟨F, f1, f2, f3, f4⟩ := exists_embedding s t s' t' hl hc
  refine bands_below hK hM hK' hM' hm' ht hT hw f1 f2 f3 (fun l hl' i hi => ?_) k k' hk
  obtain ⟨p, j, hp, hj, he, hf⟩ := hcl l hl' ((i : ℕ) : ℤ) (hi.imp Eq.symm Eq.symm)
  exact f4 p (by rw [← hl]; exact hp) j hj hf i ⟨_, he, by omega, i.2, .inl rfl⟩

end

section
variable {sq : ℝ → ℝ} {d : Gui.Data ℝ} {neq neq' : ℕ} {Kg Mg : Matrix (Fin neq) (Fin neq) ℝ} {Kg' Mg' : Matrix (Fin neq') (Fin neq') ℝ}
  {ks ms ks' ms' : List (Member ℝ)} {bc : List (List ℤ)} {nodesRef nodesIma dofsRef dofsIma : List ℤ} {refDof imaDof : ℤ → Option (List ℤ)}
  {newNum : List ℤ} {wave : List ℝ} {coords : List (List ℝ)} {T : Matrix (Fin neq) (Fin (neq - dofsRef.length)) ℂ}
  {l : Fin (neq - dofsRef.length) → ℝ} {q : Fin (neq - dofsRef.length) → Fin (neq - dofsRef.length) → ℂ}
  {w : Fin neq → ℝ} {φ : Fin neq → Fin neq → ℝ} {w' : Fin neq' → ℝ} {φ' : Fin neq' → Fin neq' → ℝ}

theorem Vibrating.stiff (hs : SqrtFn sq) (h : Vibrating sq d ks ms Kg Mg) : Kg.IsSymm := by
  obtain ⟨bc, s, s'⟩ := h.setups
  exact assembled_symm s (C93_elements hs h.plane h.springs).1

/-- C179.  Plane cells: the matrices reduced for a wave vector have as many real values as there are degrees of freedom left, and no others. -/
theorem C179_waves (hs : SqrtFn sq) (h : Vibrating sq d ks ms Kg Mg) (ht : Tied neq nodesRef nodesIma dofsRef dofsIma refDof imaDof newNum)
    (hT : blochTransformMat wave coords neq nodesRef nodesIma dofsRef dofsIma refDof imaDof newNum = .ok T) :
    ∃ l q, Waves (T.conjTranspose * Kg.map Complex.ofReal * T) (T.conjTranspose * Mg.map Complex.ofReal * T) l q ∧
      ∀ z : ℂ, (∃ v, v ≠ 0 ∧ (T.conjTranspose * Kg.map Complex.ofReal * T).mulVec v =
        z • (T.conjTranspose * Mg.map Complex.ofReal * T).mulVec v) ↔ ∃ k, z = l k :=
  bands_exist (h.stiff hs) (h.mass hs) ht hT

/-- C179.  Plane cells: at every wave vector, value number `k` is no smaller than squared frequency number `k` of the cell by itself, and no
value exceeds its highest squared frequency. -/
theorem C179_floating (hs : SqrtFn sq) (h : Vibrating sq d ks ms Kg Mg) (hm : Modes Kg Mg w φ)
    (ht : Tied neq nodesRef nodesIma dofsRef dofsIma refDof imaDof newNum)
    (hT : blochTransformMat wave coords neq nodesRef nodesIma dofsRef dofsIma refDof imaDof newNum = .ok T)
    (hw : Waves (T.conjTranspose * Kg.map Complex.ofReal * T) (T.conjTranspose * Mg.map Complex.ofReal * T) l q)
    (k : Fin (neq - dofsRef.length)) : (∀ i : Fin neq, (k : ℕ) = i → w i ≤ l k) ∧ ∀ t, (∀ i, w i ≤ t) → l k ≤ t :=
  ⟨bands_above (h.mass hs).1 hm ht hT hw k, fun _ hwt => bands_top (h.stiff hs) (h.mass hs).1 hm hwt hw k⟩

/-- C179.  Plane cells: at every wave vector, value number `k` is no larger than squared frequency number `k` of the cell whose tied degrees
of freedom are held. -/
theorem C179_clamped (hs : SqrtFn sq) (h : Vibrating sq d ks ms Kg Mg) {cons' : Table ℝ}
    (h' : Vibrating sq { d with cons := cons' } ks' ms' Kg' Mg') (hm' : Modes Kg' Mg' w' φ')
    (hc : ∀ p j, Free cons' 2 p j → Free d.cons 2 p j) (hbc : eqcounter d.cons 2 = .ok (neq, bc))
    (hcl : Clamps cons' 2 bc (links nodesIma nodesRef refDof imaDof)) (ht : Tied neq nodesRef nodesIma dofsRef dofsIma refDof imaDof newNum)
    (hT : blochTransformMat wave coords neq nodesRef nodesIma dofsRef dofsIma refDof imaDof newNum = .ok T)
    (hw : Waves (T.conjTranspose * Kg.map Complex.ofReal * T) (T.conjTranspose * Mg.map Complex.ofReal * T) l q)
    (k : Fin (neq - dofsRef.length)) (k' : Fin neq') (hk : (k : ℕ) = k') : l k ≤ w' k' := by
  obtain rfl := members_unique h.springs h'.springs
  obtain rfl := masses_unique h.masses h'.masses
  obtain ⟨_, s, t⟩ := h.setups
  obtain ⟨_, s', t'⟩ := h'.setups
  exact bands_clamped s t s' t' (h'.wf.size.trans h.wf.size.symm) hc (h.stiff hs) (h.mass hs).1 (h'.stiff hs) (h'.mass hs).1 hm' hbc hcl ht hT hw
    k k' hk

/-- C179.  Meshes of bars and triangles: no wave is faster than `t` allows, with `t` from moduli, densities, lengths, sides and areas. -/
theorem C179_mesh (hs : SqrtFn sq) (h : Vibrating sq d ks ms Kg Mg) {t : ℝ} (h0 : 0 ≤ t) (hb : ∀ el ∈ d.elements, Below d t el)
    (ht : Tied neq nodesRef nodesIma dofsRef dofsIma refDof imaDof newNum)
    (hT : blochTransformMat wave coords neq nodesRef nodesIma dofsRef dofsIma refDof imaDof newNum = .ok T)
    {v : Fin (neq - dofsRef.length) → ℂ} (hv : v ≠ 0) {z : ℂ} (he : (T.conjTranspose * Kg.map Complex.ofReal * T).mulVec v =
      z • (T.conjTranspose * Mg.map Complex.ofReal * T).mulVec v) : ∃ x : ℝ, z = x ∧ x ≤ t := by
  obtain ⟨l, q, hw, hz⟩ := C179_waves hs h ht hT
  obtain ⟨k, rfl⟩ := (hz z).1 ⟨v, hv, he⟩
  obtain ⟨w, φ, hm, -⟩ := C119_modes hs h
  exact ⟨l k, rfl, (C179_floating hs h hm ht hT hw k).2 t fun i =>
    C176_elements hs h hm (fun el hel m μ h1 h2 u => below_form hs h0 h.plane hel (hb el hel) h1 h2 u) i⟩

end

section
variable {sq : ℝ → ℝ} {cons mats nodes : Table ℝ} {elements : List (List ℤ)} {neq neq' : ℕ} {Kg Mg : Matrix (Fin neq) (Fin neq) ℝ}
  {Kg' Mg' : Matrix (Fin neq') (Fin neq') ℝ} {ks ms ks' ms' : List (Member ℝ)} {bc : List (List ℤ)} {nodesRef nodesIma dofsRef dofsIma : List ℤ}
  {refDof imaDof : ℤ → Option (List ℤ)} {newNum : List ℤ} {wave : List ℝ} {coords : List (List ℝ)}
  {T : Matrix (Fin neq) (Fin (neq - dofsRef.length)) ℂ} {l : Fin (neq - dofsRef.length) → ℝ}
  {q : Fin (neq - dofsRef.length) → Fin (neq - dofsRef.length) → ℂ} {w : Fin neq → ℝ} {φ : Fin neq → Fin neq → ℝ}
  {w' : Fin neq' → ℝ} {φ' : Fin neq' → Fin neq' → ℝ}

/-- C179.  Cells made of beams: the values at a wave vector. -/
theorem C179_frame_waves (hs : SqrtFn sq) (h : BeamModel sq cons mats nodes elements ks ms Kg Mg) (hm : Modes Kg Mg w φ)
    (ht : Tied neq nodesRef nodesIma dofsRef dofsIma refDof imaDof newNum)
    (hT : blochTransformMat wave coords neq nodesRef nodesIma dofsRef dofsIma refDof imaDof newNum = .ok T) :
    ∃ l q, Waves (T.conjTranspose * Kg.map Complex.ofReal * T) (T.conjTranspose * Mg.map Complex.ofReal * T) l q ∧
      ∀ z : ℂ, (∃ v, v ≠ 0 ∧ (T.conjTranspose * Kg.map Complex.ofReal * T).mulVec v =
        z • (T.conjTranspose * Mg.map Complex.ofReal * T).mulVec v) ↔ ∃ k, z = l k := by
  refine bands_exist (h.symm hs).1 ⟨(h.symm hs).2, fun v hv => ?_⟩ ht hT
  rw [hm.form_mass]
  refine lt_of_le_of_ne (Finset.sum_nonneg fun k _ => sq_nonneg _) fun h0 => hv ?_
  have := (Finset.sum_eq_zero_iff_of_nonneg fun k _ => sq_nonneg _).1 h0.symm
  rw [hm.expand v]
  exact Finset.sum_eq_zero fun k hk => by rw [pow_eq_zero_iff (by omega) |>.1 (this k hk), zero_smul]

/-- C179.  Cells made of beams: the values lie above the frequencies of the cell by itself. -/
theorem C179_frame_floating (hs : SqrtFn sq) (h : BeamModel sq cons mats nodes elements ks ms Kg Mg) (hm : Modes Kg Mg w φ)
    (ht : Tied neq nodesRef nodesIma dofsRef dofsIma refDof imaDof newNum)
    (hT : blochTransformMat wave coords neq nodesRef nodesIma dofsRef dofsIma refDof imaDof newNum = .ok T)
    (hw : Waves (T.conjTranspose * Kg.map Complex.ofReal * T) (T.conjTranspose * Mg.map Complex.ofReal * T) l q)
    (k : Fin (neq - dofsRef.length)) : (∀ i : Fin neq, (k : ℕ) = i → w i ≤ l k) ∧ ∀ t, (∀ i, w i ≤ t) → l k ≤ t :=
  ⟨bands_above (h.symm hs).2 hm ht hT hw k, fun _ hwt => bands_top (h.symm hs).1 (h.symm hs).2 hm hwt hw k⟩

/-- C179.  Cells made of beams: the values lie below the frequencies of the clamped cell. -/
theorem C179_frame_clamped (hs : SqrtFn sq) (h : BeamModel sq cons mats nodes elements ks ms Kg Mg) {cons' : Table ℝ}
    (h' : BeamModel sq cons' mats nodes elements ks' ms' Kg' Mg') (hm' : Modes Kg' Mg' w' φ')
    (hc : ∀ p j, Free cons' 3 p j → Free cons 3 p j) (hbc : eqcounter cons 3 = .ok (neq, bc))
    (hcl : Clamps cons' 3 bc (links nodesIma nodesRef refDof imaDof)) (ht : Tied neq nodesRef nodesIma dofsRef dofsIma refDof imaDof newNum)
    (hT : blochTransformMat wave coords neq nodesRef nodesIma dofsRef dofsIma refDof imaDof newNum = .ok T)
    (hw : Waves (T.conjTranspose * Kg.map Complex.ofReal * T) (T.conjTranspose * Mg.map Complex.ofReal * T) l q)
    (k : Fin (neq - dofsRef.length)) (k' : Fin neq') (hk : (k : ℕ) = k') : l k ≤ w' k' := by
  obtain rfl := frame_members_unique h.springs h'.springs
  obtain rfl := frame_masses_unique h.masses h'.masses
  obtain ⟨_, s, t⟩ := h.setups
  obtain ⟨_, s', t'⟩ := h'.setups
  exact bands_clamped s t s' t' (h'.frame.size.trans h.frame.size.symm) hc (h.symm hs).1 (h.symm hs).2 (h'.symm hs).1 (h'.symm hs).2 hm' hbc hcl ht
    hT hw k k' hk

end


/-! ## Cases -/

theorem Spec.PeriodicRod.vibrating {sq : ℝ → ℝ} {d : Gui.Data ℝ} {n neq : ℕ} {h E A ρ : ℝ} {op bc : List (List ℤ)}
    {Kg Mg : Matrix (Fin neq) (Fin neq) ℝ} (hr : PeriodicRod d n h E A ρ) (hs : SqrtFn sq) (hn : 0 < n) (hh : 0 < h) (hA : 0 < A) (hρ : 0 < ρ)
    (h1 : dme d.cons d.elements = .ok (op, bc, neq))
    (h2 : assembler (Uel.eleFun sq) d.elements d.mats d.nodes neq op = .ok (Kg, Mg)) : ∃ ks ms, Vibrating sq d ks ms Kg Mg := by
  obtain ⟨ks, hks⟩ := hr.held.exists_members hs hh
  obtain ⟨ms, s⟩ := mass_setup h1 h2 hr.wf
  refine ⟨ks, ms, hr.model, hr.wf, fun el hel => ?_, fun p j hf => ?_, hks, s.mem, op, bc, h1, h2⟩
  · left
    obtain ⟨e, he, rfl⟩ := List.mem_iff_getElem.1 hel
    obtain ⟨id, hid⟩ := hr.bar e (by rw [← hr.bars]; exact he)
    rw [List.getElem?_eq_getElem he, Option.some.injEq] at hid
    rw [hid]
    have hm := (List.getElem?_eq_some_iff.1 hr.material).1
    exact ⟨rfl, rfl, 0, 0, E, A, [ρ], rfl, ⟨hm, .inl rfl⟩, hr.material, hA, by simpa using hρ⟩
  · have hp := free_lt hf
    rw [hr.wf.size, hr.count] at hp
    rcases (by omega : p < n ∨ p = n) with hlt | rfl
    · obtain ⟨id, hid⟩ := hr.bar p hlt
      exact ⟨_, List.mem_of_getElem? hid, (p : ℤ), by simp, by rw [hr.count]; exact hp, .inl rfl⟩
    · obtain ⟨id, hid⟩ := hr.bar (p - 1) (by omega)
      exact ⟨_, List.mem_of_getElem? hid, (p : ℤ), by simp; omega, by rw [hr.count]; exact hp, .inl rfl⟩

theorem rod_tied {d : Gui.Data ℝ} {n : ℕ} {κ κ' : ℝ} {refDof imaDof : ℤ → Option (List ℤ)} {newNum : List ℤ}
    {T : Matrix (Fin (n + 1)) (Fin (n + 1 - [(0 : ℤ)].length)) ℂ} (hw : RodWave d n κ κ' refDof imaDof newNum T) :
    Tied (n + 1) [0] [(n : ℤ)] [0] [(n : ℤ)] refDof imaDof newNum := by
  have hn := hw.cells
  obtain ⟨a, b⟩ := C86_reassigned hw.numbers (by simp) (by simp) rfl
  refine ⟨?_, b, a⟩
  rw [rod_links hw.refs hw.imas]
  refine ⟨by simp, by simp, fun e he hm => ?_, ?_⟩
  · simp at hm
    exact ⟨_, List.mem_singleton_self _, by simp [hm]⟩
  · simp
    omega

/-- Case for C179: a rod of `n` bars.  At every wave number the squared frequencies of the waves, in rising order, stay below those of the
rod with clamped ends and above those of the free rod, and below `12 E / (ρ h²)`. -/
theorem rod_bands (n : ℕ) (hn : 0 < n) (κ κ' : ℝ) : ∃ (op bc : List (List ℤ)) (Kg Mg : Matrix (Fin (n + 1)) (Fin (n + 1)) ℝ) (newNum : List ℤ)
    (T : Matrix (Fin (n + 1)) (Fin (n + 1 - [(0 : ℤ)].length)) ℂ) (ks ms : List (Member ℝ)) (w : Fin (n + 1) → ℝ) (φ : Fin (n + 1) → Fin (n + 1) → ℝ)
    (l : Fin (n + 1 - [(0 : ℤ)].length) → ℝ) (q : Fin (n + 1 - [(0 : ℤ)].length) → Fin (n + 1 - [(0 : ℤ)].length) → ℂ),
    dme (testRod n 1 1 1 1).cons (testRod n 1 1 1 1).elements = .ok (op, bc, n + 1) ∧
    Vibrating Real.sqrt (testRod n 1 1 1 1) ks ms Kg Mg ∧ Modes Kg Mg w φ ∧
    RodWave (testRod n 1 1 1 1) n κ κ' (fun z => if z = 0 then some [0] else none) (fun z => if z = n then some [(n : ℤ)] else none) newNum T ∧
    Waves (T.conjTranspose * Kg.map Complex.ofReal * T) (T.conjTranspose * Mg.map Complex.ofReal * T) l q ∧
    ∀ k : Fin (n + 1 - [(0 : ℤ)].length), (∀ i : Fin (n + 1), (k : ℕ) = i → w i ≤ l k) ∧
      ((k : ℕ) + 1 < n → l k ≤ barFreq n (k + 1) 1 1 1) ∧ l k ≤ 12 := by
  obtain ⟨op, bc, Kg, Mg, newNum, T, h1, h2, hw⟩ := C144_returns (refDof := fun z => if z = 0 then some [0] else none)
    (imaDof := fun z => if z = n then some [(n : ℤ)] else none) (testRod_periodic n 1 1 1 1) sqrtFn_real one_pos hn κ κ' (by simp) (by simp)
  obtain ⟨ks, ms, hv⟩ := (testRod_periodic n 1 1 1 1).vibrating sqrtFn_real hn one_pos one_pos one_pos h1 h2
  obtain ⟨w, φ, hm, -⟩ := C119_modes sqrtFn_real hv
  have ht := rod_tied hw
  obtain ⟨l, q, hl, hz⟩ := C179_waves sqrtFn_real hv ht hw.matrix
  refine ⟨op, bc, Kg, Mg, newNum, T, ks, ms, w, φ, l, q, h1, hv, hm, hw, hl, fun k => ⟨(C179_floating sqrtFn_real hv hm ht hw.matrix hl k).1, fun hk => ?_, ?_⟩⟩
  · have hb := testBar_uniform n 1 1 1 1
    obtain ⟨neq', Kg', Mg', ks', ms', w', φ', hv', hm'⟩ := hb.vibrates sqrtFn_real one_pos one_pos one_pos
    obtain ⟨op', bc', g1, g2⟩ := hv'.run
    obtain ⟨rfl, hw'⟩ := C119_bar hb sqrtFn_real one_pos one_pos one_pos one_pos g1 g2 hm'
    have hnum := ((testRod_periodic n 1 1 1 1).numbering h1).2
    have hrow : ∀ p ≤ n, entry bc p 0 = some (p : ℤ) := fun p hp =>
      (free_of_dofEq (dme_ok.1 h1).1 hv.wf.codes (by omega) (i := ⟨p, by omega⟩) (hnum p hp)).2
    have := C179_clamped (k := k) (k' := ⟨k, by omega⟩) sqrtFn_real hv (cons' := (testBar n 1 1 1 1).cons) hv' hm' (fun p j hf => by
      obtain ⟨rfl, h0, hp⟩ := hb.free_iff.1 hf
      exact (testRod_periodic n 1 1 1 1).free hp.le) (dme_ok.1 h1).1 (by
      rw [rod_links hw.refs hw.imas]
      intro x hx z hz
      rw [List.mem_singleton] at hx
      subst hx
      have hlen : (testBar n 1 1 1 1).cons.length = n + 1 := hb.rows
      rcases hz with rfl | rfl
      · exact ⟨n, 0, by rw [hlen]; omega, by omega, hrow n le_rfl, fun hf => absurd (hb.free_iff.1 hf).2.2 (lt_irrefl n)⟩
      · exact ⟨0, 0, by rw [hlen]; omega, by omega, hrow 0 (by omega), fun hf => absurd (hb.free_iff.1 hf).2.1 (lt_irrefl 0)⟩) ht hw.matrix hl rfl
    rwa [hw'] at this
  · obtain ⟨v, hv0, he⟩ := (hz (l k)).2 ⟨k, rfl⟩
    obtain ⟨x, hx, hx'⟩ := C179_mesh (t := 12) sqrtFn_real hv (by norm_num) (fun el hel => by
      obtain ⟨e, he, rfl⟩ := List.mem_map.1 hel
      have he := List.mem_range.1 he
      refine ⟨0, 0, 1, 1, [1], rfl, ⟨by simp [testRod, testBar], .inl rfl⟩, rfl, zero_le_one, by simp [density], .inl ⟨rfl, one_pos,
        !![(e : ℝ), 0; e + 1, 0], 1, ⟨[e, e + 1], .cons ⟨by simp [testRod, testBar]; omega, .inl rfl⟩
          (.cons ⟨by simp [testRod, testBar]; omega, .inl (by push_cast; rfl)⟩ .nil), rfl, ?_⟩, ⟨one_pos, ?_⟩, by simp [density]⟩⟩
      · have g : ∀ p ≤ n, (testRod n 1 1 1 1).nodes[p]? = some [(p : ℝ), p * 1, 0] := fun p hp => by
          simp [testRod, testBar, List.getElem?_range (show p < n + 1 by omega)]
        intro a i
        fin_cases a <;> fin_cases i <;> refine entry_some.2 ⟨_, g _ (by simp; omega), ?_⟩ <;> simp
      · simp) ht hw.matrix hv0 he
    have : l k = x := by exact_mod_cast hx
    rwa [this]

/-- The frame of the tests without supports. -/
theorem freeFrame_vibrates : ∃ (Kg Mg : Matrix (Fin 9) (Fin 9) ℝ) (ks ms : List (Member ℝ)) (w : Fin 9 → ℝ) (φ : Fin 9 → Fin 9 → ℝ),
    BeamModel Real.sqrt [[0, 0, 0], [0, 0, 0], [0, 0, 0]] testFrame.2.2.1 testFrame.2.2.2.1 testFrame.2.1 ks ms Kg Mg ∧ Modes Kg Mg w φ ∧
    eqcounter ([[0, 0, 0], [0, 0, 0], [0, 0, 0]] : Table ℝ) 3 = .ok (9, [[0, 1, 2], [3, 4, 5], [6, 7, 8]]) := by
  have hf : Frame [[0, 0, 0], [0, 0, 0], [0, 0, 0]] testFrame.2.2.2.1 testFrame.2.1 := by
    refine ⟨fun i j v hj hv => ?_, by simp, rfl, testFrame_frame.beams⟩
    obtain ⟨row, h1, h2⟩ := entry_some.1 hv
    have hrow : row = [0, 0, 0] := by simpa using List.mem_of_getElem? h1
    subst hrow
    rcases (by omega : j = 0 ∨ j = 1 ∨ j = 2) with rfl | rfl | rfl <;> simp at h2 <;> exact .inl h2.symm
  obtain ⟨neq, Kg, Mg, ks, ms, w, φ, hB, hm⟩ := testFrame_vibrates hf
  obtain ⟨bc, s, t⟩ := hB.setups
  have heq := s.eq
  have h2 := eqcounter_ok heq
  have h3 : truncTab [[(0 : ℝ), 0, 0], [0, 0, 0], [0, 0, 0]] = [[0, 0, 0], [0, 0, 0], [0, 0, 0]] := by simp [truncTab, pyTrunc]
  rw [h3] at h2
  have h4 : numberRows 3 [[0, 0, 0], [0, 0, 0], [0, 0, 0]] 0 = .ok ([[0, 1, 2], [3, 4, 5], [6, 7, 8]], 9) := by decide +kernel
  rw [h4, Except.ok.injEq, Prod.mk.injEq] at h2
  obtain ⟨rfl, rfl⟩ := h2
  exact ⟨Kg, Mg, ks, ms, w, φ, hB, hm, heq⟩

/-- Its last node is the image of the first. -/
theorem freeFrame_tied : Tied 9 [0] [2] [0, 1, 2] [6, 7, 8] (fun z => if z = 0 then some [0, 1, 2] else none)
    (fun z => if z = 2 then some [6, 7, 8] else none) [0, 1, 2, 3, 4, 5, 0, 1, 2] := by
  refine ⟨⟨by decide, by decide, by decide, by decide⟩, by decide, ?_⟩
  have : ∀ e e' : Fin 9, ((e : ℕ) : ℤ) ∉ [(6 : ℤ), 7, 8] → ((e' : ℕ) : ℤ) ∉ [(6 : ℤ), 7, 8] →
      [(0 : ℤ), 1, 2, 3, 4, 5, 0, 1, 2][(e : ℕ)]? = [(0 : ℤ), 1, 2, 3, 4, 5, 0, 1, 2][(e' : ℕ)]? → e = e' := by decide
  intro e e' he he' h1 h2 h3
  exact congrArg Fin.val (this ⟨e, he⟩ ⟨e', he'⟩ h1 h2 h3)

/-- Case for C179: the frame of the tests as a cell whose last node is the image of the first. -/
example (κ κ' : ℝ) : ∃ (Kg Mg : Matrix (Fin 9) (Fin 9) ℝ) (T : Matrix (Fin 9) (Fin (9 - [(0 : ℤ), 1, 2].length)) ℂ) (neq' : ℕ)
    (Kg' Mg' : Matrix (Fin neq') (Fin neq') ℝ) (ks ms ks' ms' : List (Member ℝ)) (w : Fin 9 → ℝ) (w' : Fin neq' → ℝ) (φ : Fin 9 → Fin 9 → ℝ)
    (φ' : Fin neq' → Fin neq' → ℝ) (l : Fin (9 - [(0 : ℤ), 1, 2].length) → ℝ)
    (q : Fin (9 - [(0 : ℤ), 1, 2].length) → Fin (9 - [(0 : ℤ), 1, 2].length) → ℂ),
    BeamModel Real.sqrt [[0, 0, 0], [0, 0, 0], [0, 0, 0]] testFrame.2.2.1 testFrame.2.2.2.1 testFrame.2.1 ks ms Kg Mg ∧ Modes Kg Mg w φ ∧
    BeamModel Real.sqrt testFrame.1 testFrame.2.2.1 testFrame.2.2.2.1 testFrame.2.1 ks' ms' Kg' Mg' ∧ Modes Kg' Mg' w' φ' ∧
    blochTransformMat [κ, κ'] (testFrame.2.2.2.1.map (List.drop 1)) 9 [0] [2] [0, 1, 2] [6, 7, 8] (fun z => if z = 0 then some [0, 1, 2] else none)
      (fun z => if z = 2 then some [6, 7, 8] else none) [0, 1, 2, 3, 4, 5, 0, 1, 2] = .ok T ∧
    Waves (T.conjTranspose * Kg.map Complex.ofReal * T) (T.conjTranspose * Mg.map Complex.ofReal * T) l q ∧
    ∀ k : Fin (9 - [(0 : ℤ), 1, 2].length), (∀ i : Fin 9, (k : ℕ) = i → w i ≤ l k) ∧ ∀ k' : Fin neq', (k : ℕ) = k' → l k ≤ w' k' := by
  obtain ⟨Kg, Mg, ks, ms, w, φ, hB, hm, heq⟩ := freeFrame_vibrates
  obtain ⟨neq', Kg', Mg', ks', ms', w', φ', hB', hm'⟩ := testFrame_vibrates testFrame_frame
  obtain ⟨T, hT⟩ : ∃ T, blochTransformMat [κ, κ'] (testFrame.2.2.2.1.map (List.drop 1)) 9 [0] [2] [0, 1, 2] [6, 7, 8]
      (fun z => if z = 0 then some [0, 1, 2] else none) (fun z => if z = 2 then some [6, 7, 8] else none) [0, 1, 2, 3, 4, 5, 0, 1, 2] = .ok T :=
    ⟨_, rfl⟩
  have ht := freeFrame_tied
  obtain ⟨l, q, hw, -⟩ := C179_frame_waves sqrtFn_real hB hm ht hT
  refine ⟨Kg, Mg, T, neq', Kg', Mg', ks, ms, ks', ms', w, w', φ, φ', l, q, hB, hm, hB', hm', hT, hw, fun k =>
    ⟨(C179_frame_floating sqrtFn_real hB hm ht hT hw k).1, fun k' hk => ?_⟩⟩
  refine C179_frame_clamped sqrtFn_real hB hB' hm' (fun p j hfr => ?_) heq ?_ ht hT hw k k' hk
  · obtain ⟨rfl, hj⟩ := (testFrame_free p j).1 hfr
    refine ⟨hj, 0, ?_, by norm_num, by norm_num⟩
    rcases (by omega : j = 0 ∨ j = 1 ∨ j = 2) with rfl | rfl | rfl <;> simp [entry]
  · have hlk : links [2] [0] (fun z => if z = 0 then some [0, 1, 2] else none) (fun z => if z = 2 then some [6, 7, 8] else none) =
        [⟨6, 0, 2, 0⟩, ⟨7, 1, 2, 0⟩, ⟨8, 2, 2, 0⟩] := rfl
    have hno : ∀ p j, p ≠ 1 → ¬ Free testFrame.1 3 p j := fun p j hp hfr => hp ((testFrame_free p j).1 hfr).1
    have hlen : testFrame.1.length = 3 := rfl
    rw [hlk]
    intro x hx z hz
    simp only [List.mem_cons, List.not_mem_nil, or_false] at hx
    rw [hlen]
    rcases hx with rfl | rfl | rfl <;> rcases hz with rfl | rfl
    · exact ⟨2, 0, by omega, by omega, rfl, hno 2 0 (by omega)⟩
    · exact ⟨0, 0, by omega, by omega, rfl, hno 0 0 (by omega)⟩
    · exact ⟨2, 1, by omega, by omega, rfl, hno 2 1 (by omega)⟩
    · exact ⟨0, 1, by omega, by omega, rfl, hno 0 1 (by omega)⟩
    · exact ⟨2, 2, by omega, by omega, rfl, hno 2 2 (by omega)⟩
    · exact ⟨0, 2, by omega, by omega, rfl, hno 0 2 (by omega)⟩

end SolidsPy
