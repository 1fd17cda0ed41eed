import Verif.Props.FreqRate
import Verif.Props.UserVibration

/-! # C178: frequencies from static analyses -/

set_option linter.unusedSectionVars false

namespace SolidsPy
open Spec Assem Matrix

section
variable {N : ℕ} {A B : Matrix (Fin N) (Fin N) ℝ} {l : Fin N → ℝ} {ψ : Fin N → Fin N → ℝ} {sp de : Sol.Solver ℝ} {kind : Sol.MatKind}

/-- What `static_sol` returns for an invertible matrix. -/
theorem static_solved (hsp : SolverOk sp) (hde : SolverOk de) (hA : A.det ≠ 0) {f x : Fin N → ℝ} (h : Sol.staticSol sp de kind A f = .ok x) :
    A.mulVec x = f := by
  cases kind with
  | csr =>
    obtain ⟨y, h1, h2⟩ := hsp N A f hA
    change sp N A f = _ at h
    rw [h, Except.ok.injEq] at h1
    rw [h1]
    exact h2
  | ndarray =>
    obtain ⟨y, h1, h2⟩ := hde N A f hA
    change de N A f = _ at h
    rw [h, Except.ok.injEq] at h1
    rw [h1]
    exact h2
  | other => exact absurd h (by simp [Sol.staticSol])

/-- The sum of the reciprocals of the squared frequencies, by the displacements under the columns of the mass matrix. -/
theorem Spec.Modes.flexibility (h : Modes A B l ψ) (h0 : ∀ k, l k ≠ 0) {X : Fin N → Fin N → ℝ}
    (hX : ∀ j, A.mulVec (X j) = fun i => B i j) : ∑ j, X j j = ∑ k, 1 / l k := by
  have e : ∀ j, X j j = ∑ k, 1 / l k * ((ψ k ᵥ* B) j * ψ k j) := fun j => by
    conv_lhs => rw [h.expand (X j)]
    rw [Finset.sum_apply]
    refine Finset.sum_congr rfl fun k _ => ?_
    have s := h.stiff_part (X j) k
    rw [hX j] at s
    have s' : (ψ k ᵥ* B) j = l k * (ψ k ⬝ᵥ B.mulVec (X j)) := s
    rw [Pi.smul_apply, smul_eq_mul, s']
    have := h0 k
    field_simp
  simp only [e]
  rw [Finset.sum_comm]
  refine Finset.sum_congr rfl fun k _ => ?_
  rw [← Finset.mul_sum]
  have := h.normal k k
  rw [if_pos rfl, Matrix.dotProduct_mulVec] at this
  unfold dotProduct at this
  rw [this, mul_one]

/-- The first squared frequency lies between `1 / s` and `n / s`, with `s` that sum and `n` the number of equations. -/
theorem Spec.Modes.dunkerley (h : Modes A B l ψ) (h0 : ∀ k, 0 < l k) {X : Fin N → Fin N → ℝ}
    (hX : ∀ j, A.mulVec (X j) = fun i => B i j) (k : Fin N) : 1 ≤ l k * ∑ j, X j j ∧ ((k : ℕ) = 0 → l k * ∑ j, X j j ≤ N) := by
  rw [h.flexibility (fun k => (h0 k).ne') hX, Finset.mul_sum]
  constructor
  · have : l k * (1 / l k) ≤ ∑ i, l k * (1 / l i) :=
      Finset.single_le_sum (f := fun i => l k * (1 / l i)) (fun i _ => mul_nonneg (h0 k).le (one_div_pos.2 (h0 i)).le) (Finset.mem_univ k)
    rwa [mul_one_div_cancel (h0 k).ne'] at this
  · intro hk
    have : ∑ i, l k * (1 / l i) ≤ ∑ _i : Fin N, (1 : ℝ) := Finset.sum_le_sum fun i _ => by
      rw [mul_one_div, div_le_one (h0 i)]
      exact h.order (Fin.le_def.2 (by omega))
    simpa using this

/-- One step of inverse iteration does not raise the quotient of the energies. -/
theorem Spec.Modes.iteration (h : Modes A B l ψ) (hB : B.IsSymm) (h0 : ∀ k, 0 ≤ l k) {u v : Fin N → ℝ} (hu : A.mulVec u = B.mulVec v) :
    (u ⬝ᵥ A.mulVec u) * (v ⬝ᵥ B.mulVec v) ≤ (v ⬝ᵥ A.mulVec v) * (u ⬝ᵥ B.mulVec u) := by
  have s : ∀ k, l k * (ψ k ⬝ᵥ B.mulVec u) = ψ k ⬝ᵥ B.mulVec v := fun k => by rw [← h.stiff_part, hu]
  rw [h.form_stiff hB, h.form_mass, h.form_stiff hB, h.form_mass]
  simp only [← s]
  set x := fun k => ψ k ⬝ᵥ B.mulVec u
  have c1 : (∑ k, l k * x k ^ 2) ^ 2 ≤ (∑ k, x k ^ 2) * ∑ k, (l k * x k) ^ 2 := by
    refine le_trans (le_of_eq ?_) (Finset.sum_mul_sq_le_sq_mul_sq Finset.univ x fun k => l k * x k)
    congr 1
    exact Finset.sum_congr rfl fun k _ => by ring
  have c2 : (∑ k, (l k * x k) ^ 2) ^ 2 ≤ (∑ k, l k * x k ^ 2) * ∑ k, l k * (l k * x k) ^ 2 :=
    Finset.sum_sq_le_sum_mul_sum_of_sq_le_mul Finset.univ (fun k _ => mul_nonneg (h0 k) (sq_nonneg _))
      (fun k _ => mul_nonneg (h0 k) (sq_nonneg _)) fun k _ => le_of_eq (by ring)
  have p1 : 0 ≤ ∑ k, x k ^ 2 := Finset.sum_nonneg fun k _ => sq_nonneg _
  have p2 : 0 ≤ ∑ k, l k * x k ^ 2 := Finset.sum_nonneg fun k _ => mul_nonneg (h0 k) (sq_nonneg _)
  have p3 : 0 ≤ ∑ k, (l k * x k) ^ 2 := Finset.sum_nonneg fun k _ => sq_nonneg _
  have p4 : 0 ≤ ∑ k, l k * (l k * x k) ^ 2 := Finset.sum_nonneg fun k _ => mul_nonneg (h0 k) (sq_nonneg _)
  change (∑ k, l k * x k ^ 2) * (∑ k, (l k * x k) ^ 2) ≤ (∑ k, l k * (l k * x k) ^ 2) * ∑ k, x k ^ 2
  generalize ∑ k, x k ^ 2 = a at *
  generalize ∑ k, l k * x k ^ 2 = b at *
  generalize ∑ k, (l k * x k) ^ 2 = c at *
  generalize ∑ k, l k * (l k * x k) ^ 2 = e at *
  rcases p2.eq_or_lt with rfl | hb
  · rw [zero_mul]; positivity
  rcases p3.eq_or_lt with rfl | hc
  · rw [mul_zero]; positivity
  have : (b * c) * (b * c) ≤ (b * c) * (e * a) := by
    calc (b * c) * (b * c) = b ^ 2 * c ^ 2 := by ring
      _ ≤ (a * c) * (b * e) := mul_le_mul c1 c2 (sq_nonneg _) (by positivity)
      _ = _ := by ring
  exact le_of_mul_le_mul_left this (by positivity)

/-- The first squared frequency is at most the quotient of the energies of any vector. -/
theorem Spec.Modes.rayleigh (h : Modes A B l ψ) (hB : B.IsSymm) (k : Fin N) (hk : (k : ℕ) = 0) (u : Fin N → ℝ) :
    l k * (u ⬝ᵥ B.mulVec u) ≤ u ⬝ᵥ A.mulVec u := by
  rw [h.form_stiff hB, h.form_mass, Finset.mul_sum]
  exact Finset.sum_le_sum fun i _ => mul_le_mul_of_nonneg_right (h.order (Fin.le_def.2 (by omega))) (sq_nonneg _)

end

section
variable {sq : ℝ → ℝ} {d : Gui.Data ℝ} {neq : ℕ} {Kg Mg : Matrix (Fin neq) (Fin neq) ℝ} {ks ms : List (Member ℝ)}
  {w : Fin neq → ℝ} {φ : Fin neq → Fin neq → ℝ} {sp de : Sol.Solver ℝ} {kind : Sol.MatKind}

/-- C178.  Plane models: with `X j` the displacements `static_sol` returns for column `j` of the mass matrix as load, the sum `s` of the
`X j j` is that of the reciprocals of the squared frequencies, which are all at least `1 / s`; the first is at most `neq / s`. -/
theorem C178_dunkerley (hs : SqrtFn sq) (h : Vibrating sq d ks ms Kg Mg) (hphys : Physical d) (hst : Stable d.cons 2 ks) (hm : Modes Kg Mg w φ)
    (hsp : SolverOk sp) (hde : SolverOk de) {X : Fin neq → Fin neq → ℝ}
    (hX : ∀ j, Sol.staticSol sp de kind Kg (fun i => Mg i j) = .ok (X j)) :
    ∑ j, X j j = ∑ k, 1 / w k ∧ ∀ k, 1 ≤ w k * ∑ j, X j j ∧ ((k : ℕ) = 0 → w k * ∑ j, X j j ≤ neq) := by
  have hpos := (C119_positive_iff hs h hphys hm).2 hst
  obtain ⟨bc, s, s'⟩ := h.setups
  have hX' := fun j => static_solved hsp hde (det_ne_zero_of_stable s hst) (hX j)
  exact ⟨hm.flexibility (fun k => (hpos k).ne') hX', hm.dunkerley hpos hX'⟩

/-- C178.  Plane models: the displacements `u` that `static_sol` returns for the inertia forces `Mg v` of a shape `v` are a shape whose
quotient of energies is no larger than that of `v`, and no smaller than the first squared frequency. -/
theorem C178_iteration (hs : SqrtFn sq) (h : Vibrating sq d ks ms Kg Mg) (hphys : Physical d) (hst : Stable d.cons 2 ks) (hm : Modes Kg Mg w φ)
    (hsp : SolverOk sp) (hde : SolverOk de) {u v : Fin neq → ℝ} (hu : Sol.staticSol sp de kind Kg (Mg.mulVec v) = .ok u) :
    (u ⬝ᵥ Kg.mulVec u) * (v ⬝ᵥ Mg.mulVec v) ≤ (v ⬝ᵥ Kg.mulVec v) * (u ⬝ᵥ Mg.mulVec u) ∧
    ∀ k : Fin neq, (k : ℕ) = 0 → w k * (u ⬝ᵥ Mg.mulVec u) ≤ u ⬝ᵥ Kg.mulVec u := by
  obtain ⟨bc, s, s'⟩ := h.setups
  exact ⟨hm.iteration (h.mass hs).1 (C119_nonneg hs h hphys hm) (static_solved hsp hde (det_ne_zero_of_stable s hst) hu),
    fun k hk => hm.rayleigh (h.mass hs).1 k hk u⟩

end

section
variable {sq : ℝ → ℝ} {cons mats nodes : Table ℝ} {elements : List (List ℤ)} {neq : ℕ} {ks ms : List (Member ℝ)}
  {Kg Mg : Matrix (Fin neq) (Fin neq) ℝ} {w : Fin neq → ℝ} {φ : Fin neq → Fin neq → ℝ} {sp de : Sol.Solver ℝ} {kind : Sol.MatKind}

/-- C178.  Frames: reciprocals of the squared frequencies. -/
theorem C178_frame_dunkerley (hs : SqrtFn sq) (h : BeamModel sq cons mats nodes elements ks ms Kg Mg)
    (he : ∀ el ∈ elements, ElasticBeam mats nodes el) (hst : Stable cons 3 ks) (hm : Modes Kg Mg w φ) (hsp : SolverOk sp) (hde : SolverOk de)
    {X : Fin neq → Fin neq → ℝ} (hX : ∀ j, Sol.staticSol sp de kind Kg (fun i => Mg i j) = .ok (X j)) :
    ∑ j, X j j = ∑ k, 1 / w k ∧ ∀ k, 1 ≤ w k * ∑ j, X j j ∧ ((k : ℕ) = 0 → w k * ∑ j, X j j ≤ neq) := by
  have hpos := (C122_positive_iff hs h he hm).2 hst
  obtain ⟨bc, s, s'⟩ := h.setups
  have hX' := fun j => static_solved hsp hde (det_ne_zero_of_stable s hst) (hX j)
  exact ⟨hm.flexibility (fun k => (hpos k).ne') hX', hm.dunkerley hpos hX'⟩

/-- C178.  Frames: one step of inverse iteration. -/
theorem C178_frame_iteration (hs : SqrtFn sq) (h : BeamModel sq cons mats nodes elements ks ms Kg Mg)
    (he : ∀ el ∈ elements, ElasticBeam mats nodes el) (hst : Stable cons 3 ks) (hm : Modes Kg Mg w φ) (hsp : SolverOk sp) (hde : SolverOk de)
    {u v : Fin neq → ℝ} (hu : Sol.staticSol sp de kind Kg (Mg.mulVec v) = .ok u) :
    (u ⬝ᵥ Kg.mulVec u) * (v ⬝ᵥ Mg.mulVec v) ≤ (v ⬝ᵥ Kg.mulVec v) * (u ⬝ᵥ Mg.mulVec u) ∧
    ∀ k : Fin neq, (k : ℕ) = 0 → w k * (u ⬝ᵥ Mg.mulVec u) ≤ u ⬝ᵥ Kg.mulVec u := by
  obtain ⟨bc, s, s'⟩ := h.setups
  exact ⟨hm.iteration (h.symm hs).2 (C122_nonneg hs h he hm) (static_solved hsp hde (det_ne_zero_of_stable s hst) hu),
    fun k hk => hm.rayleigh (h.symm hs).2 k hk u⟩

end

section
variable {f : Uel ℝ} {tab : ℤ → Py (Uel ℝ)} {nd n m : ℕ} {cons mats nodes : Table ℝ} {elements : List (List ℤ)} {ks μs : List (Member ℝ)} {neq : ℕ}
  {count : ℤ → Py ℕ} {Kg Mg : Matrix (Fin neq) (Fin neq) ℝ} {w : Fin neq → ℝ} {φ : Fin neq → Fin neq → ℝ} {sp de : Sol.Solver ℝ}
  {kind : Sol.MatKind}

/-- C178.  The user's own elements: reciprocals of the squared frequencies. -/
theorem C178_user_dunkerley (h : UserVibration tab nd n m f count cons elements mats nodes ks μs Kg Mg) (he : ElasticElements nd ks)
    (hst : Stable cons nd ks) (hm : Modes Kg Mg w φ) (hsp : SolverOk sp) (hde : SolverOk de)
    {X : Fin neq → Fin neq → ℝ} (hX : ∀ j, Sol.staticSol sp de kind Kg (fun i => Mg i j) = .ok (X j)) :
    ∑ j, X j j = ∑ k, 1 / w k ∧ ∀ k, 1 ≤ w k * ∑ j, X j j ∧ ((k : ℕ) = 0 → w k * ∑ j, X j j ≤ neq) := by
  have hpos := (C157_positive_iff h he hm).2 hst
  obtain ⟨bc, s, s'⟩ := h.setups
  have hX' := fun j => static_solved hsp hde (det_ne_zero_of_stable s hst) (hX j)
  exact ⟨hm.flexibility (fun k => (hpos k).ne') hX', hm.dunkerley hpos hX'⟩

/-- C178.  The user's own elements: one step of inverse iteration. -/
theorem C178_user_iteration (h : UserVibration tab nd n m f count cons elements mats nodes ks μs Kg Mg) (he : ElasticElements nd ks)
    (hst : Stable cons nd ks) (hm : Modes Kg Mg w φ) (hsp : SolverOk sp) (hde : SolverOk de)
    {u v : Fin neq → ℝ} (hu : Sol.staticSol sp de kind Kg (Mg.mulVec v) = .ok u) :
    (u ⬝ᵥ Kg.mulVec u) * (v ⬝ᵥ Mg.mulVec v) ≤ (v ⬝ᵥ Kg.mulVec v) * (u ⬝ᵥ Mg.mulVec u) ∧
    ∀ k : Fin neq, (k : ℕ) = 0 → w k * (u ⬝ᵥ Mg.mulVec u) ≤ u ⬝ᵥ Kg.mulVec u := by
  have hpos := (C157_positive_iff h he hm).2 hst
  obtain ⟨bc, s, s'⟩ := h.setups
  exact ⟨hm.iteration h.mass.2.1 (fun k => (hpos k).le) (static_solved hsp hde (det_ne_zero_of_stable s hst) hu),
    fun k hk => hm.rayleigh h.mass.2.1 k hk u⟩

end

/-! ## Cases -/

theorem cramer_static {N : ℕ} {A : Matrix (Fin N) (Fin N) ℝ} (hA : A.det ≠ 0) (f : Fin N → ℝ) :
    ∃ x, Sol.staticSol cramerR cramerR .csr A f = .ok x := by
  obtain ⟨x, h, -⟩ := cramerR_ok N A f hA
  exact ⟨x, h⟩

/-- Case for C178: a bar in three parts, clamped at both ends. -/
example : ∃ (neq : ℕ) (Kg Mg : Matrix (Fin neq) (Fin neq) ℝ) (ks ms : List (Member ℝ)) (w : Fin neq → ℝ) (φ X : Fin neq → Fin neq → ℝ)
    (u v : Fin neq → ℝ), neq = 2 ∧ Vibrating Real.sqrt (testBar 3 1 1 1 1) ks ms Kg Mg ∧ Modes Kg Mg w φ ∧ v ≠ 0 ∧
    ∑ j, X j j = ∑ k : Fin neq, 1 / barFreq 3 (k + 1) 1 1 1 ∧
    (u ⬝ᵥ Kg.mulVec u) * (v ⬝ᵥ Mg.mulVec v) ≤ (v ⬝ᵥ Kg.mulVec v) * (u ⬝ᵥ Mg.mulVec u) := by
  obtain ⟨neq, Kg, Mg, ks, ms, w, φ, hv, hm⟩ := (testBar_uniform 3 1 1 1 1).vibrates sqrtFn_real one_pos one_pos one_pos
  obtain ⟨op, bc, h1, h2⟩ := hv.run
  obtain ⟨rfl, hw⟩ := C119_bar (testBar_uniform 3 1 1 1 1) sqrtFn_real one_pos one_pos one_pos one_pos h1 h2 hm
  have hphys := testBar_physical 3 (h := 1) (ρ := (1 : ℝ)) (zero_le_one (α := ℝ)) zero_le_one
  have hst := (C119_positive_iff sqrtFn_real hv hphys hm).1 fun k => by
    rw [hw]
    exact barFreq_pos one_pos one_pos one_pos (by omega) (by omega)
  obtain ⟨bc, s, s'⟩ := hv.setups
  have hd := det_ne_zero_of_stable s hst
  choose X hX using fun j => cramer_static hd fun i => Mg i j
  obtain ⟨u, hu⟩ := cramer_static hd (Mg.mulVec fun _ => 1)
  refine ⟨_, Kg, Mg, ks, ms, w, φ, X, u, fun _ => 1, rfl, hv, hm, fun h => one_ne_zero (congrFun h ⟨0, by norm_num⟩), ?_,
    (C178_iteration sqrtFn_real hv hphys hst hm cramerR_ok cramerR_ok hu).1⟩
  rw [(C178_dunkerley sqrtFn_real hv hphys hst hm cramerR_ok cramerR_ok hX).1]
  exact Finset.sum_congr rfl fun k _ => by rw [hw]

/-- Case for C178: the frame of the tests. -/
example : ∃ (neq : ℕ) (Kg Mg : Matrix (Fin neq) (Fin neq) ℝ) (ks ms : List (Member ℝ)) (w : Fin neq → ℝ) (φ X : Fin neq → Fin neq → ℝ)
    (u v : Fin neq → ℝ), BeamModel Real.sqrt testFrame.1 testFrame.2.2.1 testFrame.2.2.2.1 testFrame.2.1 ks ms Kg Mg ∧ Modes Kg Mg w φ ∧ v ≠ 0 ∧
    (∀ k, 1 ≤ w k * ∑ j, X j j) ∧ (u ⬝ᵥ Kg.mulVec u) * (v ⬝ᵥ Mg.mulVec v) ≤ (v ⬝ᵥ Kg.mulVec v) * (u ⬝ᵥ Mg.mulVec u) := by
  obtain ⟨neq, Kg, Mg, ks, ms, w, φ, hv, hm⟩ := testFrame_vibrates testFrame_frame
  have he : ∀ el ∈ testFrame.2.1, ElasticBeam testFrame.2.2.1 testFrame.2.2.2.1 el := fun el hel => by
    obtain ⟨a, b, X, L, h⟩ := testFrame_beams el hel
    exact ⟨a, b, X, L, _, _, _, _, h, by norm_num, by norm_num⟩
  have hst := testFrame_stable hv.springs
  obtain ⟨bc, s, s'⟩ := hv.setups
  have hd := det_ne_zero_of_stable s hst
  have hpos : 0 < neq := Nat.zero_lt_of_lt (free_entry s.eq ((testFrame_free 1 0).2 ⟨rfl, by norm_num⟩)).2
  choose X hX using fun j => cramer_static hd fun i => Mg i j
  obtain ⟨u, hu⟩ := cramer_static hd (Mg.mulVec fun _ => 1)
  exact ⟨_, Kg, Mg, ks, ms, w, φ, X, u, fun _ => 1, hv, hm, fun h => one_ne_zero (congrFun h ⟨0, hpos⟩),
    fun k => ((C178_frame_dunkerley sqrtFn_real hv he hst hm cramerR_ok cramerR_ok hX).2 k).1,
    (C178_frame_iteration sqrtFn_real hv he hst hm cramerR_ok cramerR_ok hu).1⟩

/-- Case for C178: the tetrahedron held at three nodes. -/
example (tab : ℤ → Py (Uel ℝ)) : ∃ (neq : ℕ) (Kg Mg : Matrix (Fin neq) (Fin neq) ℝ) (ks ms : List (Member ℝ)) (w : Fin neq → ℝ)
    (φ X : Fin neq → Fin neq → ℝ) (u v : Fin neq → ℝ),
    UserVibration tab 3 4 12 Uel.elastTet4 (fun _ => .ok 12) loneHeld loneEls loneMats loneNodes ks ms Kg Mg ∧ Modes Kg Mg w φ ∧ v ≠ 0 ∧
    (∀ k, 1 ≤ w k * ∑ j, X j j) ∧ (u ⬝ᵥ Kg.mulVec u) * (v ⬝ᵥ Mg.mulVec v) ≤ (v ⬝ᵥ Kg.mulVec v) * (u ⬝ᵥ Mg.mulVec u) := by
  obtain ⟨a, hb, na⟩ := lone_body
  have hh : HeavyMats loneMats loneEls := by
    intro el hel mi q params b1 b2 b3
    match q, b3 with
    | 0, b3 => exact ⟨10, 1/4, 1, by simpa [loneMats] using b3.symm, by norm_num⟩
    | q + 1, b3 => simp [loneMats] at b3
  obtain ⟨neq, Kg, Mg, μs, h⟩ := C157_vibrates (tab := tab) (m := 12) (count := fun _ => .ok 12) (cons := loneHeld) .tet4 loneHeld_model (by
      intro el hel
      simp only [loneEls, List.mem_cons, List.not_mem_nil, or_false] at hel
      subst hel
      exact ⟨9, rfl, rfl⟩) le_rfl hb.members hh (by
      intro p j hf
      have := free_lt hf
      exact (describes_used hb.members p).1 (hb.used p (by simpa [loneHeld, loneNodes] using this)))
  obtain ⟨w, φ, hm, -⟩ := C157_modes h
  have hl : loneHeld.length = loneNodes.length := rfl
  have hst : Stable loneHeld 3 [a] := (C136_stable_iff hb hl).2 (C136_three_pins hl (p := 0) (q := 1) (r := 2) (by simp [loneNodes])
    (by simp [loneNodes]) (by simp [loneNodes]) (.inl (by norm_num [spread, coordOf, fieldOf, entry, loneNodes]))
    (loneHeld_fixed 0 (by omega)) (loneHeld_fixed 1 (by omega)) (loneHeld_fixed 2 (by omega)))
  obtain ⟨bc, s, s'⟩ := h.setups
  have hd := det_ne_zero_of_stable s hst
  have hpos : 0 < neq := Nat.zero_lt_of_lt (free_entry s.eq (i := 3) (j := 0) ⟨by norm_num, 0, by simp [loneHeld, entry], by norm_num⟩).2
  choose X hX using fun j => cramer_static hd fun i => Mg i j
  obtain ⟨u, hu⟩ := cramer_static hd (Mg.mulVec fun _ => 1)
  exact ⟨_, Kg, Mg, [a], μs, w, φ, X, u, fun _ => 1, h, hm, fun h => one_ne_zero (congrFun h ⟨0, hpos⟩),
    fun k => ((C178_user_dunkerley h (solid_elastic hb) hst hm cramerR_ok cramerR_ok hX).2 k).1,
    (C178_user_iteration h (solid_elastic hb) hst hm cramerR_ok cramerR_ok hu).1⟩

end SolidsPy
