import Verif.Props.Inexact
import Verif.Props.UserEnergy
import Verif.Props.FrameSplit
import Verif.Props.FrameModes

/-! # C166: inexact solvers in the analyses of frames and of models made of the user's own elements

The counterpart of C162 for `frameRun` (three degrees of freedom per node) and `userRun` (any number of them, any element routine, so
also the library's solid and axisymmetric elements). -/

set_option linter.unusedSectionVars false

namespace SolidsPy
open Spec Assem

section
variable {K : Type} [Field K] [LinearOrder K] [IsStrictOrderedRing K] [FloorRing K]
variable {fn : ℤ → Uel K → Prop} {cons mats nodes : Table K} {elements : List (List ℤ)} {nd : ℕ} {ms : List (Member K)}
  {run : Sol.Solver K → Sol.Solver K → Bool → Table K → Py (Table K)}

/-- The assembled matrix is determined by the members. -/
theorem setup_unique {neq : ℕ} {bc : List (List ℤ)} {Kg Kg' : Matrix (Fin neq) (Fin neq) K}
    (s : Setup fn cons elements mats nodes nd neq bc Kg ms) (s' : Setup fn cons elements mats nodes nd neq bc Kg' ms) : Kg = Kg' := by
  refine Matrix.ext_of_mulVec_single fun j => ?_
  obtain ⟨full, h6, _⟩ := C15_constrained_zero s.eq s.valid (Pi.single j (1 : K))
  have hc := completes_of_completeDisp h6
  funext i
  obtain ⟨p, k, hf, hr⟩ := exists_free s.eq i.2
  have hi : DofEq bc neq p k i := ⟨i, by rw [(free_entry s.eq hf).1, hr], by omega, i.2, Or.inl rfl⟩
  rw [s.mul _ _ hc p k i hf hi, s'.mul _ _ hc p k i hf hi]

/-- The solver used and its answer are all that varies between the runs on one structure. -/
def Shared (fn : ℤ → Uel K → Prop) (cons : Table K) (elements : List (List ℤ)) (mats nodes : Table K) (nd : ℕ) (ms : List (Member K))
    (run : Sol.Solver K → Sol.Solver K → Bool → Table K → Py (Table K)) : Prop :=
  cons.length = nodes.length ∧
  ∃ neq bc, ∃ Kg : Matrix (Fin neq) (Fin neq) K, Setup fn cons elements mats nodes nd neq bc Kg ms ∧
    ∀ sp de sparse L full, run sp de sparse L = .ok full ↔ ∃ rhs x, loadasem L bc neq nd = .ok rhs ∧
      (if sparse then sp else de) neq Kg rhs = .ok x ∧ Post.completeDisp bc nodes.length x nd = .ok full

/-- What is claimed of a rounding analysis of a structure. -/
structure Spec.Reliable (cons nodes : Table K) (nd : ℕ) (ms : List (Member K))
    (run : Sol.Solver K → Sol.Solver K → Bool → Table K → Py (Table K)) : Prop where
  /-- A solver that leaves a residual leaves forces out of balance by no more. -/
  residual : ∀ (ε : K) sp de sparse L full, SolverWithin ε (if sparse then sp else de) → run sp de sparse L = .ok full →
    NearEquilibrium cons nd L ms ε (fieldOf full)
  /-- Small unbalanced forces mean small errors, whatever the solver returned. -/
  error : ∃ C : K, 0 ≤ C ∧ ∀ sp de sparse L full (ε : K) (V : ℕ → ℕ → K), run sp de sparse L = .ok full →
    Equilibrium cons nd L ms V → NearEquilibrium cons nd L ms ε (fieldOf full) → 0 ≤ ε →
    ∀ p j, p < nodes.length → j < nd → |fieldOf full p j - V p j| ≤ C * ε
  /-- A backward stable solver makes an error of a multiple of its unit. -/
  condition : ∃ κ : K, 0 ≤ κ ∧ ∀ (η : K) sp de sparse L full (B : K) (V : ℕ → ℕ → K), 0 ≤ η → κ * η < 1 →
    BackwardStable η (if sparse then sp else de) → run sp de sparse L = .ok full → Equilibrium cons nd L ms V →
    (∀ p j, p < nodes.length → j < nd → |V p j| ≤ B) →
    ∀ p j, p < nodes.length → j < nd → |fieldOf full p j - V p j| ≤ κ * η / (1 - κ * η) * B
  /-- Every tolerance is met by a small enough unit. -/
  tolerance : ∀ (L : Table K) (V : ℕ → ℕ → K) (ε : K), Equilibrium cons nd L ms V → 0 < ε →
    ∃ η > 0, ∀ sp de sparse full, BackwardStable η (if sparse then sp else de) → run sp de sparse L = .ok full →
      ∀ p j, p < nodes.length → j < nd → |fieldOf full p j - V p j| ≤ ε
  /-- Two runs, sparse or dense, with whatever solvers, differ by no more than a multiple of their unbalanced forces. -/
  agree : ∃ C : K, 0 ≤ C ∧ ∀ sp de sparse sp' de' sparse' L full full' (ε ε' : K), run sp de sparse L = .ok full →
    run sp' de' sparse' L = .ok full' → NearEquilibrium cons nd L ms ε (fieldOf full) →
    NearEquilibrium cons nd L ms ε' (fieldOf full') → 0 ≤ ε → 0 ≤ ε' →
    ∀ p j, p < nodes.length → j < nd → |fieldOf full p j - fieldOf full' p j| ≤ C * (ε + ε')
  /-- A run returns as soon as the solver answers nonsingular systems and the loads can be placed. -/
  returns : ∀ sp de sparse L, (∀ n (M : Matrix (Fin n) (Fin n) K) b, M.det ≠ 0 → ∃ x, (if sparse then sp else de) n M b = .ok x) →
    (∀ r ∈ L, nd + 1 ≤ r.length ∧ ∃ p, Names nodes.length r p) → ∃ full, run sp de sparse L = .ok full

theorem reliable (h : Shared fn cons elements mats nodes nd ms run) (hst : Stable cons nd ms) : Reliable cons nodes nd ms run := by
  obtain ⟨hsz, neq, bc, Kg, s, hrun⟩ := h
  have hdet := det_ne_zero_of_stable s hst
  have dof : ∀ i : Fin neq, ∃ p j, Free cons nd p j ∧ DofEq bc neq p j i := fun i => by
    obtain ⟨p, j, hf, hr⟩ := exists_free s.eq i.2
    exact ⟨p, j, hf, i, by rw [(free_entry s.eq hf).1, hr], by omega, i.2, Or.inl rfl⟩
  have compl : ∀ {x : Fin neq → K} {full}, Post.completeDisp bc nodes.length x nd = .ok full →
      Completes cons bc nd neq x (fieldOf full) := fun h6 => by
    rw [← hsz] at h6
    exact completes_of_completeDisp h6
  have compare : ∀ {x v : Fin neq → K} {U V : ℕ → ℕ → K} {c : K}, Completes cons bc nd neq x U → Completes cons bc nd neq v V → 0 ≤ c →
      (∀ i, |x i - v i| ≤ c) → ∀ p j, p < nodes.length → j < nd → |U p j - V p j| ≤ c := by
    intro x v U V c hx hv hc hb p j hp hj
    rw [← hsz] at hp
    rcases free_or_fixed s.eq s.valid hp hj with ⟨_, i, hi, _⟩ | ⟨_, _, hno⟩
    · rw [(hx p hp j hj).1 i hi, (hv p hp j hj).1 i hi]
      exact hb i
    · rw [(hx p hp j hj).2 hno, (hv p hp j hj).2 hno, sub_self, abs_zero]
      exact hc
  have cond : ∃ κ : K, 0 ≤ κ ∧ ∀ (η : K) sp de sparse L full (B : K) (V : ℕ → ℕ → K), 0 ≤ η → κ * η < 1 →
      BackwardStable η (if sparse then sp else de) → run sp de sparse L = .ok full → Equilibrium cons nd L ms V →
      (∀ p j, p < nodes.length → j < nd → |V p j| ≤ B) →
      ∀ p j, p < nodes.length → j < nd → |fieldOf full p j - V p j| ≤ κ * η / (1 - κ * η) * B := by
    obtain ⟨κ, hκ, hb⟩ := perturbed_bound hdet
    refine ⟨κ, hκ, fun η sp de sparse L full B V hη hlt hsp h hV hB p j hp hj => ?_⟩
    obtain ⟨rhs, x, h3, h4, h6⟩ := (hrun ..).1 h
    obtain ⟨v, hv⟩ := exists_reduced s.eq s.valid hV.1
    have hsol := (equilibrium_iff s h3 hv).1 hV
    obtain ⟨x', E, hx', hE1, hE2⟩ := hsp neq Kg rhs hdet
    rw [h4, Except.ok.injEq] at hx'
    subst hx'
    have hvB : ∀ i, |v i| ≤ B := by
      intro i
      obtain ⟨p, j, hf, hi⟩ := dof i
      rw [← (hv p (free_lt hf) j hf.1).1 i hi]
      exact hB p j (by rw [← hsz]; exact free_lt hf) hf.1
    have hB0 := (abs_nonneg _).trans (hB p j hp hj)
    exact compare (compl h6) hv (mul_nonneg (div_nonneg (mul_nonneg hκ hη) (by linarith)) hB0)
      (hb η E x v B hη hlt hE2 (by rw [hE1, hsol]) hvB) p j hp hj
  have err : ∃ C : K, 0 ≤ C ∧ ∀ sp de sparse L full (ε : K) (V : ℕ → ℕ → K), run sp de sparse L = .ok full →
      Equilibrium cons nd L ms V → NearEquilibrium cons nd L ms ε (fieldOf full) → 0 ≤ ε →
      ∀ p j, p < nodes.length → j < nd → |fieldOf full p j - V p j| ≤ C * ε := by
    obtain ⟨C, hC, hb⟩ := inverse_bound hdet
    refine ⟨C, hC, fun sp de sparse L full ε V h hV hN hε p j hp hj => ?_⟩
    obtain ⟨rhs, x, h3, h4, h6⟩ := (hrun ..).1 h
    obtain ⟨v, hv⟩ := exists_reduced s.eq s.valid hV.1
    have hsol := (equilibrium_iff s h3 hv).1 hV
    have hr : ∀ i, |Kg.mulVec (x - v) i| ≤ ε := by
      intro i
      obtain ⟨p, j, hf, hi⟩ := dof i
      have := hN.2 p j _ hf (rhs_isLoad s.eq s.valid h3 hf hi)
      rw [Matrix.mulVec_sub, Pi.sub_apply, hsol, s.mul x _ (compl h6) p j i hf hi]
      exact this
    exact compare (compl h6) hv (mul_nonneg hC hε) (hb _ _ hr) p j hp hj
  refine ⟨?_, err, cond, ?_, ?_, ?_⟩
  · intro ε sp de sparse L full hsp h
    obtain ⟨rhs, x, h3, h4, h6⟩ := (hrun ..).1 h
    obtain ⟨x', hx', hsol⟩ := hsp neq Kg rhs hdet
    rw [h4, Except.ok.injEq] at hx'
    subst hx'
    have hc := compl h6
    refine ⟨completes_admissible s.eq s.valid hc, fun p j y hf hy => ?_⟩
    rcases free_or_fixed s.eq s.valid (free_lt hf) hf.1 with ⟨_, i, hi, _⟩ | ⟨hnf, _⟩
    · rw [← s.mul x _ hc p j i hf hi, isLoad_unique hy (rhs_isLoad s.eq s.valid h3 hf hi)]
      exact hsol i
    · exact absurd hf hnf
  · intro L V ε hV hε
    obtain ⟨κ, hκ, hb⟩ := cond
    set B : K := ∑ p ∈ Finset.range nodes.length, ∑ j ∈ Finset.range nd, |V p j| with hBdef
    have hB0 : 0 ≤ B := Finset.sum_nonneg fun _ _ => Finset.sum_nonneg fun _ _ => abs_nonneg _
    have hB : ∀ p j, p < nodes.length → j < nd → |V p j| ≤ B := fun p j hp hj =>
      (Finset.single_le_sum (f := fun j => |V p j|) (fun _ _ => abs_nonneg _) (Finset.mem_range.2 hj)).trans
        (Finset.single_le_sum (f := fun p => ∑ j ∈ Finset.range nd, |V p j|) (fun _ _ => Finset.sum_nonneg fun _ _ => abs_nonneg _)
          (Finset.mem_range.2 hp))
    have hpos : 0 < (κ + 1) * (B + ε) := by positivity
    refine ⟨ε / ((κ + 1) * (B + ε)), by positivity, fun sp de sparse full hsp h p j hp hj => ?_⟩
    have h1 : κ * (ε / ((κ + 1) * (B + ε))) ≤ ε / (B + ε) := by
      rw [mul_div_assoc', div_le_div_iff₀ hpos (by positivity)]
      nlinarith [mul_nonneg hB0 hε.le, sq_nonneg ε, sq_nonneg (B + ε), mul_pos hε (by positivity : 0 < B + ε)]
    have h1' : κ * (ε / ((κ + 1) * (B + ε))) < 1 := by
      rw [mul_div_assoc', div_lt_one hpos]
      nlinarith [mul_nonneg hκ hB0]
    refine (hb _ sp de sparse L full B V (by positivity) h1' hsp h hV hB p j hp hj).trans ?_
    set q := κ * (ε / ((κ + 1) * (B + ε))) with hq
    have h2 : q * (B + ε) ≤ ε := by rwa [le_div_iff₀ (by positivity)] at h1
    rw [div_mul_eq_mul_div, div_le_iff₀ (by linarith)]
    linarith
  · obtain ⟨C, hC, hb⟩ := err
    refine ⟨C, hC, fun sp de sparse sp' de' sparse' L full full' ε ε' h h' hN hN' hε hε' p j hp hj => ?_⟩
    obtain ⟨rhs, x, h3, h4, h6⟩ := (hrun ..).1 h
    obtain ⟨V, hV⟩ : ∃ V, Equilibrium cons nd L ms V := by
      obtain ⟨full, h6, _⟩ := C15_constrained_zero s.eq s.valid (Kg⁻¹.mulVec rhs)
      refine ⟨_, (equilibrium_iff s h3 (completes_of_completeDisp h6)).2 ?_⟩
      rw [Matrix.mulVec_mulVec, Matrix.mul_nonsing_inv _ (isUnit_iff_ne_zero.2 hdet), Matrix.one_mulVec]
    have e1 := hb _ _ _ _ _ _ _ h hV hN hε p j hp hj
    have e2 := hb _ _ _ _ _ _ _ h' hV hN' hε' p j hp hj
    have := abs_sub_le (fieldOf full p j) (V p j) (fieldOf full' p j)
    rw [abs_sub_comm (V p j)] at this
    linarith
  · intro sp de sparse L hsp hL
    obtain ⟨rhs, h3⟩ := C13_load_success (loads := L) s.eq s.valid (by rw [hsz]; exact hL)
    obtain ⟨x, h4⟩ := hsp neq Kg rhs hdet
    obtain ⟨full, h6, _⟩ := C15_constrained_zero s.eq s.valid x
    rw [hsz] at h6
    exact ⟨full, (hrun ..).2 ⟨rhs, x, h3, h4, h6⟩⟩

theorem frame_shared {sq : K → K} (hf : Frame cons nodes elements) (hms : List.Forall₂ (IsMember (Routine sq) mats nodes) elements ms) :
    Shared (Routine sq) cons elements mats nodes 3 ms fun sp de sparse L => frameRun sq sp de sparse cons elements mats nodes L := by
  obtain ⟨op, bc, neq, Kg, Mg, h1, h2⟩ := C117_assembled hf hms true
  obtain ⟨op', bc', neq', Kg', Mg', h1', h2'⟩ := C117_assembled hf hms false
  rw [h1, Except.ok.injEq, Prod.mk.injEq, Prod.mk.injEq] at h1'
  obtain ⟨rfl, rfl, rfl⟩ := h1'
  obtain ⟨m1, s⟩ := frame_setup hf h1 h2
  obtain rfl := frame_members_unique hms s.mem
  obtain ⟨m2, s'⟩ := frame_setup hf h1 h2'
  obtain rfl := frame_members_unique hms s'.mem
  obtain rfl := setup_unique s s'
  refine ⟨hf.size, neq, bc, Kg, s, fun sp de sparse L full => ?_⟩
  rw [frameRun_ok]
  have h2'' : ∃ Mg, assembler (Uel.eleFun sq) elements mats nodes neq op sparse = .ok (Kg, Mg) := by
    cases sparse
    · exact ⟨_, h2'⟩
    · exact ⟨_, h2⟩
  obtain ⟨M, h2''⟩ := h2''
  constructor
  · rintro ⟨op', bc', neq', K', M', rhs, x, a1, a2, a3⟩
    rw [h1, Except.ok.injEq, Prod.mk.injEq, Prod.mk.injEq] at a1
    obtain ⟨rfl, rfl, rfl⟩ := a1
    rw [h2'', Except.ok.injEq, Prod.mk.injEq] at a2
    obtain ⟨rfl, rfl⟩ := a2
    exact ⟨rhs, x, a3⟩
  · rintro ⟨rhs, x, a3⟩
    exact ⟨op, bc, neq, Kg, M, rhs, x, h1, h2'', a3⟩

theorem user_shared {f : Uel K} {tab : ℤ → Py (Uel K)} {n m : ℕ} {count : ℤ → Py ℕ} (hf : ElementOf nd n f)
    (hu : UserModel nd n cons nodes elements) (hc : Counts count (n * nd) elements)
    (h0 : 0 < n * nd) (hm : n * nd ≤ m) (hms : List.Forall₂ (Describes f mats nodes) elements ms) :
    Shared (fun _ g => g = f) cons elements mats nodes nd ms
      fun sp de sparse L => userRun tab f nd m count sp de sparse cons elements mats nodes L := by
  obtain ⟨op, bc, neq, Kg, Mg, h1, h2⟩ := C135_assembled (tab := tab) hf hu hc h0 hm hms true
  obtain ⟨op', bc', neq', Kg', Mg', h1', h2'⟩ := C135_assembled (tab := tab) hf hu hc h0 hm hms false
  rw [h1, Except.ok.injEq, Prod.mk.injEq, Prod.mk.injEq] at h1'
  obtain ⟨rfl, rfl, rfl⟩ := h1'
  obtain ⟨m1, s⟩ := user_setup hf hu hc h0 hm h1 h2
  obtain rfl := describes_all_unique hms s.mem
  obtain ⟨m2, s'⟩ := user_setup hf hu hc h0 hm h1 h2'
  obtain rfl := describes_all_unique hms s'.mem
  obtain rfl := setup_unique s s'
  refine ⟨hu.size, neq, bc, Kg, s, fun sp de sparse L full => ?_⟩
  rw [userRun_ok]
  have h2'' : ∃ Mg, assembler tab elements mats nodes neq op sparse (some f) = .ok (Kg, Mg) := by
    cases sparse
    · exact ⟨_, h2'⟩
    · exact ⟨_, h2⟩
  obtain ⟨M, h2''⟩ := h2''
  constructor
  · rintro ⟨op', bc', neq', K', M', rhs, x, a1, a2, a3⟩
    rw [h1, Except.ok.injEq, Prod.mk.injEq, Prod.mk.injEq] at a1
    obtain ⟨rfl, rfl, rfl⟩ := a1
    rw [h2'', Except.ok.injEq, Prod.mk.injEq] at a2
    obtain ⟨rfl, rfl⟩ := a2
    exact ⟨rhs, x, a3⟩
  · rintro ⟨rhs, x, a3⟩
    exact ⟨op, bc, neq, Kg, M, rhs, x, h1, h2'', a3⟩

/-- C166.  The analysis of a stable frame with a rounding solver. -/
theorem C166_frames {sq : K → K} (hf : Frame cons nodes elements) (hms : List.Forall₂ (IsMember (Routine sq) mats nodes) elements ms)
    (hst : Stable cons 3 ms) :
    Reliable cons nodes 3 ms fun sp de sparse L => frameRun sq sp de sparse cons elements mats nodes L :=
  reliable (frame_shared hf hms) hst

/-- C166.  The analysis of a stable model of the user's own elements with a rounding solver. -/
theorem C166_user {f : Uel K} {tab : ℤ → Py (Uel K)} {n m : ℕ} {count : ℤ → Py ℕ} (hf : ElementOf nd n f)
    (hu : UserModel nd n cons nodes elements) (hc : Counts count (n * nd) elements)
    (h0 : 0 < n * nd) (hm : n * nd ≤ m) (hms : List.Forall₂ (Describes f mats nodes) elements ms) (hst : Stable cons nd ms) :
    Reliable cons nodes nd ms fun sp de sparse L => userRun tab f nd m count sp de sparse cons elements mats nodes L :=
  reliable (user_shared hf hu hc h0 hm hms) hst

end

/-! ## Cases -/

section demo

/-- Case for C166: with rounding small enough the frame of the test is solved within a billionth, sparse or dense. -/
example (sparse : Bool) : ∃ η > 0, ∃ sp full, BackwardStable η sp ∧
    frameRun Real.sqrt sp sp sparse testFrame.1 testFrame.2.1 testFrame.2.2.1 testFrame.2.2.2.1 testFrame.2.2.2.2 = .ok full ∧
      |fieldOf full 1 0 + 181569276 / 28874167400125| ≤ 1 / 10 ^ 9 ∧ |fieldOf full 1 2 + 507505867191 / 3840264264216625| ≤ 1 / 10 ^ 9 := by
  have hb := testFrame_beams
  obtain ⟨ms, hk⟩ : ∃ ks, List.Forall₂ (IsMember (Routine Real.sqrt) testFrame.2.2.1 testFrame.2.2.2.1) testFrame.2.1 ks := by
    obtain ⟨_, _, _, _, h0⟩ := hb [0, 8, 0, 0, 1] (by simp [testFrame])
    obtain ⟨_, _, _, _, h1⟩ := hb [1, 8, 0, 1, 2] (by simp [testFrame])
    obtain ⟨m0, h0⟩ := h0.exists_member sqrtFn_real
    obtain ⟨m1, h1⟩ := h1.exists_member sqrtFn_real
    exact ⟨[m0, m1], .cons h0 (.cons h1 .nil)⟩
  have hst := testFrame_stable hk
  have hr := C166_frames testFrame_frame hk hst
  obtain ⟨full, h1, e0, e1, e2⟩ := testFrame_solved sparse
  have hV := frameRun_equilibrium testFrame_frame hk hst cramerR_ok cramerR_ok h1
  obtain ⟨η, hη, ht⟩ := hr.tolerance _ _ (1 / 10 ^ 9) hV (by norm_num)
  have hsp : BackwardStable η (if sparse then shrinkR η else shrinkR η) := by
    rw [ite_self]
    exact shrinkR_stable hη.le
  have hname : Names 3 [(1 : ℝ), -12000, -24000, -6000] 1 := (names_nat (p := 1) (by norm_num) (by simp)).2 rfl
  obtain ⟨full', h2⟩ := hr.returns (shrinkR η) (shrinkR η) sparse testFrame.2.2.2.2 (fun n M b hM => by
    obtain ⟨x, _, hx, _⟩ := hsp n M b hM
    exact ⟨x, hx⟩) (by
      intro L hL
      rw [testFrame, List.mem_singleton] at hL
      subst hL
      exact ⟨le_rfl, 1, hname⟩)
  have t0 := ht _ _ _ _ hsp h2 1 0 (by simp [testFrame]) (by omega)
  have t2 := ht _ _ _ _ hsp h2 1 2 (by simp [testFrame]) (by omega)
  have f0 : fieldOf full 1 0 = -181569276 / 28874167400125 := by simp [fieldOf, e0]
  have f2 : fieldOf full 1 2 = -507505867191 / 3840264264216625 := by simp [fieldOf, e2]
  rw [f0, neg_div, sub_neg_eq_add] at t0
  rw [f2, neg_div, sub_neg_eq_add] at t2
  exact ⟨η, hη, shrinkR η, full', shrinkR_stable hη.le, h2, t0, t2⟩

/-- A solver over the rationals whose answers are too small by the factor `1 + η`. -/
def shrinkQ (η : ℚ) : Sol.Solver ℚ := fun n M b => (cramerSolver n M b).map fun x => (1 + η)⁻¹ • x

theorem shrinkQ_stable {η : ℚ} (hη : 0 ≤ η) : BackwardStable η (shrinkQ η) := by
  intro n M b hM
  have h1 : (1 + η) ≠ 0 := by positivity
  obtain ⟨x, hx, hs⟩ := cramerSolver_ok n M b hM
  refine ⟨(1 + η)⁻¹ • x, η • M, by unfold shrinkQ; rw [hx]; rfl, ?_, fun i j => ?_⟩
  · have : M + η • M = (1 + η) • M := by rw [add_smul, one_smul]
    rw [this, Matrix.mulVec_smul, Matrix.smul_mulVec, smul_smul, inv_mul_cancel₀ h1, one_smul, hs]
  · rw [Matrix.smul_apply, smul_eq_mul, abs_mul, abs_of_nonneg hη]
    refine mul_le_mul_of_nonneg_left ?_ hη
    exact (Finset.single_le_sum (f := fun l => |M i l|) (fun _ _ => abs_nonneg _) (Finset.mem_univ j)).trans
      (Finset.single_le_sum (f := fun k => ∑ l, |M k l|) (fun _ _ => Finset.sum_nonneg fun _ _ => abs_nonneg _) (Finset.mem_univ i))

/-- Case for C166: the body of two tetrahedra is solved within any tolerance. -/
example (tab : ℤ → Py (Uel ℚ)) (sparse : Bool) {ε : ℚ} (hε : 0 < ε) : ∃ ms V, Equilibrium tetCons 3 [[4, 0, 0, 1]] ms V ∧
    ∃ η > 0, ∃ full, BackwardStable η (shrinkQ η) ∧ userRun tab Uel.elastTet4 3 12 (fun _ => .ok 12) (shrinkQ η) (shrinkQ η) sparse tetCons
      tetEls tetMats tetNodes [[4, 0, 0, 1]] = .ok full ∧ ∀ p j, p < 5 → j < 3 → |fieldOf full p j - V p j| ≤ ε := by
  obtain ⟨ms, h, h1, h2, h3⟩ := tet_case
  have hL : ∀ L ∈ [[(4 : ℚ), 0, 0, 1]], 3 + 1 ≤ L.length ∧ ∃ p, Names tetNodes.length L p := by
    intro L hL
    rw [List.mem_singleton] at hL
    subst hL
    exact ⟨by simp, 4, (names_nat (p := 4) (q := 4) (by decide) (by simp)).2 rfl⟩
  obtain ⟨_, _, hV⟩ := C135_solved (tab := tab) (loads := [[4, 0, 0, 1]]) h.element h.model h.counts h.some_dofs h.room h.members h3
    h.sparse h.dense sparse hL
  have hr := C166_user (tab := tab) h.element h.model h.counts h.some_dofs h.room h.members h3
  obtain ⟨η, hη, ht⟩ := hr.tolerance _ _ ε hV hε
  have hsp : BackwardStable η (if sparse then shrinkQ η else shrinkQ η) := by
    rw [ite_self]
    exact shrinkQ_stable hη.le
  obtain ⟨full', r⟩ := hr.returns (shrinkQ η) (shrinkQ η) sparse [[4, 0, 0, 1]] (fun n M b hM => by
    obtain ⟨x, _, hx, _⟩ := hsp n M b hM
    exact ⟨x, hx⟩) hL
  exact ⟨ms, _, hV, η, hη, full', shrinkQ_stable hη.le, r, fun p j hp hj => ht _ _ _ _ hsp r p j hp hj⟩

end demo

end SolidsPy
