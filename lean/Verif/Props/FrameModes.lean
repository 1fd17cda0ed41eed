import Verif.Props.BeamLine
import Verif.Props.BeamEnergy
import Verif.Props.Compare

/-! # C122: how frames of beams vibrate -/

set_option linter.unusedSectionVars false

namespace SolidsPy
open Spec Assem Matrix

section
variable {K : Type} [Field K] [LinearOrder K] [IsStrictOrderedRing K] [FloorRing K]
variable {sq : K → K} {cons mats nodes : Table K} {elements : List (List ℤ)} {el : List ℤ} {m μ : Member K}
  {op bc : List (List ℤ)} {neq : ℕ} {a b : ℕ} {X : Matrix (Fin 2) (Fin 2) K} {L EI EA γ ν : K} {U V : ℕ → ℕ → K}

/-- The row `el` is a beam of either kind from node `a` at `X 0` to node `b` at `X 1`, with bending stiffness `EI`, axial stiffness
`EA` and masses per length `γ` across and `ν` along it; the beam without axial deformation (type 7) has neither axial stiffness nor
axial mass. -/
structure Spec.IsBeam (mats nodes : Table K) (el : List ℤ) (a b : ℕ) (X : Matrix (Fin 2) (Fin 2) K) (L EI EA γ ν : K) : Prop where
  ends : List.Forall₂ (Resolves nodes.length) (el.drop 3) [a, b]
  first : ∃ id, nodes[a]? = some [id, X 0 0, X 0 1]
  second : ∃ id, nodes[b]? = some [id, X 1 0, X 1 1]
  length : IsLength X L
  material : ∃ mi, ∃ q : ℕ, ∃ params, el[2]? = some mi ∧ Resolves mats.length mi q ∧ mats[q]? = some params ∧
    ((el[1]? = some 7 ∧ EA = 0 ∧ ν = 0 ∧ ∃ E I, BeamUParams params E I γ ∧ EI = E * I) ∨
      (el[1]? = some 8 ∧ ν = γ ∧ ∃ E I A, BeamParams params E I A γ ∧ EI = E * I ∧ EA = E * A))

/-- Displacements and rotations of the two ends. -/
def Spec.endsOf (a b : ℕ) (U : ℕ → ℕ → K) : Fin 2 × Fin 3 → K := fun q => if q.1 = 0 then U a q.2 else U b q.2

/-- The cubic deflection of the beam. -/
noncomputable def deflection (a b : ℕ) (X : Matrix (Fin 2) (Fin 2) K) (L : K) (U : ℕ → ℕ → K) : Polynomial K :=
  hermite L (across X L (endsOf a b U) 0) (U a 2) (across X L (endsOf a b U) 1) (U b 2)

/-- The linear axial displacement of the beam. -/
noncomputable def extension (a b : ℕ) (X : Matrix (Fin 2) (Fin 2) K) (L : K) (U : ℕ → ℕ → K) : Polynomial K :=
  Polynomial.C (along X L (endsOf a b U) 0) +
    Polynomial.C ((along X L (endsOf a b U) 1 - along X L (endsOf a b U) 0) / L) * Polynomial.X

theorem deflection_bends (hL : L ≠ 0) (U : ℕ → ℕ → K) : BendsTo X L (endsOf a b U) (deflection a b X L U) := by
  obtain ⟨h0, h1, h2, h3, h4⟩ := hermite_spec hL (across X L (endsOf a b U) 0) (U a 2) (across X L (endsOf a b U) 1) (U b 2)
  exact ⟨h0, h1.symm, h2.symm, h3.symm, h4.symm⟩

theorem extension_stretches (hL : L ≠ 0) (U : ℕ → ℕ → K) : StretchesTo X L (endsOf a b U) (extension a b X L U) := by
  unfold extension
  exact ⟨by compute_degree, by simp, by simp; field_simp; ring⟩

/-- The form of a two-node element with three degrees of freedom per node. -/
theorem form_three (hn : m.nodes = [a, b]) {kl : NdArr K} (hk : m.k = cell kl) {k : Matrix (Fin 2 × Fin 3) (Fin 2 × Fin 3) K}
    (hh : Holds kl k) (V U : ℕ → ℕ → K) : m.form 3 V U = endsOf a b V ⬝ᵥ k.mulVec (endsOf a b U) := by
  unfold Member.form dotProduct
  rw [hn, List.length_cons, List.length_cons, List.length_nil, Finset.sum_range, Fintype.sum_prod_type]
  refine Finset.sum_congr rfl fun c _ => ?_
  rw [Finset.sum_range]
  refine Finset.sum_congr rfl fun j _ => ?_
  have := force_three hn hk hh U (c, j)
  dsimp only at this
  rw [this]
  congr 1
  fin_cases c <;> rfl

theorem IsBeam.rows (h : IsBeam mats nodes el a b X L EI EA γ ν) {ns : List ℕ} {rows : Table K}
    (a5 : List.Forall₂ (Resolves nodes.length) (el.drop 3) ns) (a6 : List.Forall₂ (fun p row => nodes[p]? = some row) ns rows) :
    ns = [a, b] ∧ rows.map (List.drop 1) = matRows X := by
  obtain rfl := forall₂_resolves_unique a5 h.ends
  obtain ⟨ia, ha⟩ := h.first
  obtain ⟨ib, hb⟩ := h.second
  refine ⟨rfl, ?_⟩
  cases a6 with
  | cons b1 t1 =>
    cases t1 with
    | cons b2 t2 =>
      cases t2
      rw [ha, Option.some.injEq] at b1
      rw [hb, Option.some.injEq] at b2
      rw [← b1, ← b2, matRows_two]
      rfl

/-- Energy of a beam: that of its cubic and linear functions. -/
theorem Spec.IsBeam.spring (hs : SqrtFn sq) (h : IsBeam mats nodes el a b X L EI EA γ ν) (hm : IsMember (Routine sq) mats nodes el m) :
    m.nodes = [a, b] ∧ ∀ V U, m.form 3 V U = EI * bendInt L (deflection a b X L V) (deflection a b X L U) +
      EA * ((extension a b X L V).coeff 1 * (extension a b X L U).coeff 1 * L) := by
  obtain ⟨ty, mi, params, rows, f, kl, ml, a1, a2, ⟨q, a3, a4⟩, a5, a6, a7, a8, a9⟩ := hm
  obtain ⟨mi', q', params', c1, c2, c3, c4⟩ := h.material
  rw [c1, Option.some.injEq] at a2
  subst a2
  obtain rfl := resolves_unique c2 a3
  rw [c3, Option.some.injEq] at a4
  subst a4
  obtain ⟨hn, hX⟩ := IsBeam.rows h a5 a6
  rw [hX] at a8
  have hne := h.length.1.ne'
  refine ⟨hn, fun V U => ?_⟩
  have bV := deflection_bends (a := a) (b := b) (X := X) hne V
  have bU := deflection_bends (a := a) (b := b) (X := X) hne U
  have sV := extension_stretches (a := a) (b := b) (X := X) hne V
  have sU := extension_stretches (a := a) (b := b) (X := X) hne U
  rcases c4 with ⟨e7, rfl, -, E, I, hp, rfl⟩ | ⟨e8, -, E, I, A, hp, rfl, rfl⟩
  · rw [e7, Option.some.injEq] at a1
    subst a1
    simp only [Routine, Uel.eleFun, Except.ok.injEq] at a7
    subst a7
    obtain ⟨A', B', d1, d2, -⟩ := (beamU_returns hs h.length hp).2 ⟨rfl, rfl⟩
    rw [d1, Except.ok.injEq, Prod.mk.injEq] at a8
    obtain ⟨rfl, -⟩ := a8
    rw [form_three hn a9 d2, triple_form, bV.frameU, bU.frameU, coreU_cubic bV.cubic bU.cubic hne]
    ring
  · rw [e8, Option.some.injEq] at a1
    subst a1
    simp only [Routine, Uel.eleFun, Except.ok.injEq] at a7
    subst a7
    obtain ⟨A', B', d1, d2, -⟩ := (beam_returns hs h.length hp).2 ⟨rfl, rfl⟩
    rw [d1, Except.ok.injEq, Prod.mk.injEq] at a8
    obtain ⟨rfl, -⟩ := a8
    rw [form_three hn a9 d2, triple_form, bV.frame sV, bU.frame sU, core_cubic bV.cubic bU.cubic sV.linear sU.linear hne hp.1]

/-- Kinetic energy of a beam. -/
theorem Spec.IsBeam.mass (hs : SqrtFn sq) (h : IsBeam mats nodes el a b X L EI EA γ ν) (hm : IsMember (MassRoutine sq) mats nodes el m) :
    m.nodes = [a, b] ∧ ∀ V U, m.form 3 V U = γ * prodInt L (deflection a b X L V) (deflection a b X L U) +
      ν * prodInt L (extension a b X L V) (extension a b X L U) := by
  obtain ⟨ty, mi, params, rows, f, kl, ml, a1, a2, ⟨q, a3, a4⟩, a5, a6, ⟨f0, a7, rfl⟩, a8, a9⟩ := hm
  have a8 := swapped_ok.1 a8
  obtain ⟨mi', q', params', c1, c2, c3, c4⟩ := h.material
  rw [c1, Option.some.injEq] at a2
  subst a2
  obtain rfl := resolves_unique c2 a3
  rw [c3, Option.some.injEq] at a4
  subst a4
  obtain ⟨hn, hX⟩ := IsBeam.rows h a5 a6
  rw [hX] at a8
  have hne := h.length.1.ne'
  refine ⟨hn, fun V U => ?_⟩
  have bV := deflection_bends (a := a) (b := b) (X := X) hne V
  have bU := deflection_bends (a := a) (b := b) (X := X) hne U
  have sV := extension_stretches (a := a) (b := b) (X := X) hne V
  have sU := extension_stretches (a := a) (b := b) (X := X) hne U
  rcases c4 with ⟨e7, -, rfl, E, I, hp, rfl⟩ | ⟨e8, rfl, E, I, A, hp, rfl, rfl⟩
  · rw [e7, Option.some.injEq] at a1
    subst a1
    simp only [Uel.eleFun, Except.ok.injEq] at a7
    subst a7
    obtain ⟨A', B', d1, -, d2⟩ := (beamU_returns hs h.length hp).2 ⟨rfl, rfl⟩
    rw [d1, Except.ok.injEq, Prod.mk.injEq] at a8
    obtain ⟨-, rfl⟩ := a8
    rw [form_three hn a9 d2, triple_form, bV.frameU, bU.frameU, massU_cubic bV.cubic bU.cubic]
    ring
  · rw [e8, Option.some.injEq] at a1
    subst a1
    simp only [Uel.eleFun, Except.ok.injEq] at a7
    subst a7
    obtain ⟨A', B', d1, -, d2⟩ := (beam_returns hs h.length hp).2 ⟨rfl, rfl⟩
    rw [d1, Except.ok.injEq, Prod.mk.injEq] at a8
    obtain ⟨-, rfl⟩ := a8
    rw [form_three hn a9 d2, triple_form, bV.frame sV, bU.frame sU, mass_cubic bV.cubic bU.cubic sV.linear sU.linear]
    ring

/-- A described beam is accepted. -/
theorem Spec.IsBeam.exists_member (hs : SqrtFn sq) (h : IsBeam mats nodes el a b X L EI EA γ ν) :
    ∃ m, IsMember (Routine sq) mats nodes el m := by
  obtain ⟨mi, q, params, c1, c2, c3, c4⟩ := h.material
  obtain ⟨ia, ha⟩ := h.first
  obtain ⟨ib, hb⟩ := h.second
  have hX : [[ia, X 0 0, X 0 1], [ib, X 1 0, X 1 1]].map (List.drop 1) = matRows X := by
    rw [matRows_two]
    rfl
  rcases c4 with ⟨e7, -, -, E, I, hp, -⟩ | ⟨e8, -, E, I, A, hp, -⟩
  · obtain ⟨A', B', d1, -⟩ := (beamU_returns hs h.length hp).2 ⟨rfl, rfl⟩
    exact ⟨⟨[a, b], cell A'⟩, 7, mi, params, _, _, A', B', e7, c1, ⟨q, c2, c3⟩, h.ends, .cons ha (.cons hb .nil), rfl,
      by rw [hX]; exact d1, rfl⟩
  · obtain ⟨A', B', d1, -⟩ := (beam_returns hs h.length hp).2 ⟨rfl, rfl⟩
    exact ⟨⟨[a, b], cell A'⟩, 8, mi, params, _, _, A', B', e8, c1, ⟨q, c2, c3⟩, h.ends, .cons ha (.cons hb .nil), rfl,
      by rw [hX]; exact d1, rfl⟩

/-- The integral of a square of a linear function is not negative, and vanishes only with it. -/
theorem bendInt_nonneg (hL : 0 < L) (P : Polynomial K) : 0 ≤ bendInt L P P := by
  have : bendInt L P P = 4 * L * ((P.coeff 2 + 3 / 2 * P.coeff 3 * L) ^ 2 + 3 / 4 * (P.coeff 3 * L) ^ 2) := by
    unfold bendInt
    ring
  rw [this]
  positivity

/-- The integral of the square of a cubic as a sum of squares. -/
theorem prodInt_squares (P : Polynomial K) (L : K) : prodInt L P P =
    L * ((P.coeff 0 + P.coeff 1 * L / 2 + P.coeff 2 * L ^ 2 / 3 + P.coeff 3 * L ^ 3 / 4) ^ 2 +
      (P.coeff 1 * L + P.coeff 2 * L ^ 2 + 9 / 10 * (P.coeff 3 * L ^ 3)) ^ 2 / 12 +
      (P.coeff 2 * L ^ 2 + 3 / 2 * (P.coeff 3 * L ^ 3)) ^ 2 / 180 + (P.coeff 3 * L ^ 3) ^ 2 / 2800) := by
  unfold prodInt
  ring

theorem prodInt_nonneg (hL : 0 < L) (P : Polynomial K) : 0 ≤ prodInt L P P := by
  rw [prodInt_squares]
  positivity

theorem prodInt_zero (hL : 0 < L) {P : Polynomial K} (h : prodInt L P P = 0) (hP : P.natDegree ≤ 3) : P = 0 := by
  rw [prodInt_squares] at h
  have h := (mul_eq_zero.1 h).resolve_left hL.ne'
  generalize hA : P.coeff 0 + P.coeff 1 * L / 2 + P.coeff 2 * L ^ 2 / 3 + P.coeff 3 * L ^ 3 / 4 = A at h
  generalize hB : P.coeff 1 * L + P.coeff 2 * L ^ 2 + 9 / 10 * (P.coeff 3 * L ^ 3) = B at h
  generalize hC : P.coeff 2 * L ^ 2 + 3 / 2 * (P.coeff 3 * L ^ 3) = C at h
  have sA := sq_nonneg A
  have sB := sq_nonneg B
  have sC := sq_nonneg C
  have sD := sq_nonneg (P.coeff 3 * L ^ 3)
  have zero : ∀ {x : K}, x ^ 2 = 0 → x = 0 := fun h => pow_eq_zero_iff (by omega) |>.1 h
  have d : P.coeff 3 * L ^ 3 = 0 := zero (by linarith)
  have hL3 : L ^ 3 ≠ 0 := by positivity
  have hL2 : L ^ 2 ≠ 0 := by positivity
  have d3 : P.coeff 3 = 0 := (mul_eq_zero.1 d).resolve_right hL3
  have c : C = 0 := zero (by linarith)
  have d2 : P.coeff 2 = 0 := by
    rw [c, d3] at hC
    refine (mul_eq_zero.1 (?_ : P.coeff 2 * L ^ 2 = 0)).resolve_right hL2
    linarith
  have b : B = 0 := zero (by linarith)
  have d1 : P.coeff 1 = 0 := by
    rw [b, d3, d2] at hB
    refine (mul_eq_zero.1 (?_ : P.coeff 1 * L = 0)).resolve_right hL.ne'
    linarith
  have a : A = 0 := zero (by linarith)
  have d0 : P.coeff 0 = 0 := by
    rw [a, d3, d2, d1] at hA
    linarith
  rw [cubic_form hP, d0, d1, d2, d3]
  simp


theorem bendInt_symm (P Q : Polynomial K) : bendInt L P Q = bendInt L Q P := by
  unfold bendInt
  ring

theorem prodInt_symm (P Q : Polynomial K) : prodInt L P Q = prodInt L Q P := by
  unfold prodInt
  ring

/-- A beam of positive mass in both directions has no motion without kinetic energy. -/
theorem still_ends (hL : IsLength X L) (h1 : deflection a b X L U = 0) (h2 : extension a b X L U = 0) :
    ∀ j < 3, U a j = 0 ∧ U b j = 0 := by
  have hne := hL.1.ne'
  have hb := deflection_bends (a := a) (b := b) (X := X) hne U
  have hs := extension_stretches (a := a) (b := b) (X := X) hne U
  rw [h1] at hb
  rw [h2] at hs
  have e0 := hb.start
  have e1 := hb.stop
  have t0 := hb.slope
  have t1 := hb.slope'
  have f0 := hs.start
  have f1 := hs.stop
  have l2 := hL.2
  have hLL : L * L ≠ 0 := mul_ne_zero hne hne
  simp only [across, along, endsOf, Polynomial.eval_zero, Polynomial.derivative_zero, if_pos, div_eq_zero_iff, hne, or_false] at e0 e1 f0 f1 t0 t1
  simp only [if_neg (show ¬ (1 : Fin 2) = 0 by decide)] at e1 f1 t1
  have key : ∀ p q c d : K, c * c + d * d ≠ 0 → d * p + c * q = 0 → c * p - d * q = 0 → p = 0 ∧ q = 0 := by
    intro p q c d hcd g1 g2
    constructor
    · exact (mul_eq_zero.1 (by linear_combination d * g1 + c * g2 : (c * c + d * d) * p = 0)).resolve_left hcd
    · exact (mul_eq_zero.1 (by linear_combination c * g1 - d * g2 : (c * c + d * d) * q = 0)).resolve_left hcd
  have hcd : (X 1 0 - X 0 0) * (X 1 0 - X 0 0) + (X 1 1 - X 0 1) * (X 1 1 - X 0 1) ≠ 0 := by
    rw [show (X 1 0 - X 0 0) * (X 1 0 - X 0 0) + (X 1 1 - X 0 1) * (X 1 1 - X 0 1) = L * L by rw [l2]; ring]
    exact hLL
  obtain ⟨a0, a1⟩ := key _ _ _ _ hcd e0 f0
  obtain ⟨b0, b1⟩ := key _ _ _ _ hcd e1 f1
  intro j hj
  rcases (by omega : j = 0 ∨ j = 1 ∨ j = 2) with rfl | rfl | rfl
  · exact ⟨a0, b0⟩
  · exact ⟨a1, b1⟩
  · exact ⟨t0, t1⟩

/-- The mass matrix of a frame is the sum of the mass forms of its beams. -/
theorem frame_mass_setup (hf : Frame cons nodes elements) (h1 : dme cons elements 3 = .ok (op, bc, neq)) {sparse : Bool}
    {Kg Mg : Matrix (Fin neq) (Fin neq) K} (h2 : assembler (Uel.eleFun sq) elements mats nodes neq op sparse = .ok (Kg, Mg)) :
    ∃ ms, Setup (MassRoutine sq) cons elements mats nodes 3 neq bc Mg ms := by
  obtain ⟨loc, opr, a1, a2⟩ := assembler_scatter h2
  refine setup_of_scatter (g := Prod.snd) (fun ty f coord params r hf h => ?_) h1 hf.codes hf.width hf.size (by omega) a1
    (fun i j => (a2 i j).2) ?_
  · rcases hf with hf | ⟨-, hf⟩
    · simp at hf
    · exact ⟨swapped f, r.1, ⟨f, hf, rfl⟩, swapped_ok.2 h⟩
  · intro el hel ty f coord params kl ml hty h hcl hk
    rcases h with h | ⟨_, h⟩
    · simp at h
    · have h5 := eleFun_rows h hk
      obtain ⟨h6, h7⟩ := hf.beams el hel
      rw [hty] at h6
      simp only [Option.some.injEq] at h6
      unfold TypeDofs at h5
      rw [h7]
      refine ⟨by omega, 6, by omega, ?_⟩
      dsimp only
      unfold TypeDofs
      omega

theorem frame_masses_unique {ms ms' : List (Member K)} (h : List.Forall₂ (IsMember (MassRoutine sq) mats nodes) elements ms)
    (h' : List.Forall₂ (IsMember (MassRoutine sq) mats nodes) elements ms') : ms = ms' :=
  masses_unique (d := ⟨nodes, [], elements, mats, []⟩) h h'

end
/-- No admissible motion is without kinetic energy. -/
def Spec.Laden (cons : List (List ℝ)) (nd : ℕ) (ms : List (Member ℝ)) : Prop :=
  ∀ u, Admissible cons nd u → energyOf nd ms u = 0 → ∀ p < cons.length, ∀ j < nd, u p j = 0

/-- The row is a beam of positive mass per length. -/
def Spec.HeavyBeam (mats nodes : Table ℝ) (el : List ℤ) : Prop :=
  ∃ a b X L EI EA γ ν, IsBeam mats nodes el a b X L EI EA γ ν ∧ 0 < γ

/-- The row is a beam whose stiffnesses are not negative. -/
def Spec.ElasticBeam (mats nodes : Table ℝ) (el : List ℤ) : Prop :=
  ∃ a b X L EI EA γ ν, IsBeam mats nodes el a b X L EI EA γ ν ∧ 0 ≤ EI ∧ 0 ≤ EA

/-- A frame of beams of positive mass whose two matrices were assembled, sparse or dense. -/
structure BeamModel (sq : ℝ → ℝ) (cons mats nodes : Table ℝ) (elements : List (List ℤ)) (ks ms : List (Member ℝ)) {neq : ℕ}
    (Kg Mg : Matrix (Fin neq) (Fin neq) ℝ) : Prop where
  frame : Frame cons nodes elements
  heavy : ∀ el ∈ elements, HeavyBeam mats nodes el
  springs : List.Forall₂ (IsMember (Routine sq) mats nodes) elements ks
  masses : List.Forall₂ (IsMember (MassRoutine sq) mats nodes) elements ms
  run : ∃ op bc sparse, dme cons elements 3 = .ok (op, bc, neq) ∧
    assembler (Uel.eleFun sq) elements mats nodes neq op sparse = .ok (Kg, Mg)

section
variable {sq : ℝ → ℝ} {cons mats nodes : Table ℝ} {elements : List (List ℤ)} {el : List ℤ} {m μ : Member ℝ} {neq : ℕ} {a b : ℕ}
  {X : Matrix (Fin 2) (Fin 2) ℝ} {L EI EA γ ν : ℝ} {U V : ℕ → ℕ → ℝ} {ks ms : List (Member ℝ)} {Kg Mg : Matrix (Fin neq) (Fin neq) ℝ}
  {w : Fin neq → ℝ} {φ : Fin neq → Fin neq → ℝ}

/-- C122.  The energy forms of a beam of the frame, as integrals over the curves its ends are bent to. -/
theorem C122_energies (hs : SqrtFn sq) (h : IsBeam mats nodes el a b X L EI EA γ ν) (hm : IsMember (Routine sq) mats nodes el m)
    (hμ : IsMember (MassRoutine sq) mats nodes el μ) {P Q A B : Polynomial ℝ} (hP : BendsTo X L (endsOf a b V) P)
    (hQ : BendsTo X L (endsOf a b U) Q) (hA : StretchesTo X L (endsOf a b V) A) (hB : StretchesTo X L (endsOf a b U) B) :
    m.form 3 V U = (EI * ∫ s in (0 : ℝ)..L, P.derivative.derivative.eval s * Q.derivative.derivative.eval s) +
      (EA * ∫ s in (0 : ℝ)..L, A.derivative.eval s * B.derivative.eval s) ∧
    μ.form 3 V U = (γ * ∫ s in (0 : ℝ)..L, P.eval s * Q.eval s) + ν * ∫ s in (0 : ℝ)..L, A.eval s * B.eval s := by
  have hne := h.length.1.ne'
  obtain rfl := (C121_curves X hne _).1.unique hP (deflection_bends hne V)
  obtain rfl := (C121_curves X hne _).1.unique hQ (deflection_bends hne U)
  obtain rfl := (C121_curves X hne _).2.unique hA (extension_stretches hne V)
  obtain rfl := (C121_curves X hne _).2.unique hB (extension_stretches hne U)
  have l1 := hA.linear.trans (by norm_num : 1 ≤ 3)
  have l2 := hB.linear.trans (by norm_num : 1 ≤ 3)
  rw [(h.spring hs hm).2, (h.mass hs hμ).2, bend_integral hP.cubic hQ.cubic, stretch_integral hA.linear hB.linear,
    prod_integral hP.cubic hQ.cubic, prod_integral l1 l2]
  exact ⟨rfl, rfl⟩

theorem Spec.IsBeam.axial (h : IsBeam mats nodes el a b X L EI EA γ ν) : (el[1]? = some 7 ∧ ν = 0) ∨ (el[1]? = some 8 ∧ ν = γ) := by
  obtain ⟨mi, q, params, -, -, -, ⟨h7, -, h0, -⟩ | ⟨h8, h0, -⟩⟩ := h.material
  · exact .inl ⟨h7, h0⟩
  · exact .inr ⟨h8, h0⟩

theorem forall₂_mem {α β : Type} {R : α → β → Prop} {l : List α} {l' : List β} (h : List.Forall₂ R l l') {y : β} (hy : y ∈ l') :
    ∃ x ∈ l, R x y := by
  induction h with
  | nil => simp at hy
  | cons h1 _ ih =>
    rcases List.mem_cons.1 hy with rfl | hy
    · exact ⟨_, by simp, h1⟩
    · obtain ⟨x, hx, hr⟩ := ih hy
      exact ⟨x, by simp [hx], hr⟩

theorem forall₂_mem' {α β : Type} {R : α → β → Prop} {l : List α} {l' : List β} (h : List.Forall₂ R l l') {x : α} (hx : x ∈ l) :
    ∃ y ∈ l', R x y := forall₂_mem h.flip hx

theorem beam_mass_nonneg (hs : SqrtFn sq) (h : IsBeam mats nodes el a b X L EI EA γ ν) (hγ : 0 ≤ γ)
    (hμ : IsMember (MassRoutine sq) mats nodes el μ) (U : ℕ → ℕ → ℝ) : 0 ≤ μ.form 3 U U := by
  rw [(h.mass hs hμ).2]
  have h1 := prodInt_nonneg h.length.1 (deflection a b X L U)
  have h2 := prodInt_nonneg h.length.1 (extension a b X L U)
  rcases h.axial with ⟨-, rfl⟩ | ⟨-, rfl⟩
  · rw [zero_mul, add_zero]
    positivity
  · positivity

theorem BeamModel.setups (h : BeamModel sq cons mats nodes elements ks ms Kg Mg) : ∃ bc,
    Setup (Routine sq) cons elements mats nodes 3 neq bc Kg ks ∧ Setup (MassRoutine sq) cons elements mats nodes 3 neq bc Mg ms := by
  obtain ⟨op, bc, sparse, h1, h2⟩ := h.run
  obtain ⟨ks', s⟩ := frame_setup h.frame h1 h2
  obtain ⟨ms', s'⟩ := frame_mass_setup h.frame h1 h2
  obtain rfl := frame_members_unique h.springs s.mem
  obtain rfl := frame_masses_unique h.masses s'.mem
  exact ⟨bc, s, s'⟩

theorem BeamModel.mass_nonneg (hs : SqrtFn sq) (h : BeamModel sq cons mats nodes elements ks ms Kg Mg) (hμ : μ ∈ ms) (U : ℕ → ℕ → ℝ) :
    0 ≤ μ.form 3 U U := by
  obtain ⟨el, hel, hr⟩ := forall₂_mem h.masses hμ
  obtain ⟨a, b, X, L, EI, EA, γ, ν, hb, hγ⟩ := h.heavy el hel
  exact beam_mass_nonneg hs hb hγ.le hr U

theorem BeamModel.symm (hs : SqrtFn sq) (h : BeamModel sq cons mats nodes elements ks ms Kg Mg) : Kg.IsSymm ∧ Mg.IsSymm := by
  obtain ⟨bc, s, s'⟩ := h.setups
  refine ⟨assembled_symm s fun m hm v u => ?_, assembled_symm s' fun m hm v u => ?_⟩
  · obtain ⟨el, hel, hr⟩ := forall₂_mem h.springs hm
    obtain ⟨a, b, X, L, EI, EA, γ, ν, hb, hγ⟩ := h.heavy el hel
    rw [(hb.spring hs hr).2, (hb.spring hs hr).2, bendInt_symm]
    ring
  · obtain ⟨el, hel, hr⟩ := forall₂_mem h.masses hm
    obtain ⟨a, b, X, L, EI, EA, γ, ν, hb, hγ⟩ := h.heavy el hel
    rw [(hb.mass hs hr).2, (hb.mass hs hr).2, prodInt_symm, prodInt_symm (extension a b X L v)]

/-- C122.  The mass matrix of a frame is positive definite exactly when no admissible motion is without kinetic energy. -/
theorem C122_definite_iff (hs : SqrtFn sq) (h : BeamModel sq cons mats nodes elements ks ms Kg Mg) :
    (∀ v, v ≠ 0 → 0 < v ⬝ᵥ Mg.mulVec v) ↔ Laden cons 3 ms := by
  obtain ⟨bc, s, s'⟩ := h.setups
  constructor
  · intro hp u hu h0
    obtain ⟨v, hv⟩ := exists_reduced s'.eq s'.valid hu
    refine (Completes.zero_iff s'.eq hv).2 ?_
    by_contra hne
    have := hp v hne
    unfold dotProduct at this
    rw [reduced_form s' hv hv] at this
    exact this.ne' h0
  · intro hf v hv
    obtain ⟨V, hV⟩ := exists_completes (cons := cons) bc 3 v
    unfold dotProduct
    rw [reduced_form s' hV hV]
    refine lt_of_le_of_ne (List.sum_nonneg fun y hy => ?_) fun h0 => hv ?_
    · obtain ⟨m, hm, rfl⟩ := List.mem_map.1 hy
      exact h.mass_nonneg hs hm V
    · exact (Completes.zero_iff s'.eq hV).1 (hf V (completes_admissible s'.eq s'.valid hV) h0.symm)

theorem isMember_nodes {fn : ℤ → Uel ℝ → Prop} (h : IsMember fn mats nodes el m) :
    List.Forall₂ (Resolves nodes.length) (el.drop 3) m.nodes := by
  obtain ⟨_, _, _, _, _, _, _, -, -, -, a5, -⟩ := h
  exact a5

/-- C122.  For beams with axial deformation: exactly when every node that can move belongs to a beam. -/
theorem C122_laden_iff (hs : SqrtFn sq) (h : BeamModel sq cons mats nodes elements ks ms Kg Mg) (h8 : ∀ el ∈ elements, el[1]? = some 8) :
    Laden cons 3 ms ↔ ∀ p j, Free cons 3 p j → ∃ el ∈ elements, ∃ id ∈ el.drop 3, Resolves nodes.length id p := by
  constructor
  · intro hf p j hfree
    by_contra hno
    push Not at hno
    have := hf (fun p' j' => if p' = p ∧ j' = j then 1 else 0) (fun p' j' _ _ hnf => if_neg (by rintro ⟨rfl, rfl⟩; exact hnf hfree))
      (List.sum_eq_zero fun y hy => by
        obtain ⟨m, hm, rfl⟩ := List.mem_map.1 hy
        obtain ⟨el, hel, hr⟩ := forall₂_mem h.masses hm
        refine Finset.sum_eq_zero fun c hc => Finset.sum_eq_zero fun j' _ => ?_
        rw [Finset.mem_range] at hc
        dsimp only
        rw [if_neg, zero_mul]
        rintro ⟨h6, -⟩
        rw [List.getD_eq_getElem?_getD, List.getElem?_eq_getElem hc, Option.getD_some] at h6
        obtain ⟨id, hid, hres⟩ := forall₂_mem (isMember_nodes hr) (List.getElem_mem hc)
        exact hno el hel id hid (h6 ▸ hres)) p (free_lt hfree) j hfree.1
    simp at this
  · intro hu u hadm h0 p hp j hj
    by_cases hfree : Free cons 3 p j
    · obtain ⟨el, hel, id, hid, hres⟩ := hu p j hfree
      obtain ⟨m, hm, hr⟩ := forall₂_mem' h.masses hel
      obtain ⟨a, b, X, L, EI, EA, γ, ν, hb, hγ⟩ := h.heavy el hel
      have hz := (sum_pos_zero fun m hm => h.mass_nonneg hs hm u).1 h0 m hm
      rw [(hb.mass hs hr).2] at hz
      have hν : ν = γ := by
        rcases hb.axial with ⟨h7, -⟩ | ⟨-, h⟩
        · rw [h8 el hel] at h7
          simp at h7
        · exact h
      rw [hν, ← mul_add] at hz
      have hz := (mul_eq_zero.1 hz).resolve_left hγ.ne'
      have n1 := prodInt_nonneg hb.length.1 (deflection a b X L u)
      have n2 := prodInt_nonneg hb.length.1 (extension a b X L u)
      have hne := hb.length.1.ne'
      have z1 := prodInt_zero hb.length.1 (by linarith : prodInt L (deflection a b X L u) (deflection a b X L u) = 0)
        (deflection_bends (X := X) hne u).cubic
      have z2 := prodInt_zero hb.length.1 (by linarith : prodInt L (extension a b X L u) (extension a b X L u) = 0)
        ((extension_stretches (X := X) hne u).linear.trans (by norm_num))
      have hst := still_ends hb.length z1 z2 j hj
      obtain ⟨p', hp', hres'⟩ := forall₂_mem' hb.ends hid
      obtain rfl := resolves_unique hres hres'
      simp only [List.mem_cons, List.not_mem_nil, or_false] at hp'
      rcases hp' with rfl | rfl
      · exact hst.1
      · exact hst.2
    · exact hadm p j hp hj hfree

/-- C122.  A laden frame has as many real modes as equations, orthonormal in the mass; every vector is the sum of its components along
them, and their frequencies are the only ones in which the frame can vibrate. -/
theorem C122_modes (hs : SqrtFn sq) (h : BeamModel sq cons mats nodes elements ks ms Kg Mg) (hf : Laden cons 3 ms) :
    ∃ w φ, Modes Kg Mg w φ ∧ (∀ v : Fin neq → ℝ, v = ∑ k, (φ k ⬝ᵥ Mg.mulVec v) • φ k) ∧
      ∀ t, (∃ v, v ≠ 0 ∧ Kg.mulVec v = t • Mg.mulVec v) ↔ ∃ k, w k = t := by
  obtain ⟨w, φ, hm⟩ := exists_modes (h.symm hs).1 (h.symm hs).2 ((C122_definite_iff hs h).2 hf)
  exact ⟨w, φ, hm, hm.expand, hm.eigen_iff⟩

/-- C122.  The squared frequency number `k` is at most `t` exactly when some `k + 1` independent admissible fields store, in all their
combinations, at most `t` times as much energy in the springs as in the masses. -/
theorem C122_minmax (hs : SqrtFn sq) (h : BeamModel sq cons mats nodes elements ks ms Kg Mg) (hm : Modes Kg Mg w φ) (k : Fin neq)
    (t : ℝ) : w k ≤ t ↔ Slow cons 3 ks ms t (k + 1) := by
  obtain ⟨bc, s, s'⟩ := h.setups
  exact slow_iff s s' hm (h.symm hs).2 k t

/-- C122.  Beams of no negative stiffness: no squared frequency is negative. -/
theorem C122_nonneg (hs : SqrtFn sq) (h : BeamModel sq cons mats nodes elements ks ms Kg Mg) (he : ∀ el ∈ elements, ElasticBeam mats nodes el)
    (hm : Modes Kg Mg w φ) (k : Fin neq) : 0 ≤ w k := by
  rw [← Modes.quotient hm k]
  obtain ⟨bc, s, s'⟩ := h.setups
  obtain ⟨V, hV⟩ := exists_completes (cons := cons) bc 3 (φ k)
  unfold dotProduct
  rw [reduced_form s hV hV]
  refine List.sum_nonneg fun y hy => ?_
  obtain ⟨m, hm, rfl⟩ := List.mem_map.1 hy
  obtain ⟨el, hel, hr⟩ := forall₂_mem h.springs hm
  obtain ⟨a, b, X, L, EI, EA, γ, ν, hb, h1, h2⟩ := he el hel
  rw [(hb.spring hs hr).2]
  have := bendInt_nonneg hb.length.1 (deflection a b X L V)
  have := mul_self_nonneg ((extension a b X L V).coeff 1)
  have := hb.length.1
  positivity

/-- C122.  All frequencies are positive exactly when the frame is stable. -/
theorem C122_positive_iff (hs : SqrtFn sq) (h : BeamModel sq cons mats nodes elements ks ms Kg Mg)
    (he : ∀ el ∈ elements, ElasticBeam mats nodes el) (hm : Modes Kg Mg w φ) : (∀ k, 0 < w k) ↔ Stable cons 3 ks := by
  obtain ⟨bc, s, s'⟩ := h.setups
  have e : (∀ k, 0 < w k) ↔ ¬ ∃ k, w k = 0 := by
    constructor
    · rintro h0 ⟨k, hk⟩
      exact (h0 k).ne' hk
    · intro h0 k
      exact lt_of_le_of_ne (C122_nonneg hs h he hm k) fun hk => h0 ⟨k, hk.symm⟩
  rw [e, ← hm.eigen_iff]
  constructor
  · intro h0
    refine stable_of_det_ne_zero s fun hd => h0 ?_
    obtain ⟨v, hv, hz⟩ := Matrix.exists_mulVec_eq_zero_iff.2 hd
    exact ⟨v, hv, by rw [hz, zero_smul]⟩
  · rintro hst ⟨v, hv, hz⟩
    exact det_ne_zero_of_stable s hst (Matrix.exists_mulVec_eq_zero_iff.1 ⟨v, hv, by rw [hz, zero_smul]⟩)

end
/-- The beams of the frame of the test. -/
theorem testFrame_beams : ∀ el ∈ testFrame.2.1, ∃ a b X L, IsBeam testFrame.2.2.1 testFrame.2.2.2.1 el a b X L 26600000 8000000000 (1 / 25) (1 / 25) := by
  have hp : BeamParams [(200000000000 : ℝ), 133 / 1000000, 1 / 25] 200000000000 (133 / 1000000) (1 / 25) (1 / 25) :=
    ⟨by norm_num, Or.inl ⟨rfl, rfl⟩⟩
  have hmat : ∀ id a b : ℤ, ∃ mi, ∃ q : ℕ, ∃ params, [id, 8, 0, a, b][2]? = some mi ∧ Resolves testFrame.2.2.1.length mi q ∧
      testFrame.2.2.1[q]? = some params ∧
      (([id, 8, 0, a, b][1]? = some 7 ∧ (8000000000 : ℝ) = 0 ∧ (1 / 25 : ℝ) = 0 ∧ ∃ E I, BeamUParams params E I (1 / 25) ∧ 26600000 = E * I) ∨
      ([id, 8, 0, a, b][1]? = some 8 ∧ (1 / 25 : ℝ) = 1 / 25 ∧ ∃ E I A, BeamParams params E I A (1 / 25) ∧ 26600000 = E * I ∧ 8000000000 = E * A)) :=
    fun id a b => ⟨0, 0, _, rfl, ⟨by simp [testFrame], .inl rfl⟩, rfl, .inr ⟨rfl, rfl, _, _, _, hp, by norm_num, by norm_num⟩⟩
  intro el hel
  simp only [testFrame, List.mem_cons, List.not_mem_nil, or_false] at hel
  rcases hel with rfl | rfl
  · exact ⟨0, 1, !![0, 0; 0, 6], 6, .cons ⟨by simp [testFrame], .inl rfl⟩ (.cons ⟨by simp [testFrame], .inl rfl⟩ .nil), ⟨0, rfl⟩, ⟨1, rfl⟩,
      ⟨by norm_num, by norm_num⟩, hmat 0 0 1⟩
  · exact ⟨1, 2, !![0, 6; 4, 6], 4, .cons ⟨by simp [testFrame], .inl rfl⟩ (.cons ⟨by simp [testFrame], .inl rfl⟩ .nil), ⟨1, rfl⟩, ⟨2, rfl⟩,
      ⟨by norm_num, by norm_num⟩, hmat 1 1 2⟩

/-- The frame of the test is laden and vibrates in positive frequencies. -/
example (sparse : Bool) : ∃ op bc, ∃ neq : ℕ, ∃ Kg Mg ks ms, dme testFrame.1 testFrame.2.1 3 = .ok (op, bc, neq) ∧
    assembler (Uel.eleFun Real.sqrt) testFrame.2.1 testFrame.2.2.1 testFrame.2.2.2.1 neq op sparse = .ok (Kg, Mg) ∧
    BeamModel Real.sqrt testFrame.1 testFrame.2.2.1 testFrame.2.2.2.1 testFrame.2.1 ks ms Kg Mg ∧ Laden testFrame.1 3 ms ∧
    ∃ w φ, Modes Kg Mg w φ ∧ ∀ k, 0 ≤ w k := by
  have hb := testFrame_beams
  have hk : ∃ ks, List.Forall₂ (IsMember (Routine Real.sqrt) testFrame.2.2.1 testFrame.2.2.2.1) testFrame.2.1 ks := by
    obtain ⟨_, _, _, _, h0⟩ := hb [0, 8, 0, 0, 1] (by simp [testFrame])
    obtain ⟨_, _, _, _, h1⟩ := hb [1, 8, 0, 1, 2] (by simp [testFrame])
    obtain ⟨m0, h0⟩ := h0.exists_member sqrtFn_real
    obtain ⟨m1, h1⟩ := h1.exists_member sqrtFn_real
    exact ⟨[m0, m1], .cons h0 (.cons h1 .nil)⟩
  obtain ⟨ks, hk⟩ := hk
  obtain ⟨op, bc, neq, Kg, Mg, h1, h2⟩ := C117_assembled testFrame_frame hk sparse
  obtain ⟨ms, s⟩ := frame_mass_setup testFrame_frame h1 h2
  have hB : BeamModel Real.sqrt testFrame.1 testFrame.2.2.1 testFrame.2.2.2.1 testFrame.2.1 ks ms Kg Mg :=
    ⟨testFrame_frame, fun el hel => by
      obtain ⟨a, b, X, L, h⟩ := hb el hel
      exact ⟨a, b, X, L, _, _, _, _, h, by norm_num⟩, hk, s.mem, op, bc, sparse, h1, h2⟩
  have hl : Laden testFrame.1 3 ms := (C122_laden_iff sqrtFn_real hB (by simp [testFrame])).2 fun p j hf => by
    obtain ⟨rfl, -⟩ := (testFrame_free p j).1 hf
    exact ⟨_, .head _, 1, by simp, by simp [testFrame], .inl rfl⟩
  obtain ⟨w, φ, hm, -⟩ := C122_modes sqrtFn_real hB hl
  exact ⟨op, bc, neq, Kg, Mg, ks, ms, h1, h2, hB, hl, w, φ, hm, C122_nonneg sqrtFn_real hB (fun el hel => by
    obtain ⟨a, b, X, L, h⟩ := hb el hel
    exact ⟨a, b, X, L, _, _, _, _, h, by norm_num, by norm_num⟩) hm⟩

end SolidsPy
