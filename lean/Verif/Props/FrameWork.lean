import Verif.Props.FramePlace
import Mathlib.Analysis.Calculus.Deriv.Mul
import Mathlib.Analysis.Calculus.Deriv.Add
import Mathlib.Analysis.Calculus.Deriv.Pow

/-! # C129: work and energy in frames of beams -/

set_option linter.unusedSectionVars false

namespace SolidsPy
open Spec Assem Matrix

section
variable {K : Type} [Field K]

theorem forms_combination {nd : ℕ} (ks : List (Member K)) (c d : K) (v u w : ℕ → ℕ → K) :
    (ks.map fun m => m.form nd v (fun p j => c * u p j + d * w p j)).sum =
      c * (ks.map fun m => m.form nd v u).sum + d * (ks.map fun m => m.form nd v w).sum := by
  induction ks with
  | nil => simp
  | cons m t ih =>
    simp only [List.map_cons, List.sum_cons]
    rw [ih]
    simp only [Member.form, Member.force, mul_add, Finset.sum_add_distrib, mul_left_comm _ c, mul_left_comm _ d, ← Finset.mul_sum]
    ring

theorem forms_symm {nd : ℕ} (ks : List (Member K)) (hs : ∀ m ∈ ks, ∀ v u, m.form nd v u = m.form nd u v) (v u : ℕ → ℕ → K) :
    (ks.map fun m => m.form nd v u).sum = (ks.map fun m => m.form nd u v).sum := by
  congr 1
  exact List.map_congr_left fun m hm => hs m hm v u

theorem forms_square {nd : ℕ} (ks : List (Member K)) (hs : ∀ m ∈ ks, ∀ v u, m.form nd v u = m.form nd u v) (c d : K) (u w : ℕ → ℕ → K) :
    (ks.map fun m => m.form nd (fun p j => c * u p j + d * w p j) (fun p j => c * u p j + d * w p j)).sum =
      c ^ 2 * (ks.map fun m => m.form nd u u).sum + 2 * c * d * (ks.map fun m => m.form nd w u).sum + d ^ 2 * (ks.map fun m => m.form nd w w).sum := by
  rw [forms_combination, forms_symm ks hs _ u, forms_symm ks hs _ w, forms_combination, forms_combination, forms_symm ks hs u w]
  ring

end

/-- The data of one beam: the nodes it joins, the coordinates of its ends, its length, its bending and axial stiffness and its masses per
length across and along it. -/
structure Spec.Piece where
  a : ℕ
  b : ℕ
  X : Matrix (Fin 2) (Fin 2) ℝ
  L : ℝ
  EI : ℝ
  EA : ℝ
  γ : ℝ
  ν : ℝ

/-- The rows of `elements` are these beams, in this order. -/
def Spec.FramePieces (mats nodes : Table ℝ) (elements : List (List ℤ)) (bs : List Piece) : Prop :=
  List.Forall₂ (fun el x => IsBeam mats nodes el x.a x.b x.X x.L x.EI x.EA x.γ x.ν) elements bs

/-- The beams have no negative stiffness. -/
def Spec.Elastic (bs : List Piece) : Prop := ∀ x ∈ bs, 0 ≤ x.EI ∧ 0 ≤ x.EA

/-- Twice the energy of a bent and stretched beam: the integrals of the squares of the curvature of its cubic and of the slope of its
linear function. -/
noncomputable def Spec.Piece.twice (x : Piece) (U : ℕ → ℕ → ℝ) : ℝ :=
  (x.EI * ∫ s in (0 : ℝ)..x.L, ((deflection x.a x.b x.X x.L U).derivative.derivative.eval s) ^ 2) +
    x.EA * ∫ s in (0 : ℝ)..x.L, ((extension x.a x.b x.X x.L U).derivative.eval s) ^ 2

/-- The energy stored in the beams. -/
noncomputable def Spec.beamsEnergy (bs : List Piece) (U : ℕ → ℕ → ℝ) : ℝ := (bs.map fun x => x.twice U / 2).sum

/-- Work of forces and couples `F` at `n` nodes on the displacements and rotations `V`. -/
def Spec.frameWork (n : ℕ) (F V : ℕ → ℕ → ℝ) : ℝ := ∑ p ∈ Finset.range n, ∑ j ∈ Finset.range 3, V p j * F p j

/-- `F` are the forces and couples of the load table. -/
def Spec.FrameLoads (n : ℕ) (loads : Table ℝ) (F : ℕ → ℕ → ℝ) : Prop := ∀ p < n, ∀ j < 3, IsLoad n loads p j (F p j)

section
variable {sq : ℝ → ℝ} {cons cons' mats mats' nodes loads loads' loads'' : Table ℝ} {elements elements' : List (List ℤ)} {neq neq' : ℕ}
  {F G U V : ℕ → ℕ → ℝ} {ks ks' ms ms' : List (Member ℝ)} {bs bs' : List Piece} {sp de : Sol.Solver ℝ} {sparse sparse' sparse'' : Bool}
  {full full' full'' : Table ℝ}
  {Kg Mg : Matrix (Fin neq) (Fin neq) ℝ} {Kg' Mg' : Matrix (Fin neq') (Fin neq') ℝ} {w : Fin neq → ℝ} {w' : Fin neq' → ℝ}
  {φ : Fin neq → Fin neq → ℝ} {φ' : Fin neq' → Fin neq' → ℝ}

theorem piece_twice (hs : SqrtFn sq) {el : List ℤ} {x : Piece} {m : Member ℝ} (h : IsBeam mats nodes el x.a x.b x.X x.L x.EI x.EA x.γ x.ν)
    (hm : IsMember (Routine sq) mats nodes el m) (U : ℕ → ℕ → ℝ) : m.form 3 U U = x.twice U := by
  have hne := h.length.1.ne'
  have b := deflection_bends (a := x.a) (b := x.b) (X := x.X) hne U
  have e := extension_stretches (a := x.a) (b := x.b) (X := x.X) hne U
  rw [(h.spring hs hm).2, ← bend_integral b.cubic b.cubic, ← stretch_integral e.linear e.linear]
  unfold Piece.twice
  simp only [pow_two]

theorem piece_nonneg {x : Piece} (hL : 0 < x.L) (h1 : 0 ≤ x.EI) (h2 : 0 ≤ x.EA) (U : ℕ → ℕ → ℝ) : 0 ≤ x.twice U := by
  unfold Piece.twice
  have a1 := intervalIntegral.integral_nonneg hL.le (μ := MeasureTheory.volume) (f := fun s => ((deflection x.a x.b x.X x.L U).derivative.derivative.eval s) ^ 2)
    fun s _ => sq_nonneg _
  have a2 := intervalIntegral.integral_nonneg hL.le (μ := MeasureTheory.volume) (f := fun s => ((extension x.a x.b x.X x.L U).derivative.eval s) ^ 2)
    fun s _ => sq_nonneg _
  positivity

theorem pieces_energy (hs : SqrtFn sq) (hb : FramePieces mats nodes elements bs) (hk : List.Forall₂ (IsMember (Routine sq) mats nodes) elements ks)
    (U : ℕ → ℕ → ℝ) : (ks.map fun m => m.form 3 U U).sum = 2 * beamsEnergy bs U := by
  unfold beamsEnergy
  rw [← List.sum_map_mul_left]
  refine sum_pairs hk hb fun el _ m x hm hx => ?_
  rw [piece_twice hs hx hm]
  ring

theorem pieces_symm (hs : SqrtFn sq) (hb : FramePieces mats nodes elements bs) (hk : List.Forall₂ (IsMember (Routine sq) mats nodes) elements ks) :
    ∀ m ∈ ks, ∀ v u, m.form 3 v u = m.form 3 u v := by
  intro m hm v u
  obtain ⟨el, hel, hr⟩ := forall₂_mem hk hm
  obtain ⟨x, -, hx⟩ := forall₂_mem' hb hel
  rw [(hx.spring hs hr).2, (hx.spring hs hr).2, bendInt_symm]
  ring

theorem pieces_members (hs : SqrtFn sq) (hb : FramePieces mats nodes elements bs) :
    ∃ ks, List.Forall₂ (IsMember (Routine sq) mats nodes) elements ks := by
  induction hb with
  | nil => exact ⟨[], .nil⟩
  | cons h _ ih =>
    obtain ⟨ks, hk⟩ := ih
    obtain ⟨m, hm⟩ := h.exists_member hs
    exact ⟨m :: ks, .cons hm hk⟩

theorem elastic_energy (hb : FramePieces mats nodes elements bs) (he : Elastic bs) (U : ℕ → ℕ → ℝ) : 0 ≤ beamsEnergy bs U := by
  refine List.sum_nonneg fun y hy => ?_
  obtain ⟨x, hx, rfl⟩ := List.mem_map.1 hy
  obtain ⟨el, -, h⟩ := forall₂_mem hb hx
  have := piece_nonneg h.length.1 (he x hx).1 (he x hx).2 U
  positivity

/-- The principle of virtual work for a frame. -/
theorem frame_virtual (hf : Frame cons nodes elements) (hk : List.Forall₂ (IsMember (Routine sq) mats nodes) elements ks)
    (hF : FrameLoads nodes.length loads F) : Equilibrium cons 3 loads ks U ↔ Admissible cons 3 U ∧
      ∀ V, Admissible cons 3 V → frameWork nodes.length F V = (ks.map fun m => m.form 3 V U).sum :=
  weak_iff hf.size (members_lt hk) hF

theorem frameWork_combination (n : ℕ) (c d : ℝ) (F G V : ℕ → ℕ → ℝ) :
    frameWork n (fun p j => c * F p j + d * G p j) V = c * frameWork n F V + d * frameWork n G V := by
  unfold frameWork
  simp only [mul_add, Finset.sum_add_distrib, mul_left_comm _ c, mul_left_comm _ d, ← Finset.mul_sum]

theorem frameWork_fields (n : ℕ) (c d : ℝ) (F U V : ℕ → ℕ → ℝ) :
    frameWork n F (fun p j => c * U p j + d * V p j) = c * frameWork n F U + d * frameWork n F V := by
  unfold frameWork
  simp only [add_mul, Finset.sum_add_distrib, mul_assoc, ← Finset.mul_sum]

theorem admissible_combination {nd : ℕ} (c d : ℝ) (hU : Admissible cons nd U) (hV : Admissible cons nd V) :
    Admissible cons nd fun p j => c * U p j + d * V p j := fun p j hp hj hf => by
  dsimp only
  rw [hU p j hp hj hf, hV p j hp hj hf]
  ring

/-- C129.  Superposition: under `c` times one load case and `d` times another the analysis returns `c` times the displacements and rotations
of the one and `d` times those of the other. -/
theorem C129_superposition (hf : Frame cons nodes elements) (hk : List.Forall₂ (IsMember (Routine sq) mats nodes) elements ks)
    (hst : Stable cons 3 ks) (hsp : SolverOk sp) (hde : SolverOk de) {F' : ℕ → ℕ → ℝ} (c d : ℝ)
    (hF : FrameLoads nodes.length loads F) (hF' : FrameLoads nodes.length loads' F')
    (hF'' : FrameLoads nodes.length loads'' fun p j => c * F p j + d * F' p j)
    (h : frameRun sq sp de sparse cons elements mats nodes loads = .ok full)
    (h' : frameRun sq sp de sparse' cons elements mats nodes loads' = .ok full')
    (h'' : frameRun sq sp de sparse'' cons elements mats nodes loads'' = .ok full'') :
    ∀ p < nodes.length, ∀ j < 3, entry full'' p j = some (c * fieldOf full p j + d * fieldOf full' p j) := by
  have e := (frame_virtual hf hk hF).1 (frameRun_equilibrium hf hk hst hsp hde h)
  have e' := (frame_virtual hf hk hF').1 (frameRun_equilibrium hf hk hst hsp hde h')
  intro p hp j hj
  refine C117_unique hf hk hst hsp hde h'' (V := fun p j => c * fieldOf full p j + d * fieldOf full' p j)
    ((frame_virtual hf hk hF'').2 ⟨admissible_combination c d e.1 e'.1, fun V hV => ?_⟩) p j hp hj
  rw [frameWork_combination, e.2 V hV, e'.2 V hV, forms_combination]

/-- C129.  Reciprocity (Betti): the first loads do as much work on the second displacements and rotations as the second loads do on the
first. -/
theorem C129_reciprocity (hs : SqrtFn sq) (hf : Frame cons nodes elements) (hb : FramePieces mats nodes elements bs)
    (hk : List.Forall₂ (IsMember (Routine sq) mats nodes) elements ks) (hst : Stable cons 3 ks) (hsp : SolverOk sp) (hde : SolverOk de)
    {F' : ℕ → ℕ → ℝ} (hF : FrameLoads nodes.length loads F) (hF' : FrameLoads nodes.length loads' F')
    (h : frameRun sq sp de sparse cons elements mats nodes loads = .ok full)
    (h' : frameRun sq sp de sparse' cons elements mats nodes loads' = .ok full') :
    frameWork nodes.length F (fieldOf full') = frameWork nodes.length F' (fieldOf full) := by
  have e := (frame_virtual hf hk hF).1 (frameRun_equilibrium hf hk hst hsp hde h)
  have e' := (frame_virtual hf hk hF').1 (frameRun_equilibrium hf hk hst hsp hde h')
  rw [e.2 _ e'.1, e'.2 _ e.1]
  exact forms_symm ks (pieces_symm hs hb hk) _ _

/-- C129.  Clapeyron: the beams store half the work of the loads. -/
theorem C129_stored (hs : SqrtFn sq) (hf : Frame cons nodes elements) (hb : FramePieces mats nodes elements bs)
    (hk : List.Forall₂ (IsMember (Routine sq) mats nodes) elements ks) (hst : Stable cons 3 ks) (hsp : SolverOk sp) (hde : SolverOk de)
    (hF : FrameLoads nodes.length loads F) (h : frameRun sq sp de sparse cons elements mats nodes loads = .ok full) :
    beamsEnergy bs (fieldOf full) = frameWork nodes.length F (fieldOf full) / 2 := by
  have e := (frame_virtual hf hk hF).1 (frameRun_equilibrium hf hk hst hsp hde h)
  rw [e.2 _ e.1, pieces_energy hs hb hk]
  ring

/-- C129.  Least potential energy: exactly the equilibrium states have the least stored energy less the work of the loads. -/
theorem C129_minimum_iff (hs : SqrtFn sq) (hf : Frame cons nodes elements) (hb : FramePieces mats nodes elements bs) (he : Elastic bs)
    (hk : List.Forall₂ (IsMember (Routine sq) mats nodes) elements ks) (hF : FrameLoads nodes.length loads F) :
    Equilibrium cons 3 loads ks U ↔ Admissible cons 3 U ∧ ∀ V, Admissible cons 3 V →
      beamsEnergy bs U - frameWork nodes.length F U ≤ beamsEnergy bs V - frameWork nodes.length F V := by
  have sy := pieces_symm hs hb hk
  rw [frame_virtual hf hk hF]
  refine and_congr_right fun hU => ⟨fun h V hV => ?_, fun h V hV => ?_⟩
  · have g := forms_square ks sy 1 (-1) V U
    rw [pieces_energy hs hb hk] at g
    have g0 := elastic_energy hb he fun p j => 1 * V p j + -1 * U p j
    have a := h V hV
    have b := h U hU
    have c := pieces_energy hs hb hk V
    have d := pieces_energy hs hb hk U
    rw [forms_symm ks sy U V] at g
    linarith
  · by_contra hne
    have q : ∀ t : ℝ, 0 ≤ t * ((ks.map fun m => m.form 3 V U).sum - frameWork nodes.length F V) + t ^ 2 * beamsEnergy bs V := fun t => by
      have g := forms_square ks sy 1 t U V
      rw [pieces_energy hs hb hk] at g
      have a := h _ (admissible_combination 1 t hU hV)
      rw [frameWork_fields] at a
      have c := pieces_energy hs hb hk V
      have d := pieces_energy hs hb hk U
      rw [c, d] at g
      linarith
    have hE := elastic_energy hb he V
    generalize hr : (ks.map fun m => m.form 3 V U).sum - frameWork nodes.length F V = r at q
    have hr0 : r ≠ 0 := fun h0 => hne (by linarith)
    obtain ⟨x, rfl⟩ : ∃ x, r = x * (beamsEnergy bs V + 1) := ⟨r / (beamsEnergy bs V + 1), by field_simp⟩
    have := q (-x)
    have hx : x ^ 2 ≤ 0 := by nlinarith
    have := pow_eq_zero_iff (two_ne_zero) |>.1 (le_antisymm hx (sq_nonneg x))
    exact hr0 (by rw [this, zero_mul])

/-- C129.  The analysis returns the only state of least potential energy. -/
theorem C129_minimum (hs : SqrtFn sq) (hf : Frame cons nodes elements) (hb : FramePieces mats nodes elements bs) (he : Elastic bs)
    (hk : List.Forall₂ (IsMember (Routine sq) mats nodes) elements ks) (hst : Stable cons 3 ks) (hsp : SolverOk sp) (hde : SolverOk de)
    (hF : FrameLoads nodes.length loads F) (h : frameRun sq sp de sparse cons elements mats nodes loads = .ok full)
    (hV : Admissible cons 3 V) :
    beamsEnergy bs (fieldOf full) - frameWork nodes.length F (fieldOf full) ≤ beamsEnergy bs V - frameWork nodes.length F V ∧
    (beamsEnergy bs V - frameWork nodes.length F V ≤ beamsEnergy bs (fieldOf full) - frameWork nodes.length F (fieldOf full) →
      ∀ p < nodes.length, ∀ j < 3, entry full p j = some (V p j)) := by
  have e := frameRun_equilibrium hf hk hst hsp hde h
  have m := ((C129_minimum_iff hs hf hb he hk hF).1 e).2
  refine ⟨m V hV, fun hle p hp j hj => ?_⟩
  exact C117_unique hf hk hst hsp hde h ((C129_minimum_iff hs hf hb he hk hF).2 ⟨hV, fun W hW => hle.trans (m W hW)⟩) p j hp hj

theorem half_deriv (x y z t : ℝ) : HasDerivAt (fun t : ℝ => (x + 2 * t * y + t ^ 2 * z) / 2) (y + t * z) t := by
  have h : HasDerivAt (fun t : ℝ => (x + 2 * t * y + t ^ 2 * z) / 2) ((2 * 1 * y + ((2 : ℕ) * t ^ (2 - 1)) * z) / 2) t :=
    (((((hasDerivAt_id' t).const_mul 2).mul_const y).const_add x).add ((hasDerivAt_pow 2 t).mul_const z)).div_const 2
  refine h.congr_deriv ?_
  norm_num
  ring

/-- C129.  Castigliano: when the loads `F + t G` grow with `t`, the stored energy grows at the rate of the work of `G` on the returned
displacements and rotations. -/
theorem C129_castigliano (hs : SqrtFn sq) (hf : Frame cons nodes elements) (hb : FramePieces mats nodes elements bs)
    (hk : List.Forall₂ (IsMember (Routine sq) mats nodes) elements ks) (hst : Stable cons 3 ks) (hsp : SolverOk sp) (hde : SolverOk de)
    {loads : ℝ → Table ℝ} {full : ℝ → Table ℝ} (hF : ∀ t, FrameLoads nodes.length (loads t) fun p j => F p j + t * G p j)
    (h : ∀ t, frameRun sq sp de sparse cons elements mats nodes (loads t) = .ok (full t)) (t : ℝ) :
    HasDerivAt (fun t => beamsEnergy bs (fieldOf (full t))) (frameWork nodes.length G (fieldOf (full t))) t := by
  have sy := pieces_symm hs hb hk
  have e := fun t => (frame_virtual hf hk (hF t)).1 (frameRun_equilibrium hf hk hst hsp hde (h t))
  have hw : ∀ t V, frameWork nodes.length (fun p j => F p j + t * G p j) V = frameWork nodes.length F V + t * frameWork nodes.length G V := fun t V => by
    have := frameWork_combination nodes.length 1 t F G V
    simpa using this
  -- the energy as a polynomial of `t`
  have hE : ∀ t, beamsEnergy bs (fieldOf (full t)) = (frameWork nodes.length F (fieldOf (full 0)) +
      2 * t * frameWork nodes.length G (fieldOf (full 0)) + t ^ 2 * (frameWork nodes.length G (fieldOf (full 1)) - frameWork nodes.length G (fieldOf (full 0)))) / 2 ∧
      frameWork nodes.length G (fieldOf (full t)) = frameWork nodes.length G (fieldOf (full 0)) +
        t * (frameWork nodes.length G (fieldOf (full 1)) - frameWork nodes.length G (fieldOf (full 0))) := fun t => by
    have a : ∀ r s, frameWork nodes.length F (fieldOf (full s)) + r * frameWork nodes.length G (fieldOf (full s)) =
        frameWork nodes.length F (fieldOf (full r)) + s * frameWork nodes.length G (fieldOf (full r)) := fun r s => by
      rw [← hw, ← hw, (e r).2 _ (e s).1, (e s).2 _ (e r).1]
      exact forms_symm ks sy _ _
    have c := (e t).2 _ (e t).1
    rw [hw, pieces_energy hs hb hk] at c
    have a1 := a 0 t
    have a2 := a 1 t
    have a3 := a 1 0
    have g : frameWork nodes.length G (fieldOf (full t)) = frameWork nodes.length G (fieldOf (full 0)) +
        t * (frameWork nodes.length G (fieldOf (full 1)) - frameWork nodes.length G (fieldOf (full 0))) := by linarith
    refine ⟨?_, g⟩
    rw [g] at c
    linarith
  rw [funext fun t => (hE t).1, (hE t).2]
  generalize frameWork nodes.length F (fieldOf (full 0)) = x
  generalize frameWork nodes.length G (fieldOf (full 0)) = y
  generalize frameWork nodes.length G (fieldOf (full 1)) - y = z
  exact half_deriv x y z t

/-- C129.  In particular under a growing force or couple at one degree of freedom: the rate is the displacement or rotation there. -/
theorem C129_castigliano_point (hs : SqrtFn sq) (hf : Frame cons nodes elements) (hb : FramePieces mats nodes elements bs)
    (hk : List.Forall₂ (IsMember (Routine sq) mats nodes) elements ks) (hst : Stable cons 3 ks) (hsp : SolverOk sp) (hde : SolverOk de)
    {loads : ℝ → Table ℝ} {full : ℝ → Table ℝ} {q i : ℕ} (hq : q < nodes.length) (hi : i < 3)
    (hF : ∀ t, FrameLoads nodes.length (loads t) fun p j => F p j + t * if p = q ∧ j = i then 1 else 0)
    (h : ∀ t, frameRun sq sp de sparse cons elements mats nodes (loads t) = .ok (full t)) (t : ℝ) :
    HasDerivAt (fun t => beamsEnergy bs (fieldOf (full t))) (fieldOf (full t) q i) t := by
  have := C129_castigliano hs hf hb hk hst hsp hde hF h t
  convert this using 1
  unfold frameWork
  rw [Finset.sum_eq_single q, Finset.sum_eq_single i]
  · simp
  · intro j _ hj
    dsimp only
    rw [if_neg (fun h => hj h.2), mul_zero]
  · intro h0
    exact absurd (Finset.mem_range.2 hi) h0
  · intro p _ hp
    exact Finset.sum_eq_zero fun j _ => by
      dsimp only
      rw [if_neg (fun h => hp h.1), mul_zero]
  · intro h0
    exact absurd (Finset.mem_range.2 hq) h0

/-- C129.  Beams of no negative stiffness: the frame is stable exactly when every admissible field other than zero bends or stretches it. -/
theorem C129_stable_iff (hs : SqrtFn sq) (hf : Frame cons nodes elements) (hb : FramePieces mats nodes elements bs) (he : Elastic bs)
    (hk : List.Forall₂ (IsMember (Routine sq) mats nodes) elements ks) :
    Stable cons 3 ks ↔ ∀ U, Admissible cons 3 U → beamsEnergy bs U = 0 → ∀ p < nodes.length, ∀ j < 3, U p j = 0 := by
  rw [stable_weak_iff hf.size (members_lt hk)]
  have hF : FrameLoads nodes.length [] fun _ _ => 0 := fun p _ j _ => .inl ⟨by simp, rfl⟩
  have hw : ∀ V, frameWork nodes.length (fun _ _ => 0) V = 0 := fun V => by simp [frameWork]
  refine forall_congr' fun U => forall_congr' fun hU => imp_congr_left ⟨fun h => ?_, fun h => ?_⟩
  · have := h U hU
    rw [pieces_energy hs hb hk] at this
    linarith
  · have := (frame_virtual hf hk hF).1 ((C129_minimum_iff (U := U) hs hf hb he hk hF).2 ⟨hU, fun V hV => by
      rw [hw, hw, h]
      linarith [elastic_energy hb he V]⟩)
    intro V hV
    rw [← this.2 V hV, hw]

/-- The same beam, at least as stiff. -/
def Spec.Stiffer (x y : Piece) : Prop := y.a = x.a ∧ y.b = x.b ∧ y.X = x.X ∧ y.L = x.L ∧ x.EI ≤ y.EI ∧ x.EA ≤ y.EA

/-- Among the beams `bs'` are the beams `bs`, in this order, each at least as stiff. -/
def Spec.Stronger (bs bs' : List Piece) : Prop := ∃ bs₀, List.Forall₂ Stiffer bs bs₀ ∧ bs₀.Sublist bs'

theorem stiffer_twice {x y : Piece} (hL : 0 < x.L) (h : Stiffer x y) (U : ℕ → ℕ → ℝ) : x.twice U ≤ y.twice U := by
  obtain ⟨a, b, X, L, EI, EA, γ, ν⟩ := x
  obtain ⟨a', b', X', L', EI', EA', γ', ν'⟩ := y
  obtain ⟨h1, h2, h3, h4, h5, h6⟩ := h
  dsimp only at h1 h2 h3 h4 h5 h6 hL
  subst h1 h2 h3 h4
  unfold Piece.twice
  dsimp only
  refine add_le_add (mul_le_mul_of_nonneg_right h5 ?_) (mul_le_mul_of_nonneg_right h6 ?_)
  · exact intervalIntegral.integral_nonneg hL.le fun s _ => sq_nonneg _
  · exact intervalIntegral.integral_nonneg hL.le fun s _ => sq_nonneg _

theorem stronger_energy (hb : FramePieces mats nodes elements bs) (hb' : FramePieces mats' nodes elements' bs') (he' : Elastic bs')
    (h : Stronger bs bs') (U : ℕ → ℕ → ℝ) : beamsEnergy bs U ≤ beamsEnergy bs' U := by
  obtain ⟨bs₀, h1, h2⟩ := h
  have hL : ∀ x ∈ bs, 0 < x.L := fun x hx => by
    obtain ⟨el, -, h⟩ := forall₂_mem hb hx
    exact h.length.1
  have hL' : ∀ x ∈ bs', 0 < x.L := fun x hx => by
    obtain ⟨el, -, h⟩ := forall₂_mem hb' hx
    exact h.length.1
  refine le_trans (b := beamsEnergy bs₀ U) ?_ ?_
  · clear h2 hb
    unfold beamsEnergy
    induction h1 with
    | nil => rfl
    | cons g _ ih =>
      simp only [List.map_cons, List.sum_cons]
      have := stiffer_twice (hL _ List.mem_cons_self) g U
      have := ih fun x hx => hL x (List.mem_cons_of_mem _ hx)
      linarith
  · refine (h2.map _).sum_le_sum fun y hy => ?_
    obtain ⟨x, hx, rfl⟩ := List.mem_map.1 hy
    have := piece_nonneg (hL' x hx) (he' x hx).1 (he' x hx).2 U
    positivity

/-- C129.  More supports, stiffer beams and further beams: a stable frame remains stable, and the loads do at most as much work. -/
theorem C129_stronger (hs : SqrtFn sq) (hf : Frame cons nodes elements) (hf' : Frame cons' nodes elements')
    (hb : FramePieces mats nodes elements bs) (hb' : FramePieces mats' nodes elements' bs') (he : Elastic bs) (he' : Elastic bs')
    (hstr : Stronger bs bs') (hc : ∀ p j, Free cons' 3 p j → Free cons 3 p j)
    (hk : List.Forall₂ (IsMember (Routine sq) mats nodes) elements ks) (hk' : List.Forall₂ (IsMember (Routine sq) mats' nodes) elements' ks')
    (hst : Stable cons 3 ks) : Stable cons' 3 ks' ∧ ∀ {sp de : Sol.Solver ℝ}, SolverOk sp → SolverOk de → ∀ {loads full full' : Table ℝ}
      {F : ℕ → ℕ → ℝ} {sparse sparse' : Bool}, FrameLoads nodes.length loads F →
      frameRun sq sp de sparse cons elements mats nodes loads = .ok full → frameRun sq sp de sparse' cons' elements' mats' nodes loads = .ok full' →
      frameWork nodes.length F (fieldOf full') ≤ frameWork nodes.length F (fieldOf full) := by
  have hl : cons'.length = cons.length := hf'.size.trans hf.size.symm
  have ha : ∀ u, Admissible cons' 3 u → Admissible cons 3 u := fun u hu p j hp hj hn =>
    hu p j (by rw [hl]; exact hp) hj fun hn' => hn (hc p j hn')
  have hst' : Stable cons' 3 ks' := (C129_stable_iff hs hf' hb' he' hk').2 fun U hU h0 =>
    (C129_stable_iff hs hf hb he hk).1 hst U (ha U hU)
      (le_antisymm ((stronger_energy hb hb' he' hstr U).trans h0.le) (elastic_energy hb he U))
  refine ⟨hst', fun {sp de} hsp hde {loads full full' F sparse sparse'} hF h h' => ?_⟩
  have e1 := C129_stored hs hf hb hk hst hsp hde hF h
  have e2 := C129_stored hs hf' hb' hk' hst' hsp hde hF h'
  have e3 := (C129_minimum hs hf hb he hk hst hsp hde hF h (ha _ (frameRun_equilibrium hf' hk' hst' hsp hde h').1)).1
  have e4 := stronger_energy hb hb' he' hstr (fieldOf full')
  linarith

/-- The same beams, with stiffnesses at least `c` times and masses at most `d` times the former. -/
def Spec.Faster (c d : ℝ) (x y : Piece) : Prop :=
  y.a = x.a ∧ y.b = x.b ∧ y.X = x.X ∧ y.L = x.L ∧ c * x.EI ≤ y.EI ∧ c * x.EA ≤ y.EA ∧ y.γ ≤ d * x.γ ∧ y.ν ≤ d * x.ν

theorem faster_energies (hs : SqrtFn sq) {c d : ℝ} {bs bs' : List Piece} {ks ks' ms ms' : List (Member ℝ)} {elements elements' : List (List ℤ)}
    (hb : FramePieces mats nodes elements bs) (hb' : FramePieces mats' nodes elements' bs')
    (hk : List.Forall₂ (IsMember (Routine sq) mats nodes) elements ks) (hk' : List.Forall₂ (IsMember (Routine sq) mats' nodes) elements' ks')
    (hm : List.Forall₂ (IsMember (MassRoutine sq) mats nodes) elements ms) (hm' : List.Forall₂ (IsMember (MassRoutine sq) mats' nodes) elements' ms')
    (h : List.Forall₂ (Faster c d) bs bs') (U : ℕ → ℕ → ℝ) :
    c * energyOf 3 ks U ≤ energyOf 3 ks' U ∧ energyOf 3 ms' U ≤ d * energyOf 3 ms U := by
  unfold energyOf
  induction h generalizing elements elements' ks ks' ms ms' with
  | nil =>
    cases hb
    cases hb'
    cases hk
    cases hk'
    cases hm
    cases hm'
    simp
  | cons h1 _ ih =>
    cases hb with
    | cons b1 b2 =>
    cases hb' with
    | cons b1' b2' =>
    cases hk with
    | cons k1 k2 =>
    cases hk' with
    | cons k1' k2' =>
    cases hm with
    | cons m1 m2 =>
    cases hm' with
    | cons m1' m2' =>
    obtain ⟨i1, i2⟩ := ih b2 b2' k2 k2' m2 m2'
    simp only [List.map_cons, List.sum_cons]
    rw [(b1.spring hs k1).2, (b1'.spring hs k1').2, (b1.mass hs m1).2, (b1'.mass hs m1').2]
    obtain ⟨h1, h2, h3, h4, h5, h6, h7, h8⟩ := h1
    rw [h1, h2, h3, h4]
    have l := b1.length.1
    generalize deflection _ _ _ _ U = P
    generalize extension _ _ _ _ U = A
    have p1 := bendInt_nonneg l P
    have p2 : 0 ≤ A.coeff 1 * A.coeff 1 * _ := mul_nonneg (mul_self_nonneg _) l.le
    have p3 := prodInt_nonneg l P
    have p4 := prodInt_nonneg l A
    have q1 := mul_le_mul_of_nonneg_right h5 p1
    have q2 := mul_le_mul_of_nonneg_right h6 p2
    have q3 := mul_le_mul_of_nonneg_right h7 p3
    have q4 := mul_le_mul_of_nonneg_right h8 p4
    constructor <;> linarith

/-- C129.  More supports, stiffnesses at least `c` times and masses at most `d` times the former: no squared frequency is less than `c / d`
times the former. -/
theorem C129_frequencies (hs : SqrtFn sq) {c d : ℝ} (hc : 0 < c) (hd : 0 < d)
    (h : BeamModel sq cons mats nodes elements ks ms Kg Mg) (h' : BeamModel sq cons' mats' nodes elements' ks' ms' Kg' Mg')
    (hb : FramePieces mats nodes elements bs) (hb' : FramePieces mats' nodes elements' bs') (he' : Elastic bs')
    (hfa : List.Forall₂ (Faster c d) bs bs') (hfree : ∀ p j, Free cons' 3 p j → Free cons 3 p j)
    (hm : Modes Kg Mg w φ) (hm' : Modes Kg' Mg' w' φ') (k : Fin neq) (k' : Fin neq') (hkk : (k : ℕ) = k') : c / d * w k ≤ w' k' := by
  have hl : cons'.length = cons.length := h'.frame.size.trans h.frame.size.symm
  have hE := faster_energies hs hb hb' h.springs h'.springs h.masses h'.masses hfa
  have h0 := C122_nonneg hs h' (fun el hel => by
    obtain ⟨x, hx, g⟩ := forall₂_mem' hb' hel
    exact ⟨_, _, _, _, _, _, _, _, g, (he' x hx).1, (he' x hx).2⟩) hm' k'
  have key : w k ≤ c⁻¹ / d⁻¹ * w' k' := by
    rw [C122_minmax hs h hm, hkk]
    refine slow_map (T := id) (by positivity) (by positivity) h0 (fun _ _ => rfl) (fun u hu p j hp hj hn =>
      hu p j (by rw [hl]; exact hp) hj fun hn' => hn (hfree p j hn')) (fun u hu => by rw [hl]; exact hu) (fun u => ?_) (fun u => ?_)
      ((C122_minmax hs h' hm' k' _).1 le_rfl)
    · rw [id, ← div_eq_inv_mul, le_div_iff₀ hc, mul_comm]
      exact (hE u).1
    · rw [id, ← div_eq_inv_mul, div_le_iff₀ hd, mul_comm]
      exact (hE u).2
  rw [div_mul_eq_mul_div, div_le_iff₀ hd]
  rw [inv_div_inv, div_mul_eq_mul_div, le_div_iff₀ hc] at key
  linarith

/-- C129.  Further supports never lower a frequency. -/
theorem C129_supports (hs : SqrtFn sq) (h : BeamModel sq cons mats nodes elements ks ms Kg Mg)
    (h' : BeamModel sq cons' mats nodes elements ks' ms' Kg' Mg') (hb : FramePieces mats nodes elements bs) (he : Elastic bs)
    (hfree : ∀ p j, Free cons' 3 p j → Free cons 3 p j)
    (hm : Modes Kg Mg w φ) (hm' : Modes Kg' Mg' w' φ') (k : Fin neq) (k' : Fin neq') (hkk : (k : ℕ) = k') : w k ≤ w' k' := by
  have := C129_frequencies hs one_pos one_pos h h' hb hb he (List.forall₂_same.2 fun x _ => ⟨rfl, rfl, rfl, rfl, by simp⟩) hfree hm hm' k k' hkk
  simpa using this

end
/-- The beams of the frame of the tests. -/
theorem testFrame_pieces : ∃ bs, FramePieces testFrame.2.2.1 testFrame.2.2.2.1 testFrame.2.1 bs ∧ Elastic bs := by
  obtain ⟨a, b, X, L, h0⟩ := testFrame_beams [0, 8, 0, 0, 1] (by simp [testFrame])
  obtain ⟨a', b', X', L', h1⟩ := testFrame_beams [1, 8, 0, 1, 2] (by simp [testFrame])
  refine ⟨[⟨a, b, X, L, _, _, _, _⟩, ⟨a', b', X', L', _, _, _, _⟩], .cons h0 (.cons h1 .nil), ?_⟩
  intro x hx
  simp only [List.mem_cons, List.not_mem_nil, or_false] at hx
  rcases hx with rfl | rfl <;> constructor <;> norm_num

/-- A load on the second of three nodes. -/
theorem second_load (x y z : ℝ) : FrameLoads 3 [[1, x, y, z]] fun p j => if p = 1 then ([x, y, z].getD j 0) else 0 := by
  intro p hp j hj
  by_cases h1 : p = 1
  · subst h1
    refine .inr ⟨[], _, [], rfl, (names_nat (p := 1) (by omega) (by simp)).2 rfl, by simp, ?_⟩
    dsimp only
    rw [if_pos rfl]
    rcases (by omega : j = 0 ∨ j = 1 ∨ j = 2) with rfl | rfl | rfl <;> rfl
  · refine .inl ⟨fun l hl => ?_, if_neg h1⟩
    rw [List.mem_singleton] at hl
    subst hl
    rw [names_nat (p := 1) (by omega) (by simp)]
    exact h1

/-- The unit load method on the frame of the tests: the work of its loads on the displacements under a unit force at the corner is the
displacement of the corner under its loads; and the energy its beams store. -/
example (sparse : Bool) : ∃ bs full full', FramePieces testFrame.2.2.1 testFrame.2.2.2.1 testFrame.2.1 bs ∧
    frameRun Real.sqrt cramerR cramerR sparse testFrame.1 testFrame.2.1 testFrame.2.2.1 testFrame.2.2.2.1 testFrame.2.2.2.2 = .ok full ∧
    frameRun Real.sqrt cramerR cramerR sparse testFrame.1 testFrame.2.1 testFrame.2.2.1 testFrame.2.2.2.1 [[1, 1, 0, 0]] = .ok full' ∧
    -12000 * fieldOf full' 1 0 - 24000 * fieldOf full' 1 1 - 6000 * fieldOf full' 1 2 = -181569276 / 28874167400125 ∧
    beamsEnergy bs (fieldOf full) = (12000 * (181569276 / 28874167400125) + 24000 * (489357306 / 28874167400125) +
      6000 * (507505867191 / 3840264264216625)) / 2 := by
  obtain ⟨bs, hb, he⟩ := testFrame_pieces
  obtain ⟨ks, hk⟩ := pieces_members sqrtFn_real hb
  have hst := testFrame_stable hk
  obtain ⟨full, r, e0, e1, e2⟩ := testFrame_solved sparse
  obtain ⟨full', r', -⟩ := C117_solved (loads := [[1, 1, 0, 0]]) testFrame_frame hk hst cramerR_ok cramerR_ok sparse fun l hl => by
    rw [List.mem_singleton] at hl
    subst hl
    exact ⟨by simp, 1, (names_nat (p := 1) (by simp [testFrame]) (by simp)).2 rfl⟩
  have hF : FrameLoads testFrame.2.2.2.1.length testFrame.2.2.2.2 _ := second_load (-12000) (-24000) (-6000)
  have hF' : FrameLoads testFrame.2.2.2.1.length [[1, 1, 0, 0]] _ := second_load 1 0 0
  have b := C129_reciprocity sqrtFn_real testFrame_frame hb hk hst cramerR_ok cramerR_ok hF hF' r r'
  have c := C129_stored sqrtFn_real testFrame_frame hb hk hst cramerR_ok cramerR_ok hF r
  have l : testFrame.2.2.2.1.length = 3 := rfl
  have f0 : fieldOf full 1 0 = -181569276 / 28874167400125 := by unfold fieldOf; rw [e0]; rfl
  have f1 : fieldOf full 1 1 = -489357306 / 28874167400125 := by unfold fieldOf; rw [e1]; rfl
  have f2 : fieldOf full 1 2 = -507505867191 / 3840264264216625 := by unfold fieldOf; rw [e2]; rfl
  refine ⟨bs, full, full', hb, r, r', ?_, ?_⟩
  · rw [l] at b
    simp [frameWork, Finset.sum_range_succ, f0] at b
    linarith
  · rw [c, l]
    simp [frameWork, Finset.sum_range_succ, f0, f1, f2]
    norm_num

/-- A frame with the beams of the tests and any supports vibrates. -/
theorem testFrame_vibrates {cons : Table ℝ} (hf : Frame cons testFrame.2.2.2.1 testFrame.2.1) : ∃ (neq : ℕ) (Kg Mg : Matrix (Fin neq) (Fin neq) ℝ)
    (ks ms : List (Member ℝ)) (w : Fin neq → ℝ) (φ : Fin neq → Fin neq → ℝ),
    BeamModel Real.sqrt cons testFrame.2.2.1 testFrame.2.2.2.1 testFrame.2.1 ks ms Kg Mg ∧ Modes Kg Mg w φ := by
  obtain ⟨bs, hb, he⟩ := testFrame_pieces
  obtain ⟨ks, hk⟩ := pieces_members sqrtFn_real hb
  obtain ⟨op, bc, neq, Kg, Mg, h1, h2⟩ := C117_assembled hf hk true
  obtain ⟨ms, s⟩ := frame_mass_setup hf h1 h2
  have hB : BeamModel Real.sqrt cons testFrame.2.2.1 testFrame.2.2.2.1 testFrame.2.1 ks ms Kg Mg :=
    ⟨hf, fun el hel => by
      obtain ⟨a, b, X, L, h⟩ := testFrame_beams el hel
      exact ⟨a, b, X, L, _, _, _, _, h, by norm_num⟩, hk, s.mem, op, bc, true, h1, h2⟩
  have hl : Laden cons 3 ms := (C122_laden_iff sqrtFn_real hB (by simp [testFrame])).2 fun p j hfr => by
    have hp := free_lt hfr
    rw [hf.size] at hp
    have hp : p < 3 := hp
    rcases (by omega : p = 0 ∨ p = 1 ∨ p = 2) with rfl | rfl | rfl
    · exact ⟨[0, 8, 0, 0, 1], by simp [testFrame], 0, by simp, by simp [testFrame], .inl rfl⟩
    · exact ⟨[0, 8, 0, 0, 1], by simp [testFrame], 1, by simp, by simp [testFrame], .inl rfl⟩
    · exact ⟨[1, 8, 0, 1, 2], by simp [testFrame], 2, by simp, by simp [testFrame], .inl rfl⟩
  obtain ⟨w, φ, hm, -⟩ := C122_modes sqrtFn_real hB hl
  exact ⟨neq, Kg, Mg, ks, ms, w, φ, hB, hm⟩

/-- Clamping an end of the frame of the tests that was pinned before: no frequency is lower. -/
example : ∃ (neq neq' : ℕ) (Kg Mg : Matrix (Fin neq) (Fin neq) ℝ) (Kg' Mg' : Matrix (Fin neq') (Fin neq') ℝ) (ks ms ks' ms' : List (Member ℝ))
    (w : Fin neq → ℝ) (w' : Fin neq' → ℝ) (φ : Fin neq → Fin neq → ℝ) (φ' : Fin neq' → Fin neq' → ℝ),
    BeamModel Real.sqrt [[-1, -1, -1], [0, 0, 0], [-1, -1, 0]] testFrame.2.2.1 testFrame.2.2.2.1 testFrame.2.1 ks ms Kg Mg ∧
    BeamModel Real.sqrt testFrame.1 testFrame.2.2.1 testFrame.2.2.2.1 testFrame.2.1 ks' ms' Kg' Mg' ∧ Modes Kg Mg w φ ∧ Modes Kg' Mg' w' φ' ∧
    ∀ (k : Fin neq) (k' : Fin neq'), (k : ℕ) = k' → w k ≤ w' k' := by
  have hf : Frame [[-1, -1, -1], [0, 0, 0], [-1, -1, 0]] testFrame.2.2.2.1 testFrame.2.1 :=
    ⟨fun i j v hj hv => by
      obtain ⟨row, h1, h2⟩ := entry_some.1 hv
      have hlt : i < 3 := (List.getElem?_eq_some_iff.1 h1).1
      rcases (by omega : i = 0 ∨ i = 1 ∨ i = 2) with rfl | rfl | rfl <;> rcases (by omega : j = 0 ∨ j = 1 ∨ j = 2) with rfl | rfl | rfl <;>
        simp at h1 <;> subst h1 <;> simp at h2 <;> simp [← h2], by simp, rfl, testFrame_frame.beams⟩
  obtain ⟨bs, hb, he⟩ := testFrame_pieces
  obtain ⟨neq, Kg, Mg, ks, ms, w, φ, h1, h2⟩ := testFrame_vibrates hf
  obtain ⟨neq', Kg', Mg', ks', ms', w', φ', h1', h2'⟩ := testFrame_vibrates testFrame_frame
  refine ⟨neq, neq', Kg, Mg, Kg', Mg', ks, ms, ks', ms', w, w', φ, φ', h1, h1', h2, h2', fun k k' hkk =>
    C129_supports sqrtFn_real h1 h1' hb he (fun p j hfr => ?_) h2 h2' k k' hkk⟩
  obtain ⟨rfl, hj⟩ := (testFrame_free p j).1 hfr
  refine ⟨hj, 0, ?_, by norm_num⟩
  rcases (by omega : j = 0 ∨ j = 1 ∨ j = 2) with rfl | rfl | rfl <;> rfl

end SolidsPy
