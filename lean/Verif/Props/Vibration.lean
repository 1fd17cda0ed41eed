import Verif.Proofs.Pencil
import Verif.Props.BlochModes
import Verif.Props.BarModes
import Mathlib.Order.WellFounded

/-! # C119: the vibration modes of an assembled model -/

set_option linter.unusedSectionVars false

namespace SolidsPy
open Spec Assem Matrix

/-- Twice the energy of the field in the members. -/
def Spec.energyOf {K : Type} [Field K] (nd : ℕ) (ms : List (Member K)) (u : ℕ → ℕ → K) : K := (ms.map fun m => m.form nd u u).sum

/-- Some `r` independent admissible fields exist, on all combinations of which the energy in the springs `ks` is at most `t` times
the energy in the masses `ms`.  Neither matrices nor equation numbers appear. -/
def Spec.Slow (cons : List (List ℝ)) (nd : ℕ) (ks ms : List (Member ℝ)) (t : ℝ) (r : ℕ) : Prop :=
  ∃ u : Fin r → ℕ → ℕ → ℝ, (∀ a, Admissible cons nd (u a)) ∧
    (∀ c : Fin r → ℝ, (∀ p < cons.length, ∀ j < nd, ∑ a, c a * u a p j = 0) → c = 0) ∧
    ∀ c : Fin r → ℝ, energyOf nd ks (fun p j => ∑ a, c a * u a p j) ≤ t * energyOf nd ms (fun p j => ∑ a, c a * u a p j)

/-- Every element has positive mass: bars of positive area, plane elements, and positive densities. -/
def Spec.Massive {K : Type} [Field K] [LinearOrder K] [IsStrictOrderedRing K] [FloorRing K] (d : Gui.Data K) : Prop :=
  ∀ el ∈ d.elements, HeavyBar d el ∨ Heavy { d with elements := [el] }

section
variable {fn fn' : ℤ → Uel ℝ → Prop} {cons mats nodes : Table ℝ} {els : List (List ℤ)} {nd neq : ℕ} {bc : List (List ℤ)}
  {Kg Mg : Matrix (Fin neq) (Fin neq) ℝ} {ks ms : List (Member ℝ)} {w : Fin neq → ℝ} {φ : Fin neq → Fin neq → ℝ}

theorem Completes.sum {r : ℕ} {u : Fin r → Fin neq → ℝ} {U : Fin r → ℕ → ℕ → ℝ}
    (h : ∀ a, Completes cons bc nd neq (u a) (U a)) (c : Fin r → ℝ) :
    Completes cons bc nd neq (∑ a, c a • u a) (fun p j => ∑ a, c a * U a p j) := by
  intro p hp j hj
  constructor
  · intro i hi
    rw [Finset.sum_apply]
    exact Finset.sum_congr rfl fun a _ => by rw [(h a p hp j hj).1 i hi]; rfl
  · intro hno
    exact Finset.sum_eq_zero fun a _ => by rw [(h a p hp j hj).2 hno, mul_zero]

theorem Completes.zero_iff (heq : eqcounter cons nd = .ok (neq, bc)) {u : Fin neq → ℝ} {U : ℕ → ℕ → ℝ}
    (h : Completes cons bc nd neq u U) : (∀ p < cons.length, ∀ j < nd, U p j = 0) ↔ u = 0 := by
  constructor
  · intro h0
    funext i
    obtain ⟨p, j, hf, hr⟩ := exists_free heq i.2
    have hi : DofEq bc neq p j i := ⟨i, by rw [(free_entry heq hf).1, hr], by omega, i.2, Or.inl rfl⟩
    rw [← (h p (free_lt hf) j hf.1).1 i hi]
    exact h0 p (free_lt hf) j hf.1
  · rintro rfl p hp j hj
    by_cases hex : ∃ i : Fin neq, DofEq bc neq p j i
    · obtain ⟨i, hi⟩ := hex
      exact (h p hp j hj).1 i hi
    · push Not at hex
      exact (h p hp j hj).2 hex

theorem slow_iff (s : Setup fn cons els mats nodes nd neq bc Kg ks) (s' : Setup fn' cons els mats nodes nd neq bc Mg ms)
    (h : Modes Kg Mg w φ) (hM : Mg.IsSymm) (k : Fin neq) (t : ℝ) : w k ≤ t ↔ Slow cons nd ks ms t (k + 1) := by
  rw [h.minmax hM]
  constructor
  · rintro ⟨u, hu, hb⟩
    choose U hU using fun a => exists_completes (cons := cons) bc nd (u a)
    refine ⟨U, fun a => completes_admissible s.eq s.valid (hU a), fun c hc => ?_, fun c => ?_⟩
    · have := (Completes.zero_iff s.eq (Completes.sum hU c)).1 hc
      exact funext (Fintype.linearIndependent_iff.1 hu c this)
    · have := hb c
      unfold dotProduct at this
      rwa [reduced_form s (Completes.sum hU c) (Completes.sum hU c), reduced_form s' (Completes.sum hU c) (Completes.sum hU c)] at this
  · rintro ⟨U, ha, hi, hb⟩
    choose u hU using fun a => exists_reduced s.eq s.valid (ha a)
    refine ⟨u, ?_, fun c => ?_⟩
    · rw [Fintype.linearIndependent_iff]
      intro c hc a
      rw [hi c ((Completes.zero_iff s.eq (Completes.sum hU c)).2 hc)]
      rfl
    · have := hb c
      unfold energyOf at this
      unfold dotProduct
      rwa [reduced_form s (Completes.sum hU c) (Completes.sum hU c), reduced_form s' (Completes.sum hU c) (Completes.sum hU c)]

end

section
variable {sq : ℝ → ℝ} {d d' : Gui.Data ℝ} {op bc op' bc' : List (List ℤ)} {neq neq' : ℕ}
  {Kg Mg : Matrix (Fin neq) (Fin neq) ℝ} {Kg' Mg' : Matrix (Fin neq') (Fin neq') ℝ} {ks ms ks' ms' : List (Member ℝ)}
  {w : Fin neq → ℝ} {φ : Fin neq → Fin neq → ℝ} {w' : Fin neq' → ℝ} {φ' : Fin neq' → Fin neq' → ℝ}

theorem masses_symm (hs : SqrtFn sq) (h3 : ∀ r ∈ d.nodes, r.length = 3) (hh : Massive d) (hms : Masses sq d ms) :
    ∀ m ∈ ms, ∀ v u, m.form 2 v u = m.form 2 u v := by
  intro m hm v u
  obtain ⟨e, he, rfl⟩ := List.mem_iff_getElem.1 hm
  have he' : e < d.elements.length := by rw [hms.length_eq]; exact he
  have hmem := hms.get (i := e) he' he
  rw [List.get_eq_getElem, List.get_eq_getElem] at hmem
  rcases hh _ (List.getElem_mem he') with ⟨c1, c2, -⟩ | hc
  · obtain ⟨mi, q, params, X, k, mm, b1, b2, b3, hr, hp⟩ := bar_mass_placed hmem h3 c1 c2
    rw [hp.form, hp.form]
    obtain ⟨hX, hl⟩ := (C51_accepts_iff hs X params).1 ⟨_, _, hr⟩
    obtain ⟨L, hL⟩ := exists_length hs hX
    obtain ⟨E, A, rest, rfl⟩ : ∃ E A rest, params = E :: A :: rest := by
      match params, hl with
      | E :: A :: rest, _ => exact ⟨E, A, rest, rfl⟩
    obtain ⟨-, rfl⟩ := (truss_returns hs hL).1 hr
    refine quad_form_symm (Matrix.IsSymm.ext fun p q => ?_) _ _
    unfold barM
    rw [Matrix.of_apply, Matrix.of_apply]
    simp only [eq_comm]
  · obtain ⟨ty, mi, q, E, nu, rest, c1, c2, c3, c4, c5, c6⟩ := hc _ (List.mem_singleton.2 rfl)
    obtain ⟨mi', q', params, n, f, X, k, mm, a1, a2, a3, a4, a5, a6, a7⟩ := mass_placed hmem c1 c2
    rw [a7.form, a7.form]
    exact quad_form_symm (C38_plane_symmetric a5 a6).2 _ _

/-- A model of plane elements and bars of positive mass, whose stiffness and mass matrices were assembled and in which every node that
can move belongs to an element. -/
structure Vibrating (sq : ℝ → ℝ) (d : Gui.Data ℝ) (ks ms : List (Member ℝ)) {neq : ℕ} (Kg Mg : Matrix (Fin neq) (Fin neq) ℝ) : Prop where
  plane : PlaneModel d
  wf : WellFormed d
  massive : Massive d
  used : ∀ p j, Free d.cons 2 p j → ∃ el ∈ d.elements, ∃ id ∈ el.drop 3, Resolves d.nodes.length id p
  springs : Members sq d ks
  masses : Masses sq d ms
  run : ∃ op bc, dme d.cons d.elements = .ok (op, bc, neq) ∧
    assembler (Uel.eleFun sq) d.elements d.mats d.nodes neq op = .ok (Kg, Mg)

theorem Vibrating.setups (h : Vibrating sq d ks ms Kg Mg) : ∃ bc, Setup (Routine sq) d.cons d.elements d.mats d.nodes 2 neq bc Kg ks ∧
    Setup (MassRoutine sq) d.cons d.elements d.mats d.nodes 2 neq bc Mg ms := by
  obtain ⟨op, bc, h1, h2⟩ := h.run
  obtain ⟨ks', s⟩ := auto_setup h1 h2 h.wf.codes h.wf.width h.wf.size
  obtain ⟨ms', s'⟩ := mass_setup h1 h2 h.wf
  obtain rfl := members_unique h.springs s.mem
  obtain rfl := masses_unique h.masses s'.mem
  exact ⟨bc, s, s'⟩

theorem Vibrating.mass (hs : SqrtFn sq) (h : Vibrating sq d ks ms Kg Mg) :
    Mg.IsSymm ∧ ∀ v, v ≠ 0 → 0 < v ⬝ᵥ Mg.mulVec v := by
  obtain ⟨bc, s, s'⟩ := h.setups
  obtain ⟨op, bc, h1, h2⟩ := h.run
  exact ⟨assembled_symm s' (masses_symm hs h.plane.nodes h.massive h.masses),
    (C114_definite_with_bars hs h.wf h.plane.nodes h.massive h1 h2).2 h.used⟩

/-- C119.  The assembled pair has as many real modes as equations.  They are orthonormal in the mass, every vector is the sum of its
components along them, and their frequencies are the only ones in which the model can vibrate. -/
theorem C119_modes (hs : SqrtFn sq) (h : Vibrating sq d ks ms Kg Mg) : ∃ w φ, Modes Kg Mg w φ ∧
    (∀ v : Fin neq → ℝ, v = ∑ k, (φ k ⬝ᵥ Mg.mulVec v) • φ k) ∧
    ∀ t, (∃ v, v ≠ 0 ∧ Kg.mulVec v = t • Mg.mulVec v) ↔ ∃ k, w k = t := by
  obtain ⟨bc, s, s'⟩ := h.setups
  obtain ⟨w, φ, hm⟩ := exists_modes (assembled_symm s (C93_elements hs h.plane h.springs).1) (h.mass hs).1 (h.mass hs).2
  exact ⟨w, φ, hm, hm.expand, hm.eigen_iff⟩

/-- C119.  The squared frequency number `k` is at most `t` exactly when some `k + 1` independent admissible fields store, in all their
combinations, at most `t` times as much energy in the springs as in the masses. -/
theorem C119_minmax (hs : SqrtFn sq) (h : Vibrating sq d ks ms Kg Mg) (hm : Modes Kg Mg w φ) (k : Fin neq) (t : ℝ) :
    w k ≤ t ↔ Slow d.cons 2 ks ms t (k + 1) := by
  obtain ⟨bc, s, s'⟩ := h.setups
  exact slow_iff s s' hm (h.mass hs).1 k t

/-- The frequencies depend on the supports and the energies only. -/
theorem frequencies_le (hs : SqrtFn sq) (h : Vibrating sq d ks ms Kg Mg) (hm : Modes Kg Mg w φ) (h' : Vibrating sq d' ks' ms' Kg' Mg')
    (hm' : Modes Kg' Mg' w' φ') (k : Fin neq) (k' : Fin neq') (hk : (k : ℕ) = k')
    (H : ∀ t r, Slow d'.cons 2 ks' ms' t r → Slow d.cons 2 ks ms t r) : w k ≤ w' k' := by
  rw [C119_minmax hs h hm, hk]
  exact H _ _ ((C119_minmax hs h' hm' k' _).1 le_rfl)

/-- C119.  Two orthonormal systems of modes have the same frequencies. -/
theorem C119_unique (hs : SqrtFn sq) (h : Vibrating sq d ks ms Kg Mg) (hm : Modes Kg Mg w φ) {w₂ φ₂} (hm' : Modes Kg Mg w₂ φ₂) :
    w = w₂ :=
  funext fun k => le_antisymm (frequencies_le hs h hm h hm' k k rfl fun _ _ => id) (frequencies_le hs h hm' h hm k k rfl fun _ _ => id)

theorem Vibrating.semidefinite (hs : SqrtFn sq) (h : Vibrating sq d ks ms Kg Mg) (hphys : Physical d) (v : Fin neq → ℝ) :
    0 ≤ v ⬝ᵥ Kg.mulVec v := by
  obtain ⟨bc, s, s'⟩ := h.setups
  obtain ⟨V, hV⟩ := exists_completes (cons := d.cons) bc 2 v
  unfold dotProduct
  rw [reduced_form s hV hV]
  refine List.sum_nonneg fun y hy => ?_
  obtain ⟨m, hm, rfl⟩ := List.mem_map.1 hy
  exact (C93_elements hs h.plane h.springs).2 hphys m hm V

theorem Modes.quotient (h : Modes Kg Mg w φ) (k : Fin neq) : φ k ⬝ᵥ Kg.mulVec (φ k) = w k := by
  rw [h.motion, dotProduct_smul, h.normal, if_pos rfl, smul_eq_mul, mul_one]

/-- C119.  Physical materials: no squared frequency is negative. -/
theorem C119_nonneg (hs : SqrtFn sq) (h : Vibrating sq d ks ms Kg Mg) (hphys : Physical d) (hm : Modes Kg Mg w φ) (k : Fin neq) :
    0 ≤ w k := by
  rw [← Modes.quotient hm k]
  exact h.semidefinite hs hphys _

/-- C119.  All frequencies are positive exactly when the supports hold the model. -/
theorem C119_positive_iff (hs : SqrtFn sq) (h : Vibrating sq d ks ms Kg Mg) (hphys : Physical d) (hm : Modes Kg Mg w φ) :
    (∀ k, 0 < w k) ↔ Stable d.cons 2 ks := by
  obtain ⟨bc, s, s'⟩ := h.setups
  have e : (∀ k, 0 < w k) ↔ ¬ ∃ k, w k = 0 := by
    constructor
    · rintro h0 ⟨k, hk⟩
      exact (h0 k).ne' hk
    · intro h0 k
      exact lt_of_le_of_ne (C119_nonneg hs h hphys hm k) fun hk => h0 ⟨k, hk.symm⟩
  rw [e, ← hm.eigen_iff]
  constructor
  · intro h0
    refine stable_of_det_ne_zero s fun hd => h0 ?_
    obtain ⟨v, hv, hz⟩ := Matrix.exists_mulVec_eq_zero_iff.2 hd
    exact ⟨v, hv, by rw [hz, zero_smul]⟩
  · rintro hst ⟨v, hv, hz⟩
    exact det_ne_zero_of_stable s hst (Matrix.exists_mulVec_eq_zero_iff.1 ⟨v, hv, by rw [hz, zero_smul]⟩)

/-- C119.  The static response to a load is the sum of the responses of the modes. -/
theorem C119_static (hs : SqrtFn sq) (h : Vibrating sq d ks ms Kg Mg) (hphys : Physical d) (hm : Modes Kg Mg w φ)
    (hst : Stable d.cons 2 ks) {u f : Fin neq → ℝ} : Kg.mulVec u = f ↔ u = ∑ k, (φ k ⬝ᵥ f / w k) • φ k := by
  have hpos := (C119_positive_iff hs h hphys hm).2 hst
  obtain ⟨bc, s, s'⟩ := h.setups
  have hK := assembled_symm s (C93_elements hs h.plane h.springs).1
  have key : ∀ u k, φ k ⬝ᵥ Kg.mulVec u = w k * (φ k ⬝ᵥ Mg.mulVec u) := by
    intro u k
    rw [dotProduct_symm hK, hm.motion, dotProduct_smul, smul_eq_mul, dotProduct_symm (h.mass hs).1]
  have one : ∀ u, u = ∑ k, (φ k ⬝ᵥ Kg.mulVec u / w k) • φ k := by
    intro u
    conv_lhs => rw [hm.expand u]
    refine Finset.sum_congr rfl fun k _ => ?_
    rw [key, mul_div_cancel_left₀ _ (hpos k).ne']
  constructor
  · rintro rfl
    exact one u
  · intro hu
    obtain ⟨u', hu'⟩ : ∃ u', Kg.mulVec u' = f := by
      have hd := det_ne_zero_of_stable s hst
      exact ⟨Kg⁻¹.mulVec f, by rw [Matrix.mulVec_mulVec, Matrix.mul_nonsing_inv _ (isUnit_iff_ne_zero.2 hd), Matrix.one_mulVec]⟩
    have := one u'
    rw [hu', ← hu] at this
    rw [← this, hu']

/-- `r` independent rigid motions that the supports allow. -/
def Spec.FreeMotions (cons nodes : List (List ℝ)) (r : ℕ) : Prop :=
  ∃ g : Fin r → Motion ℝ, (∀ a, Admissible cons 2 ((g a).move nodes)) ∧
    ∀ c : Fin r → ℝ, ∑ a, c a * (g a).x = 0 → ∑ a, c a * (g a).y = 0 → ∑ a, c a * (g a).spin = 0 → c = 0

theorem motion_sum {r : ℕ} (g : Fin r → Motion ℝ) (c : Fin r → ℝ) (nodes : Table ℝ) (p j : ℕ) :
    ∑ a, c a * (g a).move nodes p j =
      (⟨∑ a, c a * (g a).x, ∑ a, c a * (g a).y, ∑ a, c a * (g a).spin⟩ : Motion ℝ).move nodes p j := by
  unfold Motion.move
  split
  · simp only [mul_sub, Finset.sum_sub_distrib, Finset.sum_mul, mul_assoc]
  · simp only [mul_add, Finset.sum_add_distrib, Finset.sum_mul, mul_assoc]

/-- C119.  A connected mesh has as many zero frequencies as its supports leave independent rigid motions. -/
theorem C119_zero_iff (hs : SqrtFn sq) (h : Vibrating sq d ks ms Kg Mg) (hmesh : SolidMesh sq d ks) (hm : Modes Kg Mg w φ)
    {a b : ℕ} (ha : a < d.nodes.length) (hb : b < d.nodes.length) (hab : Apart d.nodes a b) (k : Fin neq) :
    w k = 0 ↔ FreeMotions d.cons d.nodes (k + 1) := by
  have hne : ks ≠ [] := by
    obtain ⟨m, hm, -⟩ := hmesh.used a ha
    exact List.ne_nil_of_mem hm
  have hpsd := (C93_elements hs h.plane h.springs).2 hmesh.physical
  have e : w k = 0 ↔ w k ≤ 0 := ⟨fun h => h.le, fun h0 => le_antisymm h0 (C119_nonneg hs h hmesh.physical hm k)⟩
  rw [e, C119_minmax hs h hm]
  constructor
  · rintro ⟨u, hu, hi, hb⟩
    have hz : ∀ a, ∃ g : Motion ℝ, ∀ p < d.nodes.length, ∀ j < 2, u a p j = g.move d.nodes p j := by
      intro a
      rw [← C95_zero_energy hs hmesh hne]
      have h0 := hb (Pi.single a 1)
      have e1 : (fun p j => ∑ b, (Pi.single a 1 : Fin (k + 1) → ℝ) b * u b p j) = u a := by
        funext p j
        rw [Finset.sum_eq_single a (by intro b _ hb; simp [hb]) (by simp)]
        simp
      rw [e1, zero_mul] at h0
      exact (sum_pos_zero fun m hm => hpsd m hm (u a)).1 (le_antisymm h0 (List.sum_nonneg fun y hy => by
        obtain ⟨m, hm, rfl⟩ := List.mem_map.1 hy
        exact hpsd m hm _))
    choose g hg using hz
    refine ⟨g, fun a p j hp hj hf => ?_, fun c hx hy hw => hi c fun p hp j hj => ?_⟩
    · rw [← hg a p (by rw [← h.wf.size]; exact hp) j hj]
      exact hu a p j hp hj hf
    · rw [Finset.sum_congr rfl fun a _ => by rw [hg a p (by rw [← h.wf.size]; exact hp) j hj], motion_sum, hx, hy, hw]
      unfold Motion.move
      split <;> simp
  · rintro ⟨g, hg, hi⟩
    refine ⟨fun a => (g a).move d.nodes, hg, fun c hc => ?_, fun c => ?_⟩
    · simp only [motion_sum] at hc
      have := motion_ext (g := ⟨∑ a, c a * (g a).x, ∑ a, c a * (g a).y, ∑ a, c a * (g a).spin⟩) (g' := ⟨0, 0, 0⟩) hab
        (fun j hj => by rw [hc a (by rw [h.wf.size]; exact ha) j hj]; unfold Motion.move; split <;> simp)
        (fun j hj => by rw [hc b (by rw [h.wf.size]; exact hb) j hj]; unfold Motion.move; split <;> simp)
      rw [Motion.mk.injEq] at this
      exact hi c this.1 this.2.1 this.2.2
    · rw [zero_mul]
      apply le_of_eq
      simp only [motion_sum]
      refine List.sum_eq_zero fun y hy => ?_
      obtain ⟨m, hm, rfl⟩ := List.mem_map.1 hy
      exact hmesh.form_motion hs hm _

/-- C119.  A connected mesh without supports has exactly three zero frequencies. -/
theorem C119_floating (hs : SqrtFn sq) (h : Vibrating sq d ks ms Kg Mg) (hmesh : SolidMesh sq d ks) (hm : Modes Kg Mg w φ)
    {a b : ℕ} (ha : a < d.nodes.length) (hb : b < d.nodes.length) (hab : Apart d.nodes a b)
    (hfree : ∀ p < d.nodes.length, ∀ j < 2, Free d.cons 2 p j) (k : Fin neq) : w k = 0 ↔ (k : ℕ) < 3 := by
  rw [C119_zero_iff hs h hmesh hm ha hb hab]
  constructor
  · rintro ⟨g, -, hi⟩
    by_contra hk
    let A : Matrix (Fin 3) (Fin (k + 1)) ℝ := Matrix.of fun l a => ![(g a).x, (g a).y, (g a).spin] l
    obtain ⟨c, hz, hc⟩ := (Submodule.ne_bot_iff _).1 (LinearMap.ker_ne_bot_of_finrank_lt (f := A.mulVecLin) (by simp; omega))
    have hz : A.mulVec c = 0 := LinearMap.mem_ker.1 hz
    have get : ∀ l, ∑ a, c a * A l a = 0 := by
      intro l
      exact (by simp [Matrix.mulVec, dotProduct, mul_comm] : _ = A.mulVec c l).trans (congrFun hz l)
    exact hc (hi c (get 0) (get 1) (get 2))
  · intro hk
    refine ⟨fun a => ⟨if (a : ℕ) = 0 then 1 else 0, if (a : ℕ) = 1 then 1 else 0, if (a : ℕ) = 2 then 1 else 0⟩, ?_, ?_⟩
    · intro a p j hp hj hf
      exact absurd (hfree p (by rw [← h.wf.size]; exact hp) j hj) hf
    · intro c hx hy hw
      dsimp only at hx hy hw
      have one : ∀ i : Fin (k + 1), ∑ a, c a * (if (a : ℕ) = i then 1 else 0) = c i := by
        intro i
        rw [Finset.sum_eq_single i (by intro b _ hb; rw [if_neg (fun h => hb (Fin.ext h)), mul_zero]) (by simp)]
        simp
      funext i
      rcases (by omega : (i : ℕ) = 0 ∨ (i : ℕ) = 1 ∨ (i : ℕ) = 2) with h0 | h0 | h0
      · rw [← one i, h0]; exact hx
      · rw [← one i, h0]; exact hy
      · rw [← one i, h0]; exact hw

/-- C119.  With supports that hold the mesh there is no zero frequency. -/
theorem C119_held (hs : SqrtFn sq) (h : Vibrating sq d ks ms Kg Mg) (hmesh : SolidMesh sq d ks) (hm : Modes Kg Mg w φ) :
    (∀ k, 0 < w k) ↔ Supported d.cons d.nodes := by
  rw [C119_positive_iff hs h hmesh.physical hm, C95_stable_iff hs hmesh h.wf]

/-- A model that assembles vibrates. -/
theorem exists_vibrating (hp : PlaneModel d) (hwf : WellFormed d) (hms : Members sq d ks) (hh : Massive d)
    (hu : ∀ p j, Free d.cons 2 p j → ∃ el ∈ d.elements, ∃ id ∈ el.drop 3, Resolves d.nodes.length id p) :
    ∃ (neq : ℕ) (Kg Mg : Matrix (Fin neq) (Fin neq) ℝ) (ms : List (Member ℝ)), Vibrating sq d ks ms Kg Mg := by
  obtain ⟨op, bc, neq, Kg, Mg, h1, h2⟩ := plane_assembly hp hwf hms
  obtain ⟨ms, s⟩ := mass_setup h1 h2 hwf
  exact ⟨neq, Kg, Mg, ms, hp, hwf, hh, hu, hms, s.mem, op, bc, h1, h2⟩

theorem UniformBar.vibrating {n : ℕ} {h E A ρ : ℝ} (hb : UniformBar d n h E A ρ) (hs : SqrtFn sq) (hh : 0 < h) (hA : 0 < A) (hρ : 0 < ρ)
    (h1 : dme d.cons d.elements = .ok (op, bc, neq))
    (h2 : assembler (Uel.eleFun sq) d.elements d.mats d.nodes neq op = .ok (Kg, Mg)) : ∃ ks ms, Vibrating sq d ks ms Kg Mg := by
  obtain ⟨ks, hks⟩ := hb.exists_members hs hh
  obtain ⟨ms, s⟩ := mass_setup h1 h2 hb.wf
  refine ⟨ks, ms, hb.model, hb.wf, fun el hel => ?_, fun p j hf => ?_, hks, s.mem, op, bc, h1, h2⟩
  · left
    obtain ⟨e, he, rfl⟩ := List.mem_iff_getElem.1 hel
    obtain ⟨id, hid⟩ := hb.bar e (by rw [← hb.bars]; exact he)
    rw [List.getElem?_eq_getElem he, Option.some.injEq] at hid
    rw [hid]
    have hm := (List.getElem?_eq_some_iff.1 hb.material).1
    exact ⟨rfl, rfl, 0, 0, E, A, [ρ], rfl, ⟨hm, .inl rfl⟩, hb.material, hA, by simpa using hρ⟩
  · obtain ⟨-, h0, hn⟩ := hb.free_iff.1 hf
    obtain ⟨id, hid⟩ := hb.bar p hn
    refine ⟨_, List.mem_of_getElem? hid, (p : ℤ), by simp, ⟨by rw [hb.count]; omega, .inl rfl⟩⟩

/-- C119.  For the uniform bar clamped at both ends, the frequencies in increasing order, with multiplicity, are those of C116. -/
theorem C119_bar {n : ℕ} {h E A ρ : ℝ} (hb : UniformBar d n h E A ρ) (hs : SqrtFn sq) (hh : 0 < h) (hE : 0 < E) (hA : 0 < A)
    (hρ : 0 < ρ) (h1 : dme d.cons d.elements = .ok (op, bc, neq))
    (h2 : assembler (Uel.eleFun sq) d.elements d.mats d.nodes neq op = .ok (Kg, Mg)) (hm : Modes Kg Mg w φ) :
    neq = n - 1 ∧ ∀ k, w k = barFreq n (k + 1) h E ρ := by
  have key : ∀ t, (∃ k, w k = t) ↔ ∃ k, 0 < k ∧ k < n ∧ t = barFreq n k h E ρ := by
    intro t
    rw [← hm.eigen_iff, C116_frequencies hb hs hh hE hA hρ h1 h2]
  have hsz := hb.size_le h1
  have hf : StrictMono fun k : Fin (n - 1) => barFreq n (k + 1) h E ρ := by
    intro a b hab
    exact barFreq_lt hh hE hρ (by omega) (by rw [Fin.lt_def] at hab; omega) (by omega)
  have hr : Set.range w = Set.range fun k : Fin (n - 1) => barFreq n (k + 1) h E ρ := by
    ext t
    rw [Set.mem_range, key, Set.mem_range]
    constructor
    · rintro ⟨k, hk, hkn, rfl⟩
      exact ⟨⟨k - 1, by omega⟩, by dsimp only; rw [Nat.sub_add_cancel hk]⟩
    · rintro ⟨k, rfl⟩
      exact ⟨k + 1, by omega, by omega, rfl⟩
  have hcard : n - 1 ≤ neq := by
    have := Set.ncard_le_ncard hr.symm.le (Set.finite_range w)
    rw [← Set.image_univ, Set.ncard_image_of_injective _ hf.injective, Set.ncard_univ, Nat.card_fin, ← Set.image_univ] at this
    refine this.trans ((Set.ncard_image_le Set.finite_univ).trans ?_)
    rw [Set.ncard_univ, Nat.card_fin]
  obtain rfl : neq = n - 1 := le_antisymm hsz hcard
  refine ⟨rfl, fun k => ?_⟩
  have hinj : Function.Injective w := by
    have h3 : Function.Surjective fun k : Fin (n - 1) => (⟨w k, hr ▸ Set.mem_range_self k⟩ : Set.range fun k : Fin (n - 1) => barFreq n (k + 1) h E ρ) := by
      rintro ⟨t, ht⟩
      rw [← hr] at ht
      obtain ⟨k, rfl⟩ := ht
      exact ⟨k, rfl⟩
    have e := Equiv.ofInjective _ hf.injective
    have h4 := Finite.injective_iff_surjective.2 (e.symm.surjective.comp h3)
    intro a b hab
    exact h4 (by simp [hab])
  exact congrFun ((StrictMono.range_inj (hm.order.strictMono_of_injective hinj) hf).1 hr) k

/-- The unsupported square has eight modes, and exactly three of them have frequency zero. -/
example : ∃ Kg Mg : Matrix (Fin 8) (Fin 8) ℝ, ∃ ks ms, Vibrating Real.sqrt (freeSquare []) ks ms Kg Mg ∧
    ∃ w φ, Modes Kg Mg w φ ∧ ∀ k, w k = 0 ↔ (k : ℕ) < 3 := by
  obtain ⟨ks, hm⟩ := freeSquare_mesh []
  have hwf := freeSquare_wf []
  have hlen : (freeSquare []).nodes.length = 4 := by rw [(freeSquare_grid []).size]
  obtain ⟨op, bc, neq, Kg, Mg, h1, h2⟩ := plane_assembly hm.plane hwf hm.members
  obtain ⟨rfl, rfl⟩ := freeSquare_rows h1
  obtain ⟨ms, s⟩ := mass_setup h1 h2 hwf
  have hv : Vibrating Real.sqrt (freeSquare []) ks ms Kg Mg := by
    refine ⟨hm.plane, hwf, fun el hel => .inr ?_, fun p j hf => ?_, hm.members, s.mem, _, _, h1, h2⟩
    · intro el' hel'
      rw [List.mem_singleton.1 hel']
      have h5 : (freeSquare []).elements = [[0, 1, 0, 0, 1, 3, 2]] := rfl
      rw [h5, List.mem_singleton] at hel
      subst hel
      exact ⟨1, 0, 0, 1000, 1 / 4, [], rfl, by simp, rfl, ⟨by simp [freeSquare, tensionPlate], .inl rfl⟩, rfl, by simp⟩
    · have hp := free_lt hf
      rw [hwf.size, hlen] at hp
      refine ⟨[0, 1, 0, 0, 1, 3, 2], List.mem_singleton.2 rfl, (p : ℤ), ?_, ⟨by rw [hlen]; exact hp, .inl rfl⟩⟩
      rcases (by omega : p = 0 ∨ p = 1 ∨ p = 2 ∨ p = 3) with rfl | rfl | rfl | rfl <;> simp
  obtain ⟨w, φ, hφ, -⟩ := C119_modes sqrtFn_real hv
  refine ⟨Kg, Mg, ks, ms, hv, w, φ, hφ, fun k => ?_⟩
  refine C119_floating sqrtFn_real hv hm hφ (a := 0) (b := 1) (by omega) (by omega) (freeSquare_apart []) (fun p hp j hj => ?_) k
  refine ⟨hj, 0, ?_, by norm_num, by norm_num⟩
  rw [hlen] at hp
  rcases (by omega : j = 0 ∨ j = 1) with rfl | rfl <;>
    rcases (by omega : p = 0 ∨ p = 1 ∨ p = 2 ∨ p = 3) with rfl | rfl | rfl | rfl <;> rfl

/-- The bar of the tests vibrates, and its first squared frequency is `barFreq 512 1`. -/
example : ∃ op bc neq Kg Mg, dme (testBar 512 (Real.pi / 512) 1 1 1).cons (testBar 512 (Real.pi / 512) 1 1 1).elements =
      .ok (op, bc, neq) ∧ assembler (Uel.eleFun Real.sqrt) (testBar 512 (Real.pi / 512) 1 1 1).elements
        (testBar 512 (Real.pi / 512) 1 1 1).mats (testBar 512 (Real.pi / 512) 1 1 1).nodes neq op = .ok (Kg, Mg) ∧
      neq = 511 ∧ ∃ w φ, Modes Kg Mg w φ ∧ ∀ k, w k = barFreq 512 (k + 1) (Real.pi / 512) 1 1 := by
  have hh : 0 < Real.pi / 512 := by have := Real.pi_pos; positivity
  have hb := testBar_uniform 512 (Real.pi / 512) 1 1 1
  obtain ⟨op, bc, neq, Kg, Mg, h1, h2⟩ := C116_assembled hb sqrtFn_real hh
  obtain ⟨ks, ms, hv⟩ := hb.vibrating sqrtFn_real hh one_pos one_pos h1 h2
  obtain ⟨w, φ, hφ, -⟩ := C119_modes sqrtFn_real hv
  obtain ⟨e, hw⟩ := C119_bar hb sqrtFn_real hh one_pos one_pos one_pos h1 h2 hφ
  exact ⟨op, bc, neq, Kg, Mg, h1, h2, e, w, φ, hφ, hw⟩

end
end SolidsPy
