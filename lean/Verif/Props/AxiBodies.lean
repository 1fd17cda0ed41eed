import Verif.Props.SolidBodies
import Verif.Props.Mass

/-! # C141: bodies of revolution meshed by `elast_axi_quad9` -/

set_option linter.unusedSectionVars false

namespace SolidsPy
open Spec Fem Uel Gauss Assem Matrix

section
variable {K : Type} [Field K] [LinearOrder K] [IsStrictOrderedRing K] [FloorRing K]
variable {tab : ℤ → Py (Uel K)} {m : ℕ} {cons mats nodes loads : Table K} {elements : List (List ℤ)} {ms : List (Member K)}

theorem axi_posForm {E nu : K} {C} (h : elastMatAxi [E, nu] = .ok C) (hE : 0 < E) (h1 : -1 < nu) (h2 : nu < 1 / 2) : PosForm C := by
  obtain ⟨E', nu', h3, h6, h7, lam, mu, h4, h5, rfl⟩ := elastMatAxi_ok.1 h
  simp only [List.cons.injEq, and_true] at h3
  obtain ⟨rfl, rfl⟩ := h3
  have hp : 0 < 1 + nu := by linarith
  have hq : 0 < 1 - 2 * nu := by linarith
  have hmu : 0 < mu := by
    have : 0 < E / (1 + nu) := div_pos hE hp
    linarith
  have hl : 0 < mu + lam := by
    have h5' : mu = E / (1 + nu) / 2 := by rw [← h5]; ring
    have : mu + lam = E / (2 * (1 + nu) * (1 - 2 * nu)) := by
      rw [h4, h5', eq_div_iff (by positivity)]
      have e1 : E / (1 + nu) * (1 + nu) = E := div_mul_cancel₀ _ h6
      have e2 : E * nu / (1 + nu) / (1 - 2 * nu) * ((1 + nu) * (1 - 2 * nu)) = E * nu := by
        rw [div_div, div_mul_cancel₀ _ (mul_ne_zero h6 h7)]
      linear_combination (1 - 2 * nu) * e1 + 2 * e2
    rw [this]
    positivity
  intro e he
  rw [elastAxi_mulVec]
  have hd : ∀ a b : Fin 4 → K, a ⬝ᵥ b = a 0 * b 0 + a 1 * b 1 + a 2 * b 2 + a 3 * b 3 := by
    intro a b
    simp [dotProduct, Fin.sum_univ_four]
  rw [hd]
  simp only [Matrix.cons_val_zero, Matrix.cons_val_one, Matrix.cons_val]
  have key : e 0 * (2 * mu * e 0 + lam * (e 0 + e 1)) + e 1 * (2 * mu * e 1 + lam * (e 0 + e 1)) + e 2 * (mu * e 2) +
      e 3 * (2 * mu * e 3 + lam * e 3) =
      (mu + lam) * (e 0 + e 1) ^ 2 + mu * (e 0 - e 1) ^ 2 + mu * e 2 ^ 2 + (mu + (mu + lam)) * e 3 ^ 2 := by ring
  rw [key]
  by_contra hle
  have n1 : 0 ≤ (mu + lam) * (e 0 + e 1) ^ 2 := mul_nonneg hl.le (sq_nonneg _)
  have n2 : 0 ≤ mu * (e 0 - e 1) ^ 2 := mul_nonneg hmu.le (sq_nonneg _)
  have n3 : 0 ≤ mu * e 2 ^ 2 := mul_nonneg hmu.le (sq_nonneg _)
  have n4 : 0 ≤ (mu + (mu + lam)) * e 3 ^ 2 := mul_nonneg (by linarith) (sq_nonneg _)
  have z1 : (mu + lam) * (e 0 + e 1) ^ 2 = 0 := by linarith
  have z2 : mu * (e 0 - e 1) ^ 2 = 0 := by linarith
  have z3 : mu * e 2 ^ 2 = 0 := by linarith
  have z4 : (mu + (mu + lam)) * e 3 ^ 2 = 0 := by linarith
  have w1 : e 0 + e 1 = 0 := pow_eq_zero_iff two_ne_zero |>.1 ((mul_eq_zero.1 z1).resolve_left hl.ne')
  have w2 : e 0 - e 1 = 0 := pow_eq_zero_iff two_ne_zero |>.1 ((mul_eq_zero.1 z2).resolve_left hmu.ne')
  have w3 : e 2 = 0 := pow_eq_zero_iff two_ne_zero |>.1 ((mul_eq_zero.1 z3).resolve_left hmu.ne')
  have w4 : e 3 = 0 := pow_eq_zero_iff two_ne_zero |>.1 ((mul_eq_zero.1 z4).resolve_left (by linarith))
  apply he
  funext i
  fin_cases i
  · show e 0 = 0
    linarith
  · show e 1 = 0
    linarith
  · exact w3
  · exact w4

/-- Derivatives in the reference element vanish with the gradient. -/
theorem ref_of_grad {n : ℕ} {D : Matrix (Fin 2) (Fin n) K} {X : Matrix (Fin n) (Fin 2) K} (hd : (D * X).det ≠ 0) {v : Fin n → K}
    (h : ∀ i, ∑ a, grad D X i a * v a = 0) (i : Fin 2) : ∑ a, D i a * v a = 0 := by
  have h0 : (grad D X).mulVec v = 0 := funext h
  have e : D = (D * X) * grad D X := by
    unfold grad
    rw [← Matrix.mul_assoc, Matrix.mul_smul, Matrix.mul_adjugate, smul_smul, inv_mul_cancel₀ hd, one_smul, Matrix.one_mul]
  have : D.mulVec v = 0 := by
    rw [e, ← Matrix.mulVec_mulVec, h0, Matrix.mulVec_zero]
  exact congrFun this i

/-- C141.  An element of revolution, whatever its shape, stores no energy exactly when it is shifted along the axis. -/
theorem C141_null_space {X : Matrix (Fin 9) (Fin 2) K} {E nu ρ : K} {k mm} (h : Returns elastAxiQuad9 X [E, nu, ρ] k mm) (hE : 0 < E)
    (h1 : -1 < nu) (h2 : nu < 1 / 2) (u : Fin 9 × Fin 2 → K) :
    u ⬝ᵥ k.mulVec u = 0 ↔ ∃ c, ∀ a, u (a, 0) = 0 ∧ u (a, 1) = c := by
  constructor
  · intro h0
    obtain ⟨C, ρ', ⟨-, hm, -⟩, ha, rfl, -⟩ := returns_axi.1 h
    have hC := axi_posForm hm hE h1 h2
    have hz := (stiff_zero_iff (B := fun sh => bMatAxi sh.1 (place sh.1 X 0) (grad sh.2 X)) good_axi (fun x hx => (ha x hx).2) hC u).1 h0
    have hu0 : (fun a => u (a, 0)) = 0 := by
      refine sep_quad9 _ fun x hx => ?_
      have e := congrFun (hz x hx) 3
      rw [bMatAxi_mulVec] at e
      simp only [Matrix.cons_val, Pi.zero_apply, div_eq_zero_iff] at e
      exact e.resolve_right (ha x hx).1.ne'
    have hu0 : ∀ a, u (a, 0) = 0 := fun a => congrFun hu0 a
    have hs : ∀ x ∈ ruleAxi (K := K), ∀ i, ∑ a, x.1.2 i a * u (a, 1) = 0 := by
      intro x hx
      have e := hz x hx
      rw [bMatAxi_mulVec] at e
      have e1 := congrFun e 1
      have e2 := congrFun e 2
      simp only [Matrix.cons_val_one, Matrix.cons_val, Pi.zero_apply, hu0, mul_zero, Finset.sum_const_zero, zero_add] at e1 e2
      exact ref_of_grad (v := fun a => u (a, 1)) (tol_pos.trans (ha x hx).2).ne' (Fin.forall_fin_two.2 ⟨e2, e1⟩)
    obtain ⟨g, hp, hg⟩ : ∃ g : ℚ, pts1d3 = [-g, 0, g] ∧ g ≠ 0 := ⟨_, rfl, by decide +kernel⟩
    have at' : ∀ r s : K, (r = 0 ∨ r = (g : K) ∨ r = -(g : K)) → (s = 0 ∨ s = (g : K) ∨ s = -(g : K)) →
        ∃ w, (shapeQuad9 r s, w) ∈ ruleAxi (K := K) := by
      have mem : ∀ r : K, (r = 0 ∨ r = (g : K) ∨ r = -(g : K)) → ∃ x : ℚ, x ∈ pts1d3 ∧ r = x := by
        rintro r (rfl | rfl | rfl)
        · exact ⟨0, by rw [hp]; simp, by push_cast; rfl⟩
        · exact ⟨g, by rw [hp]; simp, rfl⟩
        · exact ⟨-g, by rw [hp]; simp, by push_cast; rfl⟩
      intro r s hr hs
      obtain ⟨x, hx, rfl⟩ := mem r hr
      obtain ⟨y, hy, rfl⟩ := mem s hs
      exact rule_at (by decide +kernel) hx hy
    have S := flat_tensor (D := fun r s => (shapeQuad9 (K := K) r s).2) (g := (g : K)) (by exact_mod_cast hg) diff_quad9 interp_quad9
    obtain ⟨α, β, w, hab⟩ := S (fun a => u (a, 1)) (fun a => u (a, 1)) (by
      intro D hDm
      have : ∃ r s : K, (r = 0 ∨ r = (g : K) ∨ r = -(g : K)) ∧ (s = 0 ∨ s = (g : K) ∨ s = -(g : K)) ∧
          D = (shapeQuad9 r s).2 := by
        simp only [List.mem_cons, List.not_mem_nil, or_false] at hDm
        rcases hDm with rfl | rfl | rfl | rfl | rfl | rfl | rfl | rfl | rfl <;> exact ⟨_, _, by simp, by simp, rfl⟩
      obtain ⟨r, s, hr, hs', rfl⟩ := this
      obtain ⟨w, hw⟩ := at' r s hr hs'
      have := hs _ hw
      exact ⟨this 1, this 0, by rw [this 0, this 1]⟩)
    have hw : w = 0 := by
      have c0 := hab 0
      have c1 := hab 1
      simp [quadNode] at c0 c1
      linarith [c0.1, c0.2, c1.1, c1.2]
    refine ⟨α, fun a => ⟨hu0 a, ?_⟩⟩
    have := (hab a).1
    rw [hw, zero_mul, add_zero] at this
    exact this
  · rintro ⟨c, hc⟩
    have := C40_axi_rigid h c
    have e : u = sample X (affine ![0, c] 0) := by
      funext ⟨a, j⟩
      revert j
      rw [Fin.forall_fin_two]
      exact ⟨by simp [sample, affine, (hc a).1], by simp [sample, affine, (hc a).2]⟩
    rw [e, this, dotProduct_zero]

theorem axi_placed {el : List ℤ} {mb : Member K} (h : Describes elastAxiQuad9 mats nodes el mb) :
    ∃ mi, ∃ q : ℕ, ∃ params, ∃ X : Matrix (Fin 9) (Fin 2) K, ∃ k mm, el[2]? = some mi ∧ Resolves mats.length mi q ∧
      mats[q]? = some params ∧ Returns elastAxiQuad9 X params k mm ∧ Placed nodes mb X k := by
  obtain ⟨ty, mi, params, rows, f', kl, ml, a1, a2, ⟨q, a3, a4⟩, a5, a6, rfl, a8, a9⟩ := h
  obtain ⟨X, hX⟩ := repAxi_coord a8
  rw [hX] at a8
  obtain ⟨C, ρ, h1, h2, h3⟩ := repAxi_ok.1 a8
  rw [Prod.mk.injEq] at h3
  exact ⟨mi, q, params, X, _, _, a2, a3, a4, ⟨kl, ml, a8, by rw [h3.1]; exact holds_ofBlocks.2 rfl, by rw [h3.2]; exact holds_ofBlocks.2 rfl⟩,
    placed_of_rows a6 hX a9 (by rw [h3.1]; exact holds_ofBlocks.2 rfl)⟩

/-- A shift along the axis strains no element. -/
theorem axi_shift {el : List ℤ} {mb : Member K} (hd : Describes elastAxiQuad9 mats nodes el mb) {v : ℕ → ℕ → K} {c : K}
    (hv : ∀ p ∈ mb.nodes, v p 0 = 0 ∧ v p 1 = c) (u : ℕ → ℕ → K) : mb.form 2 v u = 0 := by
  obtain ⟨mi, q, params, X, k, mm, -, -, -, hr, hpl⟩ := axi_placed hd
  have e : mb.pick 9 v = sample X (affine ![0, c] 0) := by
    funext ⟨a, j⟩
    have ha : (a : ℕ) < mb.nodes.length := by rw [hpl.size]; exact a.2
    have hm := hv (mb.nodes.getD a 0) (by
      rw [List.getD_eq_getElem?_getD, List.getElem?_eq_getElem ha, Option.getD_some]
      exact List.getElem_mem ha)
    revert j
    rw [Fin.forall_fin_two]
    exact ⟨by simpa [Member.pick, sample, affine] using hm.1, by simpa [Member.pick, sample, affine] using hm.2⟩
  rw [hpl.form, e, Matrix.dotProduct_mulVec, ← Matrix.mulVec_transpose, (C38_axi_symmetric hr).1.eq, C40_axi_rigid hr c, zero_dotProduct]

/-- C141.  Whatever the displacements, the internal forces of a body of revolution have no resultant along the axis. -/
theorem C141_axial_balance (hms : List.Forall₂ (Describes elastAxiQuad9 mats nodes) elements ms) (u : ℕ → ℕ → K) :
    resultant nodes.length (internal 2 ms u) 1 = 0 := by
  have h := virtual_work (nd := 2) (describes_inn hms) (fun _ i => if i = 1 then 1 else 0) u
  have hz : (ms.map fun m => m.form 2 (fun _ i => if i = 1 then (1 : K) else 0) u).sum = 0 := by
    apply List.sum_eq_zero
    intro x hx
    obtain ⟨mb, hm, rfl⟩ := List.mem_map.1 hx
    obtain ⟨el, -, hd⟩ := described hms hm
    exact axi_shift hd (c := 1) (fun p _ => by simp) u
  rw [hz] at h
  rw [← h]
  unfold resultant
  refine Finset.sum_congr rfl fun p _ => ?_
  simp

/-- C141.  The reactions of the displacements the analysis returns vanish where the degree of freedom is free, and balance the loads
along the axis. -/
theorem C141_reactions (hu : UserModel 2 9 cons nodes elements) {count : ℤ → Py ℕ} (hc : Counts count (9 * 2) elements) (hm : 9 * 2 ≤ m)
    (hms : List.Forall₂ (Describes elastAxiQuad9 mats nodes) elements ms) (hst : Stable cons 2 ms) {sp de : Sol.Solver K} (hsp : SolverOk sp)
    (hde : SolverOk de) {sparse : Bool} {full : Table K} (hl : ∀ L ∈ loads, 3 ≤ L.length ∧ ∃ p, Names nodes.length L p)
    (h : userRun tab elastAxiQuad9 2 m count sp de sparse cons elements mats nodes loads = .ok full)
    {F : ℕ → ℕ → K} (hF : ∀ p j, p < nodes.length → j < 2 → IsLoad nodes.length loads p j (F p j)) {R : ℕ → ℕ → K}
    (hR : ∀ p j, R p j = internal 2 ms (fieldOf full) p j - F p j) :
    (∀ p j, Free cons 2 p j → R p j = 0) ∧ resultant nodes.length R 1 + resultant nodes.length F 1 = 0 := by
  obtain ⟨full', h', he⟩ := C135_solved (tab := tab) elementOf_axi hu hc (by omega) hm hms hst hsp hde sparse hl
  rw [h, Except.ok.injEq] at h'
  subst h'
  refine ⟨fun p j hfr => ?_, ?_⟩
  · have h1 := he.2 p j hfr
    rw [hu.size] at h1
    have hpl := free_lt hfr
    rw [hu.size] at hpl
    rw [hR, isLoad_unique h1 (hF p j hpl hfr.1), sub_self]
  · rw [← C141_axial_balance hms (fieldOf full)]
    unfold resultant
    rw [← Finset.sum_add_distrib]
    exact Finset.sum_congr rfl fun p _ => by rw [hR, sub_add_cancel]

/-- A body of revolution: elements of positive stiffness that use every node, each reached from each other through common nodes. -/
structure Spec.Revolved (elements : List (List ℤ)) (mats nodes : Table K) (ms : List (Member K)) : Prop where
  members : List.Forall₂ (Describes elastAxiQuad9 mats nodes) elements ms
  elastic : ∀ el ∈ elements, ∀ mi q params, el[2]? = some mi → Resolves mats.length mi q → mats[q]? = some params →
    ∃ E nu ρ, params = [E, nu, ρ] ∧ 0 < E ∧ -1 < nu ∧ nu < 1 / 2 ∧ 0 ≤ ρ
  used : ∀ p < nodes.length, ∃ m ∈ ms, p ∈ m.nodes
  linked : ∀ a ∈ ms, ∀ b ∈ ms, Relation.ReflTransGen (fun x y : Member K => y ∈ ms ∧ ∃ p, p ∈ x.nodes ∧ p ∈ y.nodes) a b

theorem Spec.Revolved.element (h : Revolved elements mats nodes ms) {mb : Member K} (hm : mb ∈ ms) :
    (∀ v u, mb.form 2 v u = mb.form 2 u v) ∧ (∀ u, 0 ≤ mb.form 2 u u) ∧
    ∀ u, mb.form 2 u u = 0 → ∃ c, ∀ p ∈ mb.nodes, u p 0 = 0 ∧ u p 1 = c := by
  obtain ⟨el, hel, hd⟩ := described h.members hm
  obtain ⟨mi, q, params, X, k, mm, a1, a2, a3, hr, hpl⟩ := axi_placed hd
  obtain ⟨E, nu, ρ, rfl, hE, hn1, hn2, hρ⟩ := h.elastic el hel mi q params a1 a2 a3
  refine ⟨fun v u => ?_, fun u => ?_, fun u h0 => ?_⟩
  · rw [hpl.form, hpl.form, Matrix.dotProduct_mulVec, ← Matrix.mulVec_transpose, (C38_axi_symmetric hr).1.eq, dotProduct_comm]
  · rw [hpl.form]
    exact (C39_axi_semidefinite hr hE.le hn1 hn2 hρ _).1
  · rw [hpl.form, C141_null_space hr hE hn1 hn2] at h0
    obtain ⟨c, hc⟩ := h0
    refine ⟨c, fun p hp => ?_⟩
    obtain ⟨b, hb, rfl⟩ := List.mem_iff_getElem.1 hp
    have hget : mb.nodes.getD b 0 = mb.nodes[b] := by
      rw [List.getD_eq_getElem?_getD, List.getElem?_eq_getElem hb]
      rfl
    have := hc ⟨b, hpl.size ▸ hb⟩
    simp only [Member.pick, hget] at this
    exact this

/-- C141.  A field of displacements strains no element exactly when it shifts the whole body along the axis. -/
theorem C141_zero_energy (h : Revolved elements mats nodes ms) (u : ℕ → ℕ → K) :
    (∀ m ∈ ms, m.form 2 u u = 0) ↔ ∃ c, ∀ p < nodes.length, u p 0 = 0 ∧ u p 1 = c := by
  constructor
  · intro h0
    by_cases hne : ms = []
    · refine ⟨0, fun p hp => ?_⟩
      obtain ⟨m, hm, -⟩ := h.used p hp
      rw [hne] at hm
      exact absurd hm (by simp)
    obtain ⟨m, hm⟩ := List.exists_mem_of_ne_nil _ hne
    obtain ⟨c, hc⟩ := (h.element hm).2.2 u (h0 m hm)
    have all : ∀ m', m' ∈ ms → ∀ p ∈ m'.nodes, u p 0 = 0 ∧ u p 1 = c := by
      intro m' hm'
      have path := h.linked m hm m' hm'
      clear hm'
      induction path with
      | refl => exact hc
      | tail _ st ih =>
        obtain ⟨hb, p, pa, pb⟩ := st
        obtain ⟨c', hc'⟩ := (h.element hb).2.2 u (h0 _ hb)
        have : c' = c := (hc' p pb).2.symm.trans (ih p pa).2
        exact this ▸ hc'
    refine ⟨c, fun p hp => ?_⟩
    obtain ⟨m', hm', hpm⟩ := h.used p hp
    exact all m' hm' p hpm
  · rintro ⟨c, hc⟩ m hm
    obtain ⟨el, -, hd⟩ := described h.members hm
    exact axi_shift hd (fun p hp => hc p (describes_inn h.members m hm p hp)) u

/-- C141.  A body of revolution stands exactly when some node is held along the axis; no radial support is needed. -/
theorem C141_stable_iff (h : Revolved elements mats nodes ms) (hsz : cons.length = nodes.length) (hn : 0 < nodes.length) :
    Stable cons 2 ms ↔ ∃ p < nodes.length, ¬ Free cons 2 p 1 := by
  rw [stable_iff_energy (by rw [hsz]; exact describes_inn h.members) (fun m hm => (h.element hm).1) (fun m hm => (h.element hm).2.1)]
  constructor
  · intro H
    by_contra hno
    push Not at hno
    have := H (fun _ j => if j = 1 then 1 else 0) (fun p j hp hj hf => by
      by_cases hj1 : j = 1
      · subst hj1
        exact absurd (hno p (hsz ▸ hp)) hf
      · simp [hj1]) (List.sum_eq_zero fun x hx => by
        obtain ⟨m, hm, rfl⟩ := List.mem_map.1 hx
        obtain ⟨el, -, hd⟩ := described h.members hm
        exact axi_shift hd (c := 1) (fun p _ => by simp) _) 0 1 (by rw [hsz]; exact hn) (by omega)
    simp at this
  · rintro ⟨q, hq, hf⟩ u ha h0 p j hp hj
    have hz : ∀ m ∈ ms, m.form 2 u u = 0 := by
      intro m hm
      refine List.all_zero_of_le_zero_le_of_sum_eq_zero (l := ms.map fun m => m.form 2 u u) (fun y hy => ?_) h0
        (List.mem_map.2 ⟨m, hm, rfl⟩)
      obtain ⟨m, hm, rfl⟩ := List.mem_map.1 hy
      exact (h.element hm).2.1 u
    obtain ⟨c, hc⟩ := (C141_zero_energy h u).1 hz
    have hc0 : c = 0 := by rw [← (hc q hq).2]; exact ha q 1 (by rw [hsz]; exact hq) (by omega) hf
    have := hc p (hsz ▸ hp)
    rcases (by omega : j = 0 ∨ j = 1) with rfl | rfl
    · exact this.1
    · rw [this.2, hc0]

/-- C141.  A body of revolution held along the axis is solved, for every table of loads on existing nodes. -/
theorem C141_solved (h : Revolved elements mats nodes ms) (hu : UserModel 2 9 cons nodes elements) {count : ℤ → Py ℕ}
    (hc : Counts count (9 * 2) elements) (hm : 9 * 2 ≤ m) (hsup : ∃ p < nodes.length, ¬ Free cons 2 p 1) {sp de : Sol.Solver K}
    (hsp : SolverOk sp) (hde : SolverOk de) (sparse : Bool) (hl : ∀ L ∈ loads, 3 ≤ L.length ∧ ∃ p, Names nodes.length L p) :
    ∃ full, userRun tab elastAxiQuad9 2 m count sp de sparse cons elements mats nodes loads = .ok full ∧
      Equilibrium cons 2 loads ms (fieldOf full) := by
  obtain ⟨p, hp, _⟩ := hsup
  exact C135_solved elementOf_axi hu hc (by omega) hm h.members ((C141_stable_iff h hu.size (by omega)).2 ⟨p, hp, by assumption⟩)
    hsp hde sparse hl

section demo

/-- Two rings stacked on each other, standing on their bottom without friction and pushed outwards at the top. -/
def ringNodes : Table ℚ := [[0, 1, 0], [1, 2, 0], [2, 3, 0], [3, 1, 1], [4, 2, 1], [5, 3, 1], [6, 1, 2], [7, 2, 2], [8, 3, 2], [9, 1, 3], [10, 2, 3], [11, 3, 3], [12, 1, 4], [13, 2, 4], [14, 3, 4]]
def ringCons : Table ℚ := [[0, -1], [0, -1], [0, -1], [0, 0], [0, 0], [0, 0], [0, 0], [0, 0], [0, 0], [0, 0], [0, 0], [0, 0], [0, 0], [0, 0], [0, 0]]
def ringEls : List (List ℤ) := [[0, 4, 0, 0, 2, 8, 6, 1, 5, 7, 3, 4], [1, 4, 0, 6, 8, 14, 12, 7, 11, 13, 9, 10]]

theorem ring_body : ∃ ms, Revolved ringEls tetMats ringNodes ms := by
  obtain ⟨a, ha, na⟩ := describe_exists (f := Uel.elastAxiQuad9) (mats := tetMats) (nodes := ringNodes) (id := 0) (ty := 4)
    (ps := [0, 2, 8, 6, 1, 5, 7, 3, 4]) (params := [10, 1/4, 1])
    (rows := [[0, 1, 0], [2, 3, 0], [8, 3, 2], [6, 1, 2], [1, 2, 0], [5, 3, 1], [7, 2, 2], [3, 1, 1], [4, 2, 1]]) rfl
    (.cons rfl (.cons rfl (.cons rfl (.cons rfl (.cons rfl (.cons rfl (.cons rfl (.cons rfl (.cons rfl (.nil)))))))))) (by decide +kernel)
  obtain ⟨b, hb, nb⟩ := describe_exists (f := Uel.elastAxiQuad9) (mats := tetMats) (nodes := ringNodes) (id := 1) (ty := 4)
    (ps := [6, 8, 14, 12, 7, 11, 13, 9, 10]) (params := [10, 1/4, 1])
    (rows := [[6, 1, 2], [8, 3, 2], [14, 3, 4], [12, 1, 4], [7, 2, 2], [11, 3, 3], [13, 2, 4], [9, 1, 3], [10, 2, 3]]) rfl
    (.cons rfl (.cons rfl (.cons rfl (.cons rfl (.cons rfl (.cons rfl (.cons rfl (.cons rfl (.cons rfl (.nil)))))))))) (by decide +kernel)
  refine ⟨[a, b], .cons ha (.cons hb .nil), ?_, ?_, ?_⟩
  · intro el _ mi q params _ _ hp
    refine ⟨10, 1/4, 1, ?_, by norm_num, by norm_num, by norm_num, by norm_num⟩
    match q, hp with
    | 0, hp => simpa [tetMats] using hp.symm
    | q + 1, hp => simp [tetMats] at hp
  · intro p hp
    have : p < 9 ∨ (9 ≤ p ∧ p < 15) := by simp [ringNodes] at hp; omega
    rcases this with h | ⟨h, h'⟩
    · exact ⟨a, by simp, by rw [na]; interval_cases p <;> simp⟩
    · exact ⟨b, by simp, by rw [nb]; interval_cases p <;> simp⟩
  · intro x hx y hy
    simp only [List.mem_cons, List.not_mem_nil, or_false] at hx hy
    rcases hx with rfl | rfl <;> rcases hy with rfl | rfl
    · exact .refl
    · exact .single ⟨by simp, 6, by rw [na]; simp, by rw [nb]; simp⟩
    · exact .single ⟨by simp, 6, by rw [nb]; simp, by rw [na]; simp⟩
    · exact .refl

theorem ring_model : UserModel 2 9 ringCons ringNodes ringEls where
  codes := by
    intro p j v _ h
    have : ∀ r ∈ ringCons, ∀ x ∈ r, x = 0 ∨ x = -1 := by decide +kernel
    obtain ⟨r, h1, h2⟩ := entry_some.1 h
    exact this r (List.mem_of_getElem? h1) v (List.mem_of_getElem? h2)
  width := by decide
  size := rfl
  typed := by decide

/-- C141: the stack of rings is solved though no node is held in the radial direction. -/
example (tab : ℤ → Py (Uel ℚ)) (sparse : Bool) : ∃ ms full, Revolved ringEls tetMats ringNodes ms ∧
    userRun tab Uel.elastAxiQuad9 2 18 (fun _ => .ok 18) cramerSolver cramerSolver sparse ringCons ringEls tetMats ringNodes [[12, 1, 0]] =
      .ok full ∧ Equilibrium ringCons 2 [[12, 1, 0]] ms (fieldOf full) := by
  obtain ⟨ms, h⟩ := ring_body
  obtain ⟨full, h1, h2⟩ := C141_solved (tab := tab) (loads := [[12, 1, 0]]) (count := fun _ => .ok 18) (m := 18) h ring_model
    (fun el hel => by
      simp only [ringEls, List.mem_cons, List.not_mem_nil, or_false] at hel
      rcases hel with rfl | rfl <;> exact ⟨4, rfl, rfl⟩) (by norm_num) ⟨0, by decide, by
        intro hf
        have := hf.2
        revert this
        decide +kernel⟩ cramerSolver_ok cramerSolver_ok sparse (by
      intro L hL
      simp only [List.mem_cons, List.not_mem_nil, or_false] at hL
      subst hL
      exact ⟨by simp, 12, 12, 12, rfl, ⟨by decide, .inl rfl⟩, .inl ⟨by norm_num, by norm_num, by norm_num⟩⟩)
  exact ⟨ms, full, h, h1, h2⟩

/-- Held only in the radial direction it is not stable. -/
example : ∃ ms, Revolved ringEls tetMats ringNodes ms ∧ ¬ Stable (List.replicate 15 [-1, 0]) 2 ms := by
  obtain ⟨ms, h⟩ := ring_body
  refine ⟨ms, h, fun hs => ?_⟩
  obtain ⟨p, hp, hf⟩ := (C141_stable_iff (cons := List.replicate 15 [-1, 0]) h rfl (by decide)).1 hs
  have hp' : p < 15 := hp
  exact hf ⟨by decide, by interval_cases p <;> decide +kernel⟩

end demo

end
end SolidsPy
