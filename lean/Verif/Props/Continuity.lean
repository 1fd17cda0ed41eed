import Verif.Props.Wellposed
import Verif.Props.AnyRun
import Verif.Props.UserVibration

/-! # C167: continuous dependence for frames and for models of the user's own elements

Routines that depend continuously on coordinates and material numbers; those of the library that `solids_auto` does not reach are. -/

set_option linter.unusedSectionVars false

namespace SolidsPy
open Filter Topology

namespace Spec

/-- The rows `r i` have the length of `r0` and their entries tend to those of `r0`. -/
structure RowTends {ι : Type} (l : Filter ι) (r : ι → List ℝ) (r0 : List ℝ) : Prop where
  shape : ∀ i, (r i).length = r0.length
  tends : ∀ k, Tendsto (fun i => (r i).getD k 0) l (𝓝 (r0.getD k 0))

/-- The element routine depends continuously on coordinates and material: near coordinates and material numbers that it accepts it
accepts all others, and the entries of both matrices converge. -/
def ContinuousElement (d n : ℕ) (f : Uel ℝ) : Prop :=
  ∀ ⦃ι : Type⦄ ⦃l : Filter ι⦄ ⦃X : ι → Matrix (Fin n) (Fin d) ℝ⦄ ⦃X0 : Matrix (Fin n) (Fin d) ℝ⦄ ⦃par : ι → List ℝ⦄ ⦃par0 : List ℝ⦄
    ⦃k0 m0 : NdArr ℝ⦄, (∀ a b, Tendsto (fun i => X i a b) l (𝓝 (X0 a b))) → RowTends l par par0 → f (matRows X0) par0 = .ok (k0, m0) →
    ∃ k m : ι → NdArr ℝ, (∀ᶠ i in l, f (matRows (X i)) (par i) = .ok (k i, m i)) ∧
      (∀ r c, Tendsto (fun i => cell (k i) r c) l (𝓝 (cell k0 r c))) ∧ ∀ r c, Tendsto (fun i => cell (m i) r c) l (𝓝 (cell m0 r c))

/-- Coordinates, material numbers and loads tend to those of a model, with the same nodes loaded. -/
structure DataTends {ι : Type} (l : Filter ι) (nodes mats loads : ι → List (List ℝ)) (nodes0 mats0 loads0 : List (List ℝ)) : Prop where
  coords : TableTends l nodes nodes0
  material : TableTends l mats mats0
  forces : TableTends l loads loads0
  loaded : ∀ i, (loads i).map List.head? = loads0.map List.head?

/-- Coordinates, material numbers and loads differ by less than `δ`, and the same nodes are loaded. -/
structure DataNear (δ : ℝ) (nodes mats loads nodes0 mats0 loads0 : List (List ℝ)) : Prop where
  coords : TableNear δ nodes nodes0
  material : TableNear δ mats mats0
  forces : TableNear δ loads loads0
  loaded : loads.map List.head? = loads0.map List.head?

/-- The analysis `run` (a function of coordinates, materials and loads) is well posed at given data, where it gives the displacements
`full0`. -/
structure WellPosed (nd : ℕ) (stable : List (List ℝ) → List (List ℝ) → Prop)
    (run : List (List ℝ) → List (List ℝ) → List (List ℝ) → Py (List (List ℝ))) (nodes0 mats0 loads0 full0 : List (List ℝ)) : Prop where
  /-- Data that tend to the given ones finally are those of a stable structure and can be analysed, and the displacements tend to
  `full0`. -/
  limits : ∀ (ι : Type) (l : Filter ι) (nodes mats loads : ι → List (List ℝ)), DataTends l nodes mats loads nodes0 mats0 loads0 →
    (∀ᶠ i in l, stable (nodes i) (mats i) ∧ ∃ full, run (nodes i) (mats i) (loads i) = .ok full) ∧
    ∀ full : ι → List (List ℝ), (∀ᶠ i in l, run (nodes i) (mats i) (loads i) = .ok (full i)) → ∀ p j, p < nodes0.length → j < nd →
      Tendsto (fun i => fieldOf (full i) p j) l (𝓝 (fieldOf full0 p j))
  /-- For every tolerance there is a precision of the data that suffices. -/
  precision : ∀ ε > 0, ∃ δ > 0, ∀ nodes mats loads, DataNear δ nodes mats loads nodes0 mats0 loads0 → stable nodes mats ∧
    ∃ full, run nodes mats loads = .ok full ∧ ∀ p j, p < nodes0.length → j < nd → |fieldOf full p j - fieldOf full0 p j| < ε

end Spec

open Spec Fem Uel Assem Matrix Gauss

section
variable {ι : Type} {l : Filter ι} {d n q : ℕ}

/-! ## Quadrature sums -/

theorem tendsto_gradient (D : Matrix (Fin d) (Fin n) ℝ) {X : ι → Matrix (Fin n) (Fin d) ℝ} {X0 : Matrix (Fin n) (Fin d) ℝ}
    (hX : Tendsto X l (𝓝 X0)) (h0 : (D * X0).det ≠ 0) : Tendsto (fun i => grad D (X i)) l (𝓝 (grad D X0)) := by
  have hJ := tendsto_mul (tendsto_const_nhds (x := D) (f := l)) hX
  exact tendsto_mul (((tendsto_det hJ).inv₀ h0).smul (tendsto_adjugate hJ)) tendsto_const_nhds

theorem tendsto_jdet (sh : Shape ℝ d n) {X : ι → Matrix (Fin n) (Fin d) ℝ} {X0 : Matrix (Fin n) (Fin d) ℝ}
    (hX : Tendsto X l (𝓝 X0)) : Tendsto (fun i => jdet sh (X i)) l (𝓝 (jdet sh X0)) :=
  tendsto_det (tendsto_mul tendsto_const_nhds hX)

theorem tendsto_stiffness {R : QRule ℝ d n} {B : Shape ℝ d n → Matrix (Fin n) (Fin d) ℝ → Matrix (Fin q) (Fin n × Fin d) ℝ}
    {X : ι → Matrix (Fin n) (Fin d) ℝ} {X0 : Matrix (Fin n) (Fin d) ℝ}
    {C : ι → Matrix (Fin q) (Fin q) ℝ} {C0 : Matrix (Fin q) (Fin q) ℝ} (hX : Tendsto X l (𝓝 X0)) (hC : Tendsto C l (𝓝 C0))
    (hB : ∀ x ∈ R, Tendsto (fun i => B x.1 (X i)) l (𝓝 (B x.1 X0))) :
    Tendsto (fun i => qStiff (fun sh => B sh (X i)) R (X i) (C i)) l (𝓝 (qStiff (fun sh => B sh X0) R X0 C0)) := by
  unfold qStiff
  refine tendsto_list_sum R fun x hx => ?_
  exact (tendsto_const_nhds.mul (tendsto_jdet x.1 hX)).smul
    (tendsto_mul (tendsto_mul (tendsto_transpose (hB x hx)) hC) (hB x hx))

theorem tendsto_massM {R : QRule ℝ d n} {H : Shape ℝ d n → Matrix (Fin d) (Fin n × Fin d) ℝ}
    {X : ι → Matrix (Fin n) (Fin d) ℝ} {X0 : Matrix (Fin n) (Fin d) ℝ} {ρ : ι → ℝ} {ρ0 : ℝ} (hX : Tendsto X l (𝓝 X0))
    (hρ : Tendsto ρ l (𝓝 ρ0)) : Tendsto (fun i => qMass H R (X i) (ρ i)) l (𝓝 (qMass H R X0 ρ0)) := by
  unfold qMass
  refine tendsto_list_sum R fun x _ => ?_
  exact (hρ.mul (tendsto_const_nhds.mul (tendsto_jdet x.1 hX))).smul tendsto_const_nhds

theorem eventually_all {R : QRule ℝ d n} {P : ι → Shape ℝ d n → Prop} (h : ∀ x ∈ R, ∀ᶠ i in l, P i x.1) :
    ∀ᶠ i in l, ∀ x ∈ R, P i x.1 := by
  induction R with
  | nil => exact Eventually.of_forall fun i x hx => by simp at hx
  | cons x R ih =>
    filter_upwards [ih fun y hy => h y (by simp [hy]), h x (by simp)] with i h2 h3 y hy
    rcases List.mem_cons.1 hy with rfl | hy
    · exact h3
    · exact h2 y hy

theorem tendsto_cells {M : ι → Matrix (Fin n × Fin d) (Fin n × Fin d) ℝ} {M0 : Matrix (Fin n × Fin d) (Fin n × Fin d) ℝ}
    (h : Tendsto M l (𝓝 M0)) (r c : ℕ) :
    Tendsto (fun i => cell (NdArr.ofBlocks (M i)) r c) l (𝓝 (cell (NdArr.ofBlocks M0) r c)) := by
  unfold NdArr.ofBlocks
  simp only [cell]
  split
  · exact tendsto_pi_nhds.1 (tendsto_pi_nhds.1 h _) _
  · exact tendsto_const_nhds

theorem tendsto_bMat3 {G : ι → Matrix (Fin 3) (Fin n) ℝ} {G0 : Matrix (Fin 3) (Fin n) ℝ} (hG : Tendsto G l (𝓝 G0)) :
    Tendsto (fun i => bMat3 (G i)) l (𝓝 (bMat3 G0)) := by
  have hc : Continuous (bMat3 : Matrix (Fin 3) (Fin n) ℝ → _) := by
    refine continuous_matrix fun a b => ?_
    obtain ⟨b1, b2⟩ := b
    fin_cases a <;> fin_cases b2 <;> simp [bMat3] <;> fun_prop
  exact (hc.tendsto G0).comp hG

/-- Three material numbers: density last. -/
theorem row_three {par : ι → List ℝ} {E nu ρ : ℝ} (h : RowTends l par [E, nu, ρ]) :
    ∃ E' nu' ρ' : ι → ℝ, (∀ i, par i = [E' i, nu' i, ρ' i]) ∧ Tendsto E' l (𝓝 E) ∧ Tendsto nu' l (𝓝 nu) ∧ Tendsto ρ' l (𝓝 ρ) := by
  refine ⟨_, _, _, fun i => ?_, h.tends 0, h.tends 1, h.tends 2⟩
  have hl := h.shape i
  match par i, hl with
  | [a, b, c], _ => rfl

theorem params_three {par : List ℝ} (h : par.length = 3) : ∃ E nu ρ, par = [E, nu, ρ] := by
  match par, h with
  | [a, b, c], _ => exact ⟨a, b, c, rfl⟩

/-- Lame's numbers. -/
theorem tendsto_lame {E nu : ι → ℝ} {E0 nu0 : ℝ} (hE : Tendsto E l (𝓝 E0)) (hnu : Tendsto nu l (𝓝 nu0)) (h1 : 1 + nu0 ≠ 0)
    (h2 : 1 - 2 * nu0 ≠ 0) : (∀ᶠ i in l, 1 + nu i ≠ 0 ∧ 1 - 2 * nu i ≠ 0) ∧
      Tendsto (fun i => E i * nu i / (1 + nu i) / (1 - 2 * nu i)) l (𝓝 (E0 * nu0 / (1 + nu0) / (1 - 2 * nu0))) ∧
      Tendsto (fun i => E i / (1 + nu i) / 2) l (𝓝 (E0 / (1 + nu0) / 2)) := by
  have t1 : Tendsto (fun i => 1 + nu i) l (𝓝 (1 + nu0)) := tendsto_const_nhds.add hnu
  have t2 : Tendsto (fun i => 1 - 2 * nu i) l (𝓝 (1 - 2 * nu0)) := tendsto_const_nhds.sub (hnu.const_mul 2)
  exact ⟨(t1.eventually_ne h1).and (t2.eventually_ne h2), ((hE.mul hnu).div t1 h1).div t2 h2, (hE.div t1 h1).div_const 2⟩

/-! ## The routines -/

/-- C167.  The tetrahedron and the brick. -/
theorem C167_solid {f : Uel ℝ} (hf : SolidElement n f) : ContinuousElement 3 n f := by
  intro ι l X X0 par par0 k0 m0 hX hpar h1
  obtain ⟨R, hr, -⟩ := solid_rep hf
  obtain ⟨C0, ρ0, ⟨h3, hm, hd⟩, ha, h2⟩ := (hr.ok _ _ _).1 h1
  obtain ⟨rfl, rfl⟩ := Prod.mk.inj h2
  obtain ⟨E, nu, ρ, rfl⟩ := params_three h3
  obtain ⟨E', nu', ρ', hp, hE, hnu, hρ⟩ := row_three hpar
  obtain rfl : par = fun i => [E' i, nu' i, ρ' i] := funext hp
  obtain ⟨_, _, e1, e2, e3, lam, mu, e4, e5, e6⟩ := elastMat_ok.1 hm
  simp only [List.take_succ_cons, List.take_zero, List.cons.injEq, and_true] at e1
  obtain ⟨rfl, rfl⟩ := e1
  obtain rfl : mu = E / (1 + nu) / 2 := by linarith
  subst e4
  obtain ⟨g1, g2, g3⟩ := tendsto_lame hE hnu e2 e3
  obtain rfl : ρ0 = ρ := by
    have := densOf_eq E nu [ρ]
    rw [hd, Except.ok.injEq] at this
    exact this
  have hX' := tendsto_matrix hX
  let H : ℝ → ℝ → Matrix (Fin 6) (Fin 6) ℝ := fun lam mu => !![2*mu + lam, lam, lam, 0, 0, 0; lam, 2*mu + lam, lam, 0, 0, 0;
    lam, lam, 2*mu + lam, 0, 0, 0; 0, 0, 0, mu, 0, 0; 0, 0, 0, 0, mu, 0; 0, 0, 0, 0, 0, mu]
  have hC := (show Continuous fun p : ℝ × ℝ => H p.1 p.2 by
    refine continuous_matrix fun a b => ?_
    fin_cases a <;> fin_cases b <;> simp [H] <;> fun_prop).tendsto _ |>.comp (g2.prodMk_nhds g3)
  have hCe : H (E * nu / (1 + nu) / (1 - 2 * nu)) (E / (1 + nu) / 2) = C0 := e6.symm
  simp only [Function.comp_def, hCe] at hC
  refine ⟨_, _, ?_, tendsto_cells (tendsto_stiffness (B := fun sh X => bMat3 (grad sh.2 X)) hX' hC fun x hx => ?_),
    tendsto_cells (tendsto_massM hX' hρ)⟩
  · have hacc : ∀ᶠ i in l, Acc R (X i) := eventually_all (P := fun i sh => 1e-8 < jdet sh (X i)) fun x hx => (tendsto_jdet x.1 hX').eventually (lt_mem_nhds (ha x hx))
    filter_upwards [g1, hacc] with i h4 h5
    refine (hr.ok _ _ _).2 ⟨_, _, ⟨?_, ?_, ?_⟩, h5, rfl⟩
    · rfl
    · exact elastMat_ok.2 ⟨_, _, rfl, h4.1, h4.2, _, _, rfl, by ring, rfl⟩
    · exact densOf_eq _ _ [_]
  · exact tendsto_bMat3 (tendsto_gradient _ hX' (lt_trans (by norm_num) (ha x hx)).ne')

/-- C167.  The axisymmetric element. -/
theorem C167_axi : ContinuousElement 2 9 elastAxiQuad9 := by
  intro ι l X X0 par par0 k0 m0 hX hpar h1
  obtain ⟨C0, ρ0, ⟨h3, hm, hd⟩, ha, h2⟩ := repAxi_ok.1 h1
  obtain ⟨rfl, rfl⟩ := Prod.mk.inj h2
  obtain ⟨E, nu, ρ, rfl⟩ := params_three h3
  obtain ⟨E', nu', ρ', hp, hE, hnu, hρ⟩ := row_three hpar
  obtain rfl : par = fun i => [E' i, nu' i, ρ' i] := funext hp
  obtain ⟨_, _, e1, e2, e3, lam, mu, e4, e5, e6⟩ := elastMatAxi_ok.1 hm
  simp only [List.take_succ_cons, List.take_zero, List.cons.injEq, and_true] at e1
  obtain ⟨rfl, rfl⟩ := e1
  obtain rfl : mu = E / (1 + nu) / 2 := by linarith
  subst e4
  obtain ⟨g1, g2, g3⟩ := tendsto_lame hE hnu e2 e3
  obtain rfl : ρ0 = ρ := by
    have := densOf_eq E nu [ρ]
    rw [hd, Except.ok.injEq] at this
    exact this
  have hX' := tendsto_matrix hX
  let H : ℝ → ℝ → Matrix (Fin 4) (Fin 4) ℝ := fun lam mu => !![2*mu + lam, lam, 0, 0; lam, 2*mu + lam, 0, 0;
    0, 0, mu, 0; 0, 0, 0, 2*mu + lam]
  have hC := (show Continuous fun p : ℝ × ℝ => H p.1 p.2 by
    refine continuous_matrix fun a b => ?_
    fin_cases a <;> fin_cases b <;> simp [H] <;> fun_prop).tendsto _ |>.comp (g2.prodMk_nhds g3)
  have hCe : H (E * nu / (1 + nu) / (1 - 2 * nu)) (E / (1 + nu) / 2) = C0 := e6.symm
  simp only [Function.comp_def, hCe] at hC
  have hplace : ∀ N : Fin 9 → ℝ, Tendsto (fun i => place N (X i) 0) l (𝓝 (place N X0 0)) := fun N =>
    tendsto_finsetSum _ fun a _ => (hX a 0).const_mul _
  refine ⟨_, _, ?_, tendsto_cells (tendsto_stiffness (B := fun sh X => bMatAxi sh.1 (place sh.1 X 0) (grad sh.2 X)) hX' hC fun x hx => ?_),
    tendsto_cells (tendsto_massM hX' hρ)⟩
  · have hacc : ∀ᶠ i in l, AccAxi ruleAxi (X i) := eventually_all (P := fun i sh => 0 < place sh.1 (X i) 0 ∧ 1e-8 < jdet sh (X i)) fun x hx =>
      ((hplace x.1.1).eventually (lt_mem_nhds (ha x hx).1)).and ((tendsto_jdet x.1 hX').eventually (lt_mem_nhds (ha x hx).2))
    filter_upwards [g1, hacc] with i h4 h5
    refine repAxi_ok.2 ⟨_, _, ⟨?_, ?_, ?_⟩, h5, rfl⟩
    · rfl
    · exact elastMatAxi_ok.2 ⟨_, _, rfl, h4.1, h4.2, _, _, rfl, by ring, rfl⟩
    · exact densOf_eq _ _ [_]
  · have hG := tendsto_gradient x.1.2 hX' (lt_trans (by norm_num) (ha x hx).2).ne'
    have hP := hplace x.1.1
    have hg : ∀ a b, Tendsto (fun i => grad x.1.2 (X i) a b) l (𝓝 (grad x.1.2 X0 a b)) := fun a b =>
      tendsto_pi_nhds.1 (tendsto_pi_nhds.1 hG a) b
    refine tendsto_pi_nhds.2 fun a => tendsto_pi_nhds.2 fun b => ?_
    obtain ⟨b1, b2⟩ := b
    have t := (tendsto_const_nhds (x := x.1.1 b1) (f := l)).div hP (ha x hx).1.ne'
    fin_cases a <;> fin_cases b2 <;> simp only [bMatAxi, Matrix.of_apply] <;>
      first | exact hg _ _ | exact t | exact tendsto_const_nhds

/-- C167.  The plane elements. -/
theorem C167_plane {f : Uel ℝ} (hf : PlaneElement n f) : ContinuousElement 2 n f := by
  intro ι l X X0 par par0 k0 m0 hX hpar h1
  obtain ⟨R, st, hr, -⟩ := plane_rep hf
  obtain ⟨C0, ρ0, ⟨hst, hm, hd⟩, ha, h2⟩ := (hr.ok _ _ _).1 h1
  obtain ⟨rfl, rfl⟩ := Prod.mk.inj h2
  obtain ⟨E, nu, e1, e2, e3⟩ := umat_ok.1 hm
  match par0, e1, hpar, hst, hd with
  | a :: b :: rest0, e1, hpar, hst, hd =>
    simp only [List.take_succ_cons, List.take_zero, List.cons.injEq, and_true] at e1
    obtain ⟨rfl, rfl⟩ := e1
    obtain ⟨E', nu', rest', hp⟩ : ∃ E' nu' : ι → ℝ, ∃ rest' : ι → List ℝ, ∀ i, par i = E' i :: nu' i :: rest' i := by
      have : ∀ i, ∃ E' nu' rest', par i = E' :: nu' :: rest' := fun i => by
        have hl := hpar.shape i
        match par i, hl with
        | a :: b :: rest, _ => exact ⟨a, b, rest, rfl⟩
      choose E' nu' rest' h using this
      exact ⟨E', nu', rest', h⟩
    obtain rfl : par = fun i => E' i :: nu' i :: rest' i := funext hp
    have hE : Tendsto E' l (𝓝 a) := hpar.tends 0
    have hnu : Tendsto nu' l (𝓝 b) := hpar.tends 1
    have hlen : ∀ i, (rest' i).length = rest0.length := fun i => by simpa using hpar.shape i
    have hρ : Tendsto (fun i => density (rest' i)) l (𝓝 ρ0) := by
      rw [densOf_eq, Except.ok.injEq] at hd
      rw [← hd]
      have e : ∀ r : List ℝ, density r = if r.length = 0 then 1 else (a :: b :: r).getD (r.length - 1 + 2) 0 := fun r => by
        unfold density
        rcases List.eq_nil_or_concat r with rfl | ⟨t, x, rfl⟩
        · rfl
        · simp
      have e' : ∀ r : List ℝ, ∀ a' b' : ℝ, (a :: b :: r).getD (r.length - 1 + 2) 0 = (a' :: b' :: r).getD (r.length - 1 + 2) 0 :=
        fun r a' b' => by simp [List.getD]
      rw [e rest0]
      by_cases h0 : rest0.length = 0
      · rw [if_pos h0]
        refine tendsto_const_nhds.congr fun i => ?_
        rw [e, if_pos (by rw [hlen i]; exact h0)]
      · rw [if_neg h0]
        refine (hpar.tends (rest0.length - 1 + 2)).congr fun i => ?_
        rw [e, if_neg (by rw [hlen i]; exact h0), e' _ (E' i) (nu' i), hlen i]
    have h1nu : Tendsto (fun i => 1 - nu' i ^ 2) l (𝓝 (1 - b ^ 2)) := tendsto_const_nhds.sub (hnu.pow 2)
    let H : ℝ → ℝ → Matrix (Fin 3) (Fin 3) ℝ := fun E nu => !![E / (1 - nu ^ 2), nu * (E / (1 - nu ^ 2)), 0;
      nu * (E / (1 - nu ^ 2)), E / (1 - nu ^ 2), 0; 0, 0, E / (1 - nu ^ 2) * ((1 - nu) / 2)]
    have hC : Tendsto (fun i => H (E' i) (nu' i)) l (𝓝 C0) := by
      have t1 := hE.div h1nu e2
      have t2 := hnu.mul t1
      have t3 := t1.mul ((tendsto_const_nhds (x := (1 : ℝ)).sub hnu).div_const 2)
      rw [e3]
      refine tendsto_matrix fun r c => ?_
      fin_cases r <;> fin_cases c <;> first | exact t1 | exact t2 | exact t3 | exact tendsto_const_nhds
    have hX' := tendsto_matrix hX
    refine ⟨_, _, ?_, tendsto_cells (tendsto_stiffness (B := fun sh X => bMat2 (grad sh.2 X)) hX' hC fun x hx => ?_),
      tendsto_cells (tendsto_massM hX' hρ)⟩
    · have hacc : ∀ᶠ i in l, Acc R (X i) := eventually_all (P := fun i sh => 1e-8 < jdet sh (X i)) fun x hx =>
        (tendsto_jdet x.1 hX').eventually (lt_mem_nhds (ha x hx))
      filter_upwards [hacc, h1nu.eventually_ne e2] with i h3 h4
      refine (hr.ok _ _ _).2 ⟨_, _, ⟨fun h => ?_, umat_ok.2 ⟨_, _, rfl, h4, rfl⟩, densOf_eq _ _ _⟩, h3, rfl⟩
      rw [hpar.shape i]
      exact hst h
    · exact tendsto_bMat2 (tendsto_gradient _ hX' (lt_trans (by norm_num) (ha x hx)).ne')

/-- Direction and length of a bar. -/
theorem bar_tendsto {X : ι → Matrix (Fin 2) (Fin 2) ℝ} {X0 : Matrix (Fin 2) (Fin 2) ℝ}
    (hx : ∀ a b, Tendsto (fun i => X i a b) l (𝓝 (X0 a b))) (hne : X0 0 ≠ X0 1) :
    ∃ (L : ι → ℝ) (L0 : ℝ), IsLength X0 L0 ∧ (∀ᶠ i in l, IsLength (X i) (L i)) ∧ Tendsto L l (𝓝 L0) ∧
      Tendsto (fun i => (X i 1 0 - X i 0 0) / L i) l (𝓝 ((X0 1 0 - X0 0 0) / L0)) ∧
      Tendsto (fun i => (X i 1 1 - X i 0 1) / L i) l (𝓝 ((X0 1 1 - X0 0 1) / L0)) := by
  let len : Matrix (Fin 2) (Fin 2) ℝ → ℝ := fun X => Real.sqrt ((X 1 0 - X 0 0) ^ 2 + (X 1 1 - X 0 1) ^ 2)
  have hlenX : ∀ X : Matrix (Fin 2) (Fin 2) ℝ, X 0 ≠ X 1 → IsLength X (len X) := by
    intro X hX
    obtain ⟨L, hL⟩ := exists_length sqrtFn_real hX
    have : len X = L := by
      show Real.sqrt _ = L
      rw [← hL.2, Real.sqrt_mul_self hL.1.le]
    rw [this]
    exact hL
  have hL0 := hlenX X0 hne
  have hL : Tendsto (fun i => len (X i)) l (𝓝 (len X0)) := by
    refine (Real.continuous_sqrt.tendsto _).comp ?_
    exact (((hx 1 0).sub (hx 0 0)).pow 2).add (((hx 1 1).sub (hx 0 1)).pow 2)
  refine ⟨_, _, hL0, ?_, hL, ((hx 1 0).sub (hx 0 0)).div hL hL0.1.ne', ((hx 1 1).sub (hx 0 1)).div hL hL0.1.ne'⟩
  have hX := tendsto_matrix hx
  have h2 : Tendsto (fun i => X i 0 - X i 1) l (𝓝 (X0 0 - X0 1)) := (tendsto_pi_nhds.1 hX 0).sub (tendsto_pi_nhds.1 hX 1)
  filter_upwards [h2.eventually_ne (sub_ne_zero.2 hne)] with i h
  exact hlenX _ (sub_ne_zero.1 h)

theorem tendsto_cells6 {M : ι → Matrix (Fin 6) (Fin 6) ℝ} {M0 : Matrix (Fin 6) (Fin 6) ℝ} (h : Tendsto M l (𝓝 M0)) (r c : ℕ) :
    Tendsto (fun i => cell (NdArr.mat 6 6 (M i)) r c) l (𝓝 (cell (NdArr.mat 6 6 M0) r c)) := by
  simp only [cell]
  split
  · exact tendsto_pi_nhds.1 (tendsto_pi_nhds.1 h _) _
  · exact tendsto_const_nhds

theorem tendsto_along {α β : Type} [TopologicalSpace α] [TopologicalSpace β] {g : α → β} (hg : Continuous g) {x : ι → α} {x0 : α}
    (h : Tendsto x l (𝓝 x0)) : Tendsto (fun i => g (x i)) l (𝓝 (g x0)) := (hg.tendsto x0).comp h

theorem continuous_beamUQ : Continuous fun p : ℝ × ℝ => beamUQ p.1 p.2 := by
  refine continuous_matrix fun a b => ?_
  fin_cases a <;> fin_cases b <;> simp [beamUQ] <;> fun_prop

theorem continuous_beamQ : Continuous fun p : ℝ × ℝ => beamQ p.1 p.2 := by
  refine continuous_matrix fun a b => ?_
  fin_cases a <;> fin_cases b <;> simp [beamQ] <;> fun_prop

theorem continuous_beamUCore : Continuous fun p : ℝ × ℝ => beamUCore p.1 p.2 := by
  refine continuous_matrix fun a b => ?_
  fin_cases a <;> fin_cases b <;> simp [beamUCore] <;> fun_prop

theorem continuous_beamUMassCore : Continuous fun p : ℝ × ℝ => beamUMassCore p.1 p.2 := by
  refine continuous_matrix fun a b => ?_
  fin_cases a <;> fin_cases b <;> simp [beamUMassCore] <;> fun_prop

theorem continuous_beamCore : Continuous fun p : ℝ × ℝ × ℝ => beamCore p.1 p.2.1 p.2.2 := by
  refine continuous_matrix fun a b => ?_
  fin_cases a <;> fin_cases b <;> simp [beamCore] <;> fun_prop

theorem continuous_beamMassArr : Continuous (beamMassArr : ℝ → Matrix (Fin 6) (Fin 6) ℝ) := by
  refine continuous_matrix fun a b => ?_
  fin_cases a <;> fin_cases b <;> simp [beamMassArr] <;> fun_prop

theorem tendsto_triple {k : ℕ} {Q : ι → Matrix (Fin k) (Fin 6) ℝ} {Q0 : Matrix (Fin k) (Fin 6) ℝ} {C : ι → Matrix (Fin k) (Fin k) ℝ}
    {C0 : Matrix (Fin k) (Fin k) ℝ} (hQ : Tendsto Q l (𝓝 Q0)) (hC : Tendsto C l (𝓝 C0)) :
    Tendsto (fun i => (Q i).transpose * C i * Q i) l (𝓝 (Q0.transpose * C0 * Q0)) :=
  tendsto_mul (tendsto_mul (tendsto_transpose hQ) hC) hQ

theorem gives_of_mat {f : Uel ℝ} {coord : Table ℝ} {params : List ℝ} {M N : Matrix (Fin 6) (Fin 6) ℝ}
    (h : f coord params = .ok (.mat 6 6 M, .mat 6 6 N)) : ∃ k m : Matrix (Fin 2 × Fin 3) (Fin 2 × Fin 3) ℝ, Gives f coord params k m :=
  ⟨_, _, _, _, h, (holds_mat (n := 2) (d := 3)).2 rfl, (holds_mat (n := 2) (d := 3)).2 rfl⟩

/-- C167.  The beam without axial stiffness. -/
theorem C167_beam2DU : ContinuousElement 2 2 (beam2DU Real.sqrt) := by
  intro ι l X X0 par par0 k0 m0 hX hpar h1
  obtain ⟨⟨M, rfl⟩, ⟨N, rfl⟩⟩ := beams_mat (sq := Real.sqrt) (ty := 7) (.inl rfl) rfl h1
  obtain ⟨hne, hlen⟩ := (C57_beam2DU_accepts_iff sqrtFn_real X0 par0).1 (gives_of_mat h1)
  obtain ⟨L, L0, hL0, hL, hLt, hc, hs⟩ := bar_tendsto hX hne
  obtain ⟨E', I', μ', E, I, μ, hp', hp, hE, hI, hμ⟩ : ∃ E' I' μ' : ι → ℝ, ∃ E I μ, (∀ i, BeamUParams (par i) (E' i) (I' i) (μ' i)) ∧
      BeamUParams par0 E I μ ∧ Tendsto E' l (𝓝 E) ∧ Tendsto I' l (𝓝 I) ∧ Tendsto μ' l (𝓝 μ) := by
    rcases hlen with hlen | hlen
    · match par0, hlen, hpar with
      | [E, I], _, hpar =>
        refine ⟨_, _, fun _ => 1, E, I, 1, fun i => .inl ⟨?_, rfl⟩, .inl ⟨rfl, rfl⟩, hpar.tends 0, hpar.tends 1, tendsto_const_nhds⟩
        have hl := hpar.shape i
        match par i, hl with
        | [a, b], _ => rfl
    · match par0, hlen, hpar with
      | [E, I, ρ, A], _, hpar =>
        refine ⟨_, _, _, E, I, ρ * A, fun i => .inr ⟨(par i).getD 2 0, (par i).getD 3 0, ?_, rfl⟩, .inr ⟨ρ, A, rfl, rfl⟩, hpar.tends 0,
          hpar.tends 1, (hpar.tends 2).mul (hpar.tends 3)⟩
        have hl := hpar.shape i
        match par i, hl with
        | [a, b, c, d], _ => rfl
  have e0 := beamU_ok sqrtFn_real hL0 hp
  rw [h1, Except.ok.injEq] at e0
  obtain ⟨e1, e2⟩ := Prod.mk.inj e0
  rw [e1, e2]
  have hQ := tendsto_along continuous_beamUQ (hc.prodMk_nhds hs)
  have h3 := (hI.mul hE).div (hLt.pow 3) (pow_ne_zero 3 hL0.1.ne')
  refine ⟨_, _, ?_, tendsto_cells6 (tendsto_triple hQ (tendsto_along continuous_beamUCore (h3.prodMk_nhds hLt))),
    tendsto_cells6 (tendsto_triple hQ (tendsto_along continuous_beamUMassCore ((hμ.mul hLt).prodMk_nhds hLt)))⟩
  filter_upwards [hL] with i hi
  exact beamU_ok sqrtFn_real hi (hp' i)

/-- C167.  The beam with axial stiffness. -/
theorem C167_beam2D : ContinuousElement 2 2 (beam2D Real.sqrt) := by
  intro ι l X X0 par par0 k0 m0 hX hpar h1
  obtain ⟨⟨M, rfl⟩, ⟨N, rfl⟩⟩ := beams_mat (sq := Real.sqrt) (ty := 8) (.inr rfl) rfl h1
  obtain ⟨hne, hI0, hlen⟩ := (C57_beam2D_accepts_iff sqrtFn_real X0 par0).1 (gives_of_mat h1)
  obtain ⟨L, L0, hL0, hL, hLt, hc, hs⟩ := bar_tendsto hX hne
  have hQ := tendsto_along continuous_beamQ (hc.prodMk_nhds hs)
  have stiff : ∀ {E' I' A' : ι → ℝ} {E I A : ℝ}, I ≠ 0 → Tendsto E' l (𝓝 E) → Tendsto I' l (𝓝 I) → Tendsto A' l (𝓝 A) →
      Tendsto (fun i => beamCore (I' i * E' i / L i ^ 3) (A' i / I' i) (L i)) l (𝓝 (beamCore (I * E / L0 ^ 3) (A / I) L0)) :=
    fun hI hE' hI' hA' => tendsto_along continuous_beamCore (((hI'.mul hE').div (hLt.pow 3) (pow_ne_zero 3 hL0.1.ne')).prodMk_nhds
      ((hA'.div hI' hI).prodMk_nhds hLt))
  by_cases h9 : par0.length = 9
  · match par0, h9, hpar, hI0 with
    | [E, I, A, d0, d1, d2, d3, d4, d5], _, hpar, hI0 =>
      have hI := hI0 I rfl
      have hp : ∀ i, ∃ E' I' A' d0 d1 d2 d3 d4 d5, par i = [E', I', A', d0, d1, d2, d3, d4, d5] := fun i => by
        have hl := hpar.shape i
        match par i, hl with
        | [a, b, c, d, e, f, g, h, j], _ => exact ⟨_, _, _, _, _, _, _, _, _, rfl⟩
      choose E' I' A' c0 c1 c2 c3 c4 c5 hp using hp
      obtain rfl : par = fun i => [E' i, I' i, A' i, c0 i, c1 i, c2 i, c3 i, c4 i, c5 i] := funext hp
      have hE : Tendsto E' l (𝓝 E) := hpar.tends 0
      have hI' : Tendsto I' l (𝓝 I) := hpar.tends 1
      have hA : Tendsto A' l (𝓝 A) := hpar.tends 2
      have e0 := beam_nine sqrtFn_real hL0 hI E A d0 d1 d2 d3 d4 d5
      rw [h1, Except.ok.injEq] at e0
      obtain ⟨e1, e2⟩ := Prod.mk.inj e0
      rw [e1, e2]
      have hm : Tendsto (fun i => (Matrix.of fun a b => (A' i * L i * ![c0 i, c1 i, c2 i, c3 i, c4 i, c5 i] b / 420) *
          beamMassArr (L i) a b : Matrix (Fin 6) (Fin 6) ℝ)) l (𝓝 (Matrix.of fun a b => (A * L0 * ![d0, d1, d2, d3, d4, d5] b / 420) *
          beamMassArr L0 a b)) := by
        refine tendsto_matrix fun a b => ?_
        have hb := tendsto_pi_nhds.1 (tendsto_pi_nhds.1 (tendsto_along continuous_beamMassArr hLt) a) b
        refine Tendsto.mul (Tendsto.div_const (Tendsto.mul (hA.mul hLt) ?_) 420) hb
        fin_cases b
        · exact hpar.tends 3
        · exact hpar.tends 4
        · exact hpar.tends 5
        · exact hpar.tends 6
        · exact hpar.tends 7
        · exact hpar.tends 8
      refine ⟨_, _, ?_, tendsto_cells6 (tendsto_triple hQ (stiff hI hE hI' hA)), tendsto_cells6 (tendsto_triple hQ hm)⟩
      filter_upwards [hL, hI'.eventually_ne hI] with i hi hi'
      exact beam_nine sqrtFn_real hi hi' _ _ _ _ _ _ _ _
  · obtain ⟨E', I', A', μ', E, I, A, μ, hp', hp, hE, hI, hA, hμ⟩ : ∃ E' I' A' μ' : ι → ℝ, ∃ E I A μ,
        (∀ i, I' i ≠ 0 → BeamParams (par i) (E' i) (I' i) (A' i) (μ' i)) ∧
        BeamParams par0 E I A μ ∧ Tendsto E' l (𝓝 E) ∧ Tendsto I' l (𝓝 I) ∧ Tendsto A' l (𝓝 A) ∧ Tendsto μ' l (𝓝 μ) := by
      rcases hlen with hlen | hlen | hlen
      · match par0, hlen, hpar, hI0 with
        | [E, I, A], _, hpar, hI0 =>
          refine ⟨_, _, _, _, E, I, A, A, fun i hi => ⟨hi, .inl ⟨?_, rfl⟩⟩, ⟨hI0 I rfl, .inl ⟨rfl, rfl⟩⟩, hpar.tends 0, hpar.tends 1,
            hpar.tends 2, hpar.tends 2⟩
          have hl := hpar.shape i
          match par i, hl with
          | [a, b, c], _ => rfl
      · match par0, hlen, hpar, hI0 with
        | [E, I, A, ρ], _, hpar, hI0 =>
          refine ⟨_, _, _, _, E, I, A, ρ * A, fun i hi => ⟨hi, .inr ⟨(par i).getD 3 0, ?_, rfl⟩⟩, ⟨hI0 I rfl, .inr ⟨ρ, rfl, rfl⟩⟩,
            hpar.tends 0, hpar.tends 1, hpar.tends 2, (hpar.tends 3).mul (hpar.tends 2)⟩
          have hl := hpar.shape i
          match par i, hl with
          | [a, b, c, d], _ => rfl
      · exact absurd hlen h9
    have e0 := beam_ok sqrtFn_real hL0 hp
    rw [h1, Except.ok.injEq] at e0
    obtain ⟨e1, e2⟩ := Prod.mk.inj e0
    rw [e1, e2]
    have hm := (((hμ.mul hLt).div_const 420).smul (tendsto_along continuous_beamMassArr hLt))
    refine ⟨_, _, ?_, tendsto_cells6 (tendsto_triple hQ (stiff hp.1 hE hI hA)), tendsto_cells6 (tendsto_triple hQ hm)⟩
    filter_upwards [hL, hI.eventually_ne hp.1] with i hi hi'
    exact beam_ok sqrtFn_real hi (hp' i hi')

/-! ## The elements of a model -/

theorem rows_matrix {nodes : Table ℝ} (hn : ∀ r ∈ nodes, r.length = d + 1) {ps : List ℕ} {rows : Table ℝ}
    (h : List.Forall₂ (fun p row => nodes[p]? = some row) ps rows) :
    rows.map (List.drop 1) = matRows (Matrix.of fun (a : Fin ps.length) (k : Fin d) => fieldOf nodes ps[a] (k + 1)) := by
  refine List.ext_getElem (by simp [matRows, h.length_eq]) fun a h1 h2 => ?_
  have ha : a < rows.length := by simpa using h1
  have ha' : a < ps.length := by rw [h.length_eq]; exact ha
  have h3 := h.get (i := a) ha' ha
  simp only [List.get_eq_getElem] at h3
  have h4 := hn _ (List.mem_of_getElem? h3)
  refine List.ext_getElem (by simp [matRows, h4]) fun b h5 h6 => ?_
  have hb : b + 1 < (rows[a]).length := by
    simp at h5
    omega
  simp [matRows, fieldOf_getD h3, List.getD, List.getElem?_eq_getElem hb]

variable {fn : ℤ → Uel ℝ → Prop} {elements : List (List ℤ)} {nd : ℕ} {nodes mats : ι → Table ℝ} {nodes0 mats0 : Table ℝ}

/-- Elements near an accepted element are accepted, and their stiffness is near. -/
theorem member_tends (hN : TableTends l nodes nodes0) (hM : TableTends l mats mats0) (hn : ∀ r ∈ nodes0, r.length = d + 1) {el : List ℤ}
    {m0 : Member ℝ} (hc : ∀ ty f, el[1]? = some ty → fn ty f → ContinuousElement d (el.drop 3).length f)
    (hm : IsMember fn mats0 nodes0 el m0) :
    ∃ m : ι → Member ℝ, (∀ᶠ i in l, IsMember fn (mats i) (nodes i) el (m i)) ∧
      (∀ i, (m i).nodes = m0.nodes) ∧ ∀ r c, Tendsto (fun i => (m i).k r c) l (𝓝 (m0.k r c)) := by
  obtain ⟨ps, k0⟩ := m0
  obtain ⟨ty, mi, par0, rows0, f, kl, ml, a1, a2, ⟨q, a3, a4⟩, a5, a6, a7, a8, rfl⟩ := hm
  dsimp only at a5 a6
  have hf := hc ty f a1 a7
  rw [a5.length_eq] at hf
  rw [rows_matrix hn a6] at a8
  choose par hpar1 hpar2 using fun i => hM.row a4 i
  have hpar : RowTends l par par0 := ⟨hpar2, fun k => by
    have := hM.tends q k
    simpa only [fieldOf_getD a4, fieldOf_getD (hpar1 _)] using this⟩
  obtain ⟨k, m, h1, h2, -⟩ := hf (l := l) (X := fun i => Matrix.of fun a k => fieldOf (nodes i) ps[a] (k + 1))
    (X0 := Matrix.of fun a k => fieldOf nodes0 ps[a] (k + 1)) (fun a b => hN.tends _ _) hpar a8
  refine ⟨fun i => ⟨ps, cell (k i)⟩, ?_, fun _ => rfl, h2⟩
  filter_upwards [h1] with i hi
  have a5' : List.Forall₂ (Resolves (nodes i).length) (el.drop 3) ps := by rw [hN.length i]; exact a5
  obtain ⟨rows, hr⟩ := rows_of_resolves a5'
  refine ⟨ty, mi, par i, rows, f, k i, m i, a1, a2, ⟨q, by rw [hM.length i]; exact a3, hpar1 i⟩, a5', hr, a7, ?_, rfl⟩
  rw [rows_matrix (tends_widths hN hn i) hr]
  exact hi

theorem members_tends (hN : TableTends l nodes nodes0) (hM : TableTends l mats mats0) (hn : ∀ r ∈ nodes0, r.length = d + 1)
    (hc : ∀ el ∈ elements, ∀ ty f, el[1]? = some ty → fn ty f → ContinuousElement d (el.drop 3).length f) {ms0 : List (Member ℝ)}
    (hms : List.Forall₂ (IsMember fn mats0 nodes0) elements ms0) :
    ∃ ms : ι → List (Member ℝ), (∀ᶠ i in l, List.Forall₂ (IsMember fn (mats i) (nodes i)) elements (ms i)) ∧
      ∀ u p j, Tendsto (fun i => internal nd (ms i) u p j) l (𝓝 (internal nd ms0 u p j)) := by
  induction hms with
  | nil => exact ⟨fun _ => [], Eventually.of_forall fun _ => .nil, fun u p j => tendsto_const_nhds⟩
  | @cons el m0 els ms0 h1 _ ih =>
    obtain ⟨ms, h2, h3⟩ := ih fun el hel => hc el (by simp [hel])
    obtain ⟨m, h4, h5, h6⟩ := member_tends hN hM hn (hc el (by simp)) h1
    refine ⟨fun i => m i :: ms i, ?_, fun u p j => ?_⟩
    · filter_upwards [h2, h4] with i h2 h4
      exact .cons h4 h2
    · have e : ∀ m ms, internal nd (m :: ms) u p j = (∑ a ∈ Finset.range m.nodes.length,
          if m.nodes[a]? = some p then m.force nd u a j else 0) + internal nd ms u p j := fun _ _ => by simp [internal]
      simp only [e, h5]
      refine Tendsto.add (tendsto_finsetSum _ fun a _ => ?_) (h3 u p j)
      split
      · unfold Member.force
        simp only [h5]
        exact tendsto_finsetSum _ fun b _ => tendsto_finsetSum _ fun i _ => (h6 _ _).mul tendsto_const_nhds
      · exact tendsto_const_nhds

/-! ## Runs -/

/-- Matrices of structures with converging nodal forces. -/
theorem setups_tendsto {cons : Table ℝ} {neq : ℕ} {bc : List (List ℤ)} {Kg0 : Matrix (Fin neq) (Fin neq) ℝ} {ms0 : List (Member ℝ)}
    {ms : ι → List (Member ℝ)} (s0 : Setup fn cons elements mats0 nodes0 nd neq bc Kg0 ms0)
    (hint : ∀ u p j, Tendsto (fun i => internal nd (ms i) u p j) l (𝓝 (internal nd ms0 u p j))) :
    ∃ M : ι → Matrix (Fin neq) (Fin neq) ℝ, Tendsto M l (𝓝 Kg0) ∧
      ∀ i Kg, Setup fn cons elements (mats i) (nodes i) nd neq bc Kg (ms i) → Kg = M i := by
  choose P J hPf hPe _ using fun a : Fin neq => (C01_numbering_bijective s0.eq).2 a a.2
  choose U hU using fun b : Fin neq => exists_completes (cons := cons) bc nd (Pi.single b (1 : ℝ))
  refine ⟨fun i => Matrix.of fun a b => internal nd (ms i) (U b) (P a) (J a), ?_, fun i Kg s => ?_⟩
  · have hK0 : Kg0 = Matrix.of fun a b => internal nd ms0 (U b) (P a) (J a) := by
      ext a b
      exact setup_entry s0 (hPf a) (hPe a) (hU b)
    rw [hK0]
    exact tendsto_matrix fun a b => hint _ _ _
  · ext a b
    exact setup_entry s (hPf a) (hPe a) (hU b)

theorem loadFits_tends {cons : Table ℝ} {L : ι → Table ℝ} {L0 : Table ℝ} (hL : TableTends l L L0)
    (hl : ∀ i, (L i).map List.head? = L0.map List.head?) (h : ∀ r ∈ L0, LoadFits cons nd r) (i : ι) : ∀ r ∈ L i, LoadFits cons nd r := by
  intro r hr
  obtain ⟨k, hk, rfl⟩ := List.mem_iff_getElem.1 hr
  have hk0 : k < L0.length := by rw [← hL.length i]; exact hk
  obtain ⟨p, hp1, hp2⟩ := h L0[k] (List.getElem_mem hk0)
  have e1 := congrArg (fun x => x[k]?) (hl i)
  have e2 := congrArg (fun x => x[k]?) (hL.shape i)
  simp only [List.getElem?_map, List.getElem?_eq_getElem hk, List.getElem?_eq_getElem hk0, Option.map_some,
    Option.some.injEq] at e1 e2
  exact ⟨p, (names_head e1 p).2 hp1, fun j hf => by rw [e2]; exact hp2 j hf⟩

theorem shared_tendsto {cons : Table ℝ} {L : ι → Table ℝ} {L0 : Table ℝ} {ms : ι → List (Member ℝ)} {ms0 : List (Member ℝ)}
    {run : ι → Sol.Solver ℝ → Sol.Solver ℝ → Bool → Table ℝ → Py (Table ℝ)}
    {run0 : Sol.Solver ℝ → Sol.Solver ℝ → Bool → Table ℝ → Py (Table ℝ)}
    (h0 : Shared fn cons elements mats0 nodes0 nd ms0 run0)
    (hS : ∀ᶠ i in l, Shared fn cons elements (mats i) (nodes i) nd (ms i) (run i))
    (hint : ∀ u p j, Tendsto (fun i => internal nd (ms i) u p j) l (𝓝 (internal nd ms0 u p j)))
    (hL : TableTends l L L0) (hl : ∀ i, (L i).map List.head? = L0.map List.head?) (hst : Stable cons nd ms0) {sp de : Sol.Solver ℝ}
    (hsp : SolverOk sp) (hde : SolverOk de) {sparse : Bool} {full0 : Table ℝ} (hr0 : run0 sp de sparse L0 = .ok full0) :
    (∀ᶠ i in l, Stable cons nd (ms i) ∧ ∃ full, run i sp de sparse (L i) = .ok full) ∧
    ∀ full : ι → Table ℝ, (∀ᶠ i in l, run i sp de sparse (L i) = .ok (full i)) → ∀ p j, p < nodes0.length → j < nd →
      Tendsto (fun i => fieldOf (full i) p j) l (𝓝 (fieldOf full0 p j)) := by
  obtain ⟨hsz, neq, bc, Kg0, s0, hrun0⟩ := h0
  obtain ⟨rhs0, x0, a1, a2, a3⟩ := (hrun0 ..).1 hr0
  obtain ⟨M, hM, hMK⟩ := setups_tendsto s0 hint
  have hdet0 := det_ne_zero_of_stable s0 hst
  have hdet : ∀ᶠ i in l, (M i).det ≠ 0 := (tendsto_det hM).eventually_ne hdet0
  have hso : SolverOk (if sparse then sp else de) := by cases sparse <;> assumption
  have hfit := loadFits_tends hL hl ((C160_loads_iff s0.eq s0.valid).1 ⟨rhs0, a1⟩)
  choose rhs hrhs using fun i => (C160_loads_iff s0.eq s0.valid).2 (hfit i)
  have hR : Tendsto rhs l (𝓝 rhs0) := loads_tendsto hL hl s0.eq s0.valid (Eventually.of_forall hrhs) a1
  have hrun : ∀ᶠ i in l, cons.length = (nodes i).length ∧ Setup fn cons elements (mats i) (nodes i) nd neq bc (M i) (ms i) ∧
      ∀ full, run i sp de sparse (L i) = .ok full ↔ ∃ x, (if sparse then sp else de) neq (M i) (rhs i) = .ok x ∧
        Post.completeDisp bc (nodes i).length x nd = .ok full := by
    filter_upwards [hS] with i hi
    obtain ⟨e0, neq', bc', Kg, s, hr⟩ := hi
    have := s.eq
    rw [s0.eq, Except.ok.injEq, Prod.mk.injEq] at this
    obtain ⟨rfl, rfl⟩ := this
    obtain rfl := hMK i Kg s
    refine ⟨e0, s, fun full => ?_⟩
    rw [hr]
    constructor
    · rintro ⟨r, x, b1, b2⟩
      rw [hrhs i, Except.ok.injEq] at b1
      subst b1
      exact ⟨x, b2⟩
    · rintro ⟨x, b2⟩
      exact ⟨_, x, hrhs i, b2⟩
  constructor
  · filter_upwards [hrun, hdet] with i ⟨e0, s, hr⟩ hd
    refine ⟨stable_of_det_ne_zero s hd, ?_⟩
    obtain ⟨x, hx, -⟩ := hso _ (M i) (rhs i) hd
    obtain ⟨full, h6, _⟩ := C15_constrained_zero s.eq s.valid x
    rw [e0] at h6
    exact ⟨full, (hr full).2 ⟨x, hx, h6⟩⟩
  · intro full hfull p j hp hj
    have hc0 : Completes cons bc nd neq x0 (fieldOf full0) := by
      rw [← hsz] at a3
      exact completes_of_completeDisp a3
    have hlim : Tendsto (fun i => (M i).det⁻¹ • (M i).adjugate.mulVec (rhs i)) l (𝓝 x0) := by
      obtain ⟨y, hy1, hy2⟩ := hso _ Kg0 rhs0 hdet0
      rw [a2, Except.ok.injEq] at hy1
      subst hy1
      rw [solved_eq hdet0 hy2]
      exact tendsto_solution hM hdet0 hR
    have hex : ∀ᶠ i in l, Completes cons bc nd neq ((M i).det⁻¹ • (M i).adjugate.mulVec (rhs i)) (fieldOf (full i)) := by
      filter_upwards [hrun, hdet, hfull] with i ⟨e0, s, hr⟩ hd hf
      obtain ⟨x, b1, b2⟩ := (hr _).1 hf
      obtain ⟨y, hy1, hy2⟩ := hso _ (M i) (rhs i) hd
      rw [b1, Except.ok.injEq] at hy1
      subst hy1
      rw [← solved_eq hd hy2]
      rw [← e0] at b2
      exact completes_of_completeDisp b2
    rw [← hsz] at hp
    rcases free_or_fixed s0.eq s0.valid hp hj with ⟨_, a, ha, _⟩ | ⟨_, _, hno⟩
    · rw [(hc0 p hp j hj).1 a ha]
      refine (tendsto_pi_nhds.1 hlim a).congr' ?_
      filter_upwards [hex] with i h3
      rw [(h3 p hp j hj).1 a ha]
    · rw [(hc0 p hp j hj).2 hno]
      refine tendsto_const_nhds.congr' ?_
      filter_upwards [hex] with i h3
      rw [(h3 p hp j hj).2 hno]

theorem wellPosed_of_limits {stable : Table ℝ → Table ℝ → Prop} {run : Table ℝ → Table ℝ → Table ℝ → Py (Table ℝ)}
    {nodes0 mats0 loads0 full0 : Table ℝ}
    (h : ∀ (ι : Type) (l : Filter ι) (nodes mats loads : ι → Table ℝ), DataTends l nodes mats loads nodes0 mats0 loads0 →
      (∀ᶠ i in l, stable (nodes i) (mats i) ∧ ∃ full, run (nodes i) (mats i) (loads i) = .ok full) ∧
      ∀ full : ι → Table ℝ, (∀ᶠ i in l, run (nodes i) (mats i) (loads i) = .ok (full i)) → ∀ p j, p < nodes0.length → j < nd →
        Tendsto (fun i => fieldOf (full i) p j) l (𝓝 (fieldOf full0 p j))) : WellPosed nd stable run nodes0 mats0 loads0 full0 := by
  refine ⟨h, fun ε hε => ?_⟩
  by_contra hc
  push Not at hc
  choose nodes mats loads hd hbad using fun n : ℕ => hc (1 / ((n : ℝ) + 1)) (by positivity)
  obtain ⟨h1, h2⟩ := h ℕ atTop nodes mats loads ⟨tableNear_tends fun n => (hd n).coords, tableNear_tends fun n => (hd n).material,
    tableNear_tends fun n => (hd n).forces, fun n => (hd n).loaded⟩
  classical
  let full : ℕ → Table ℝ := fun n =>
    if hn : ∃ full, run (nodes n) (mats n) (loads n) = .ok full then hn.choose else full0
  have hres : ∀ᶠ n in atTop, run (nodes n) (mats n) (loads n) = .ok (full n) := by
    filter_upwards [h1] with n hn
    simp only [full, dif_pos hn.2]
    exact hn.2.choose_spec
  have hall : ∀ᶠ n in atTop, ∀ q ∈ Finset.range nodes0.length ×ˢ Finset.range nd,
      |fieldOf (full n) q.1 q.2 - fieldOf full0 q.1 q.2| < ε := by
    refine (Filter.eventually_all_finset _).2 fun q hq => ?_
    rw [Finset.mem_product, Finset.mem_range, Finset.mem_range] at hq
    have := (tendsto_iff_dist_tendsto_zero.1 (h2 full hres q.1 q.2 hq.1 hq.2)).eventually (gt_mem_nhds hε)
    filter_upwards [this] with n hn
    rwa [Real.dist_eq] at hn
  obtain ⟨n, ⟨hn1, hn2⟩, hn3⟩ := ((hres.and hall).and h1).exists
  obtain ⟨p, j, hp', hj, hge⟩ := hbad n hn3.1 (full n) hn1
  exact absurd (hn2 (p, j) (by simp [hp', hj])) (not_lt.2 hge)

/-- C167.  The analysis of a frame is well posed at every stable frame. -/
theorem C167_frames {cons nodes0 mats0 L0 : Table ℝ} (hf : Frame cons nodes0 elements) (hn : ∀ r ∈ nodes0, r.length = 3)
    {ms0 : List (Member ℝ)} (hms : List.Forall₂ (IsMember (Routine Real.sqrt) mats0 nodes0) elements ms0) (hst : Stable cons 3 ms0)
    {sp de : Sol.Solver ℝ} (hsp : SolverOk sp) (hde : SolverOk de) {sparse : Bool} {full0 : Table ℝ}
    (hr : frameRun Real.sqrt sp de sparse cons elements mats0 nodes0 L0 = .ok full0) :
    WellPosed 3 (fun nodes mats => ∃ ms, List.Forall₂ (IsMember (Routine Real.sqrt) mats nodes) elements ms ∧ Stable cons 3 ms)
      (fun nodes mats loads => frameRun Real.sqrt sp de sparse cons elements mats nodes loads) nodes0 mats0 L0 full0 := by
  refine wellPosed_of_limits fun ι l nodes mats loads h => ?_
  obtain ⟨ms, h1, h2⟩ := members_tends (nd := 3) (d := 2) h.coords h.material hn (fun el hel ty f hty hfn => by
    obtain ⟨ht, h2⟩ := hf.beams el hel
    rw [h2]
    rw [hty, Option.some.injEq, Option.some.injEq] at ht
    rcases ht with rfl | rfl
    · obtain rfl : Uel.beam2DU Real.sqrt = f := by simpa [Routine, Uel.eleFun] using hfn
      exact C167_beam2DU
    · obtain rfl : Uel.beam2D Real.sqrt = f := by simpa [Routine, Uel.eleFun] using hfn
      exact C167_beam2D) hms
  have hfi : ∀ i, Frame cons (nodes i) elements := fun i => ⟨hf.codes, hf.width, by rw [h.coords.length i]; exact hf.size, hf.beams⟩
  obtain ⟨g1, g2⟩ := shared_tendsto (frame_shared hf hms) (h1.mono fun i hi => frame_shared (hfi i) hi) h2 h.forces h.loaded hst hsp hde hr
  refine ⟨?_, g2⟩
  filter_upwards [g1, h1] with i hi hi'
  exact ⟨⟨ms i, hi', hi.1⟩, hi.2⟩

/-- C167.  The analysis with the user's element is well posed at every stable model, if the matrices of the element depend continuously
on its data. -/
theorem C167_user {f : Uel ℝ} {tab : ℤ → Py (Uel ℝ)} {m : ℕ} {count : ℤ → Py ℕ} {cons nodes0 mats0 L0 : Table ℝ}
    {ms0 : List (Member ℝ)} {sp de : Sol.Solver ℝ} (h : UserCase nd n m f count sp de cons elements mats0 nodes0 ms0)
    (hcf : ContinuousElement d n f) (hn : ∀ r ∈ nodes0, r.length = d + 1) (hst : Stable cons nd ms0) {sparse : Bool} {full0 : Table ℝ}
    (hr : userRun tab f nd m count sp de sparse cons elements mats0 nodes0 L0 = .ok full0) :
    WellPosed nd (fun nodes mats => ∃ ms, List.Forall₂ (Describes f mats nodes) elements ms ∧ Stable cons nd ms)
      (fun nodes mats loads => userRun tab f nd m count sp de sparse cons elements mats nodes loads) nodes0 mats0 L0 full0 := by
  refine wellPosed_of_limits fun ι l nodes mats loads ht => ?_
  have hu := h.model
  obtain ⟨ms, h1, h2⟩ := members_tends (nd := nd) (d := d) (fn := fun _ g => g = f) ht.coords ht.material hn (fun el hel ty g hty hfn => by
    subst hfn
    rw [hu.typed el hel]
    exact hcf) h.members
  have hui : ∀ i, UserModel nd n cons (nodes i) elements := fun i =>
    ⟨hu.codes, hu.width, by rw [ht.coords.length i]; exact hu.size, hu.typed⟩
  obtain ⟨g1, g2⟩ := shared_tendsto (user_shared (tab := tab) h.element hu h.counts h.some_dofs h.room h.members)
    (h1.mono fun i hi => user_shared (tab := tab) h.element (hui i) h.counts h.some_dofs h.room hi) h2 ht.forces ht.loaded hst
    h.sparse h.dense hr
  refine ⟨?_, g2⟩
  filter_upwards [g1, h1] with i hi hi'
  exact ⟨⟨ms i, hi', hi.1⟩, hi.2⟩

/-- C167.  The routines of `uelutil` that must be passed as `uel`. -/
theorem C167_library {f : Uel ℝ} (hf : Unlisted nd n f) : ContinuousElement nd n f := by
  cases hf with
  | quad8 => exact C167_plane .quad8
  | axi => exact C167_axi
  | tet4 => exact C167_solid .tet4
  | hex8 => exact C167_solid .hex8

end

/-! ## Cases -/

section demo

/-- Case for C167: a precision of the coordinates, stiffnesses and loads of the frame of the test that gives its displacements within a
millionth. -/
example (sparse : Bool) : ∃ full0, frameRun Real.sqrt cramerR cramerR sparse testFrame.1 testFrame.2.1 testFrame.2.2.1 testFrame.2.2.2.1
    testFrame.2.2.2.2 = .ok full0 ∧ ∃ δ > 0, ∀ nodes mats loads,
      DataNear δ nodes mats loads testFrame.2.2.2.1 testFrame.2.2.1 testFrame.2.2.2.2 →
      ∃ full, frameRun Real.sqrt cramerR cramerR sparse testFrame.1 testFrame.2.1 mats nodes loads = .ok full ∧
        ∀ p j, p < 3 → j < 3 → |fieldOf full p j - fieldOf full0 p j| < 1 / 10 ^ 6 := by
  have hb := testFrame_beams
  obtain ⟨ms, hk⟩ : ∃ ks, List.Forall₂ (IsMember (Routine Real.sqrt) testFrame.2.2.1 testFrame.2.2.2.1) testFrame.2.1 ks := by
    obtain ⟨_, _, _, _, h0⟩ := hb [0, 8, 0, 0, 1] (by simp [testFrame])
    obtain ⟨_, _, _, _, h1⟩ := hb [1, 8, 0, 1, 2] (by simp [testFrame])
    obtain ⟨m0, h0⟩ := h0.exists_member sqrtFn_real
    obtain ⟨m1, h1⟩ := h1.exists_member sqrtFn_real
    exact ⟨[m0, m1], .cons h0 (.cons h1 .nil)⟩
  obtain ⟨full, h1, -⟩ := testFrame_solved sparse
  have hw := C167_frames testFrame_frame (by
    intro r hr
    simp only [testFrame, List.mem_cons, List.not_mem_nil, or_false] at hr
    rcases hr with rfl | rfl | rfl <;> rfl) hk (testFrame_stable hk) cramerR_ok cramerR_ok h1
  obtain ⟨δ, hδ, h⟩ := hw.precision (1 / 10 ^ 6) (by norm_num)
  exact ⟨full, h1, δ, hδ, fun nodes mats loads hn => (h nodes mats loads hn).2⟩

/-- Models near the tetrahedron, with another modulus, another position of the free node and another load. -/
example {δ t u v : ℝ} (ht : |t| < δ) (hu : |u| < δ) (hv : |v| < δ) :
    DataNear δ [[0, 0, 0, 0], [1, 1, 0, 0], [2, 0, 1, 0], [3, 0, u, 1]] [[10 + t, 1/4, 1]] [[3, 0, 0, -1 + v]] loneNodes loneMats
      [[3, 0, 0, -1]] := by
  have hδ : 0 < δ := lt_of_le_of_lt (abs_nonneg _) ht
  refine ⟨⟨rfl, fun p j => ?_⟩, ⟨rfl, fun p j => ?_⟩, ⟨rfl, fun p j => ?_⟩, rfl⟩
  · match p, j with
    | 0, j => simpa [fieldOf, entry, loneNodes] using hδ
    | 1, j => simpa [fieldOf, entry, loneNodes] using hδ
    | 2, j => simpa [fieldOf, entry, loneNodes] using hδ
    | 3, 0 => simpa [fieldOf, entry, loneNodes] using hδ
    | 3, 1 => simpa [fieldOf, entry, loneNodes] using hδ
    | 3, 2 => simpa [fieldOf, entry, loneNodes] using hu
    | 3, j + 3 => simpa [fieldOf, entry, loneNodes] using hδ
    | p + 4, j => simpa [fieldOf, entry, loneNodes] using hδ
  · match p, j with
    | 0, 0 => simpa [fieldOf, entry, loneMats] using ht
    | 0, j + 1 => simpa [fieldOf, entry, loneMats] using hδ
    | p + 1, j => simpa [fieldOf, entry, loneMats] using hδ
  · match p, j with
    | 0, 0 => simpa [fieldOf, entry] using hδ
    | 0, 1 => simpa [fieldOf, entry] using hδ
    | 0, 2 => simpa [fieldOf, entry] using hδ
    | 0, 3 => simpa [fieldOf, entry] using hv
    | 0, j + 4 => simpa [fieldOf, entry] using hδ
    | p + 1, j => simpa [fieldOf, entry] using hδ

/-- The tetrahedron held at three nodes. -/
noncomputable def loneHeld : Table ℝ := [[-1, -1, -1], [-1, -1, -1], [-1, -1, -1], [0, 0, 0]]

theorem loneHeld_fixed (p : ℕ) (hp : p < 3) (j : ℕ) (hj : j < 3) : ¬ Free loneHeld 3 p j := by
  rintro ⟨-, v, h, h0⟩
  have : v = -1 := by
    unfold loneHeld entry at h
    interval_cases p <;> interval_cases j <;> simpa using h.symm
  rw [this] at h0
  norm_num at h0

theorem loneHeld_model : UserModel 3 4 loneHeld loneNodes loneEls where
  codes := by
    intro p j v _ h
    obtain ⟨r, h1, h2⟩ := entry_some.1 h
    have h1 := List.mem_of_getElem? h1
    have h2 := List.mem_of_getElem? h2
    simp [loneHeld] at h1
    rcases h1 with rfl | rfl <;> simp at h2
    · exact .inr h2
    · exact .inl h2
  width := by
    intro r hr
    simp [loneHeld] at hr
    rcases hr with rfl | rfl <;> rfl
  size := rfl
  typed := by decide

/-- Case for C167: the tetrahedron under a vertical load at its free node. -/
example (tab : ℤ → Py (Uel ℝ)) (sparse : Bool) : ∃ full0, userRun tab elastTet4 3 12 (fun _ => .ok 12) cramerR cramerR sparse loneHeld
    loneEls loneMats loneNodes [[3, 0, 0, -1]] = .ok full0 ∧ ∀ ε > 0, ∃ δ > 0, ∀ nodes mats loads,
      DataNear δ nodes mats loads loneNodes loneMats [[3, 0, 0, -1]] →
      ∃ full, userRun tab elastTet4 3 12 (fun _ => .ok 12) cramerR cramerR sparse loneHeld loneEls mats nodes loads = .ok full ∧
        ∀ p j, p < 4 → j < 3 → |fieldOf full p j - fieldOf full0 p j| < ε := by
  obtain ⟨a, hb, -⟩ := lone_body
  have hcount : Counts (fun _ => .ok 12) (4 * 3) loneEls := by
    intro el hel
    simp only [loneEls, List.mem_cons, List.not_mem_nil, or_false] at hel
    subst hel
    exact ⟨9, rfl, rfl⟩
  have hl : loneHeld.length = loneNodes.length := rfl
  have hst : Stable loneHeld 3 [a] := (C136_stable_iff hb hl).2 (C136_three_pins hl (p := 0) (q := 1) (r := 2) (by simp [loneNodes])
    (by simp [loneNodes]) (by simp [loneNodes]) (.inl (by norm_num [spread, coordOf, fieldOf, entry, loneNodes]))
    (loneHeld_fixed 0 (by omega)) (loneHeld_fixed 1 (by omega)) (loneHeld_fixed 2 (by omega)))
  have hcase : UserCase 3 4 12 elastTet4 (fun _ => .ok 12) cramerR cramerR loneHeld loneEls loneMats loneNodes [a] :=
    ⟨elementOf_solid .tet4, loneHeld_model, hcount, by norm_num, by norm_num, hb.members, cramerR_ok, cramerR_ok⟩
  obtain ⟨full, r, -⟩ := C135_solved (tab := tab) (loads := [[3, 0, 0, -1]]) hcase.element hcase.model hcase.counts hcase.some_dofs
    hcase.room hcase.members hst cramerR_ok cramerR_ok sparse (by
      intro L hL
      rw [List.mem_singleton] at hL
      subst hL
      exact ⟨by simp, 3, (names_nat (p := 3) (by simp [loneNodes]) (by simp)).2 rfl⟩)
  have hw := C167_user hcase (C167_library .tet4) (by
    intro r hr
    simp only [loneNodes, List.mem_cons, List.not_mem_nil, or_false] at hr
    rcases hr with rfl | rfl | rfl | rfl <;> rfl) hst r
  refine ⟨full, r, fun ε hε => ?_⟩
  obtain ⟨δ, hδ, h⟩ := hw.precision ε hε
  exact ⟨δ, hδ, fun nodes mats loads hn => (h nodes mats loads hn).2⟩

end demo

end SolidsPy
