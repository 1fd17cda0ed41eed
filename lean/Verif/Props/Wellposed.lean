import Mathlib.Topology.Instances.Matrix
import Mathlib.Topology.Algebra.Monoid
import Mathlib.Topology.Algebra.Field
import Mathlib.Analysis.Real.Sqrt
import Mathlib.Topology.MetricSpace.Pseudo.Basic
import Verif.Props.Runs
import Verif.Props.Superpose

/-! # C161: the displacements depend continuously on the data

Tables over the reals that converge entry by entry, along any filter: sequences of models as well as models with parameters. -/

set_option linter.unusedSectionVars false

namespace SolidsPy
open Filter Topology

namespace Spec

/-- The tables `t i` have the shape of `t0` and their entries tend to those of `t0`. -/
structure TableTends {ι : Type} (l : Filter ι) (t : ι → List (List ℝ)) (t0 : List (List ℝ)) : Prop where
  shape : ∀ i, (t i).map List.length = t0.map List.length
  tends : ∀ p j, Tendsto (fun i => fieldOf (t i) p j) l (𝓝 (fieldOf t0 p j))

/-- The models `d i` have the elements and supports of `d0`, their loads are on the same nodes, and their coordinates, material
numbers and loads tend to those of `d0`. -/
structure ModelTends {ι : Type} (l : Filter ι) (d : ι → Gui.Data ℝ) (d0 : Gui.Data ℝ) : Prop where
  elements : ∀ i, (d i).elements = d0.elements
  cons : ∀ i, (d i).cons = d0.cons
  nodes : TableTends l (fun i => (d i).nodes) d0.nodes
  mats : TableTends l (fun i => (d i).mats) d0.mats
  loads : TableTends l (fun i => (d i).loads) d0.loads
  loaded : ∀ i, (d i).loads.map List.head? = d0.loads.map List.head?

/-- The table has the shape of another, and its entries differ by less than `δ`. -/
def TableNear (δ : ℝ) (t t0 : List (List ℝ)) : Prop :=
  t.map List.length = t0.map List.length ∧ ∀ p j, |fieldOf t p j - fieldOf t0 p j| < δ

/-- The model has the elements, supports and loaded nodes of `d0`; its coordinates, material numbers and loads differ by less than
`δ`. -/
structure ModelNear (δ : ℝ) (d d0 : Gui.Data ℝ) : Prop where
  elements : d.elements = d0.elements
  cons : d.cons = d0.cons
  nodes : TableNear δ d.nodes d0.nodes
  mats : TableNear δ d.mats d0.mats
  loads : TableNear δ d.loads d0.loads
  loaded : d.loads.map List.head? = d0.loads.map List.head?

end Spec

open Spec Fem Uel Assem Matrix Gauss

section
variable {ι : Type} {l : Filter ι}

theorem Spec.TableTends.length {t : ι → Table ℝ} {t0 : Table ℝ} (h : TableTends l t t0) (i : ι) : (t i).length = t0.length := by
  simpa using congrArg List.length (h.shape i)

theorem Spec.TableTends.row {t : ι → Table ℝ} {t0 : Table ℝ} (h : TableTends l t t0) {p : ℕ} {r0 : List ℝ}
    (h0 : t0[p]? = some r0) (i : ι) : ∃ r, (t i)[p]? = some r ∧ r.length = r0.length := by
  have := congrArg (fun x => x[p]?) (h.shape i)
  simp only [List.getElem?_map, h0, Option.map_some] at this
  cases hr : (t i)[p]? with
  | none => rw [hr] at this; simp at this
  | some r => rw [hr] at this; exact ⟨r, rfl, by simpa using this⟩

theorem tendsto_matrix {m n : ℕ} {A : ι → Matrix (Fin m) (Fin n) ℝ} {A0 : Matrix (Fin m) (Fin n) ℝ}
    (h : ∀ a b, Tendsto (fun i => A i a b) l (𝓝 (A0 a b))) : Tendsto A l (𝓝 A0) :=
  tendsto_pi_nhds.2 fun a => tendsto_pi_nhds.2 fun b => h a b

theorem tendsto_mul {m n k : Type} [Fintype n] {A : ι → Matrix m n ℝ} {A0 : Matrix m n ℝ}
    {B : ι → Matrix n k ℝ} {B0 : Matrix n k ℝ} (hA : Tendsto A l (𝓝 A0)) (hB : Tendsto B l (𝓝 B0)) :
    Tendsto (fun i => A i * B i) l (𝓝 (A0 * B0)) := by
  have hc : Continuous fun p : Matrix m n ℝ × Matrix n k ℝ => p.1 * p.2 := continuous_fst.matrix_mul continuous_snd
  exact (hc.tendsto (A0, B0)).comp (hA.prodMk_nhds hB)

theorem tendsto_det {m : Type} [Fintype m] [DecidableEq m] {A : ι → Matrix m m ℝ} {A0 : Matrix m m ℝ} (hA : Tendsto A l (𝓝 A0)) :
    Tendsto (fun i => (A i).det) l (𝓝 A0.det) :=
  ((continuous_id.matrix_det).tendsto A0).comp hA

theorem tendsto_adjugate {m : Type} [Fintype m] [DecidableEq m] {A : ι → Matrix m m ℝ} {A0 : Matrix m m ℝ}
    (hA : Tendsto A l (𝓝 A0)) : Tendsto (fun i => (A i).adjugate) l (𝓝 A0.adjugate) :=
  ((continuous_id.matrix_adjugate).tendsto A0).comp hA

theorem tendsto_transpose {m n : Type} {A : ι → Matrix m n ℝ} {A0 : Matrix m n ℝ}
    (hA : Tendsto A l (𝓝 A0)) : Tendsto (fun i => (A i).transpose) l (𝓝 A0.transpose) :=
  ((continuous_id.matrix_transpose).tendsto A0).comp hA

theorem tendsto_grad {n : ℕ} (D : Matrix (Fin 2) (Fin n) ℝ) {X : ι → Matrix (Fin n) (Fin 2) ℝ} {X0 : Matrix (Fin n) (Fin 2) ℝ}
    (hX : Tendsto X l (𝓝 X0)) (h0 : (D * X0).det ≠ 0) : Tendsto (fun i => grad D (X i)) l (𝓝 (grad D X0)) := by
  have hJ := tendsto_mul (tendsto_const_nhds (x := D) (f := l)) hX
  exact tendsto_mul (((tendsto_det hJ).inv₀ h0).smul (tendsto_adjugate hJ)) tendsto_const_nhds

theorem tendsto_bMat2 {n : ℕ} {G : ι → Matrix (Fin 2) (Fin n) ℝ} {G0 : Matrix (Fin 2) (Fin n) ℝ} (hG : Tendsto G l (𝓝 G0)) :
    Tendsto (fun i => bMat2 (G i)) l (𝓝 (bMat2 G0)) := by
  have hc : Continuous (bMat2 : Matrix (Fin 2) (Fin n) ℝ → _) := by
    refine continuous_matrix fun a b => ?_
    obtain ⟨b1, b2⟩ := b
    fin_cases a <;> fin_cases b2 <;> simp [bMat2] <;> fun_prop
  exact (hc.tendsto G0).comp hG

theorem tendsto_qStiff {n : ℕ} {R : QRule ℝ 2 n} {X : ι → Matrix (Fin n) (Fin 2) ℝ} {X0 : Matrix (Fin n) (Fin 2) ℝ}
    {C : ι → Matrix (Fin 3) (Fin 3) ℝ} {C0 : Matrix (Fin 3) (Fin 3) ℝ} (hX : Tendsto X l (𝓝 X0)) (hC : Tendsto C l (𝓝 C0))
    (ha : Acc R X0) : Tendsto (fun i => qStiff (fun sh => bMat2 (grad sh.2 (X i))) R (X i) (C i)) l
      (𝓝 (qStiff (fun sh => bMat2 (grad sh.2 X0)) R X0 C0)) := by
  unfold qStiff
  refine tendsto_list_sum R fun x hx => ?_
  have hJ := tendsto_det (tendsto_mul (tendsto_const_nhds (x := x.1.2) (f := l)) hX)
  have h0 : (x.1.2 * X0).det ≠ 0 := (lt_trans (by norm_num) (ha x hx)).ne'
  have hB := tendsto_bMat2 (tendsto_grad x.1.2 hX h0)
  exact (tendsto_const_nhds.mul hJ).smul (tendsto_mul (tendsto_mul (tendsto_transpose hB) hC) hB)

theorem eventually_acc {n : ℕ} {R : QRule ℝ 2 n} {X : ι → Matrix (Fin n) (Fin 2) ℝ} {X0 : Matrix (Fin n) (Fin 2) ℝ}
    (hX : Tendsto X l (𝓝 X0)) (ha : Acc R X0) : ∀ᶠ i in l, Acc R (X i) := by
  induction R with
  | nil => exact Eventually.of_forall fun i x hx => by simp at hx
  | cons x R ih =>
    have h1 := (tendsto_det (tendsto_mul (tendsto_const_nhds (x := x.1.2) (f := l)) hX)).eventually
      (lt_mem_nhds (ha x (by simp)))
    filter_upwards [ih fun y hy => ha y (by simp [hy]), h1] with i h2 h3 y hy
    rcases List.mem_cons.1 hy with rfl | hy
    · exact h3
    · exact h2 y hy

/-! ## Elements -/

/-- The stiffness the routine `f` gives on `matRows X` and a material row. -/
def StiffAt {n : ℕ} (f : Uel ℝ) (X : Matrix (Fin n) (Fin 2) ℝ) (par : List ℝ) (k : ℕ → ℕ → ℝ) : Prop :=
  ∃ kl ml, f (matRows X) par = .ok (kl, ml) ∧ k = cell kl

theorem cell_ofBlocks {n : ℕ} {M : ι → Matrix (Fin n × Fin 2) (Fin n × Fin 2) ℝ} {M0 : Matrix (Fin n × Fin 2) (Fin n × Fin 2) ℝ}
    (h : Tendsto M l (𝓝 M0)) (r c : ℕ) :
    Tendsto (fun i => cell (NdArr.ofBlocks (M i)) r c) l (𝓝 (cell (NdArr.ofBlocks M0) r c)) := by
  unfold NdArr.ofBlocks
  simp only [cell]
  split
  · exact tendsto_pi_nhds.1 (tendsto_pi_nhds.1 h _) _
  · exact tendsto_const_nhds

theorem plane_stiff_tendsto {n : ℕ} {f : Uel ℝ} (hf : PlaneElement n f) {X : ι → Matrix (Fin n) (Fin 2) ℝ}
    {X0 : Matrix (Fin n) (Fin 2) ℝ} (hX : Tendsto X l (𝓝 X0)) {par : ι → List ℝ} {par0 : List ℝ}
    (hlen : ∀ i, (par i).length = par0.length)
    (hpar : ∀ k, Tendsto (fun i => (par i).getD k 0) l (𝓝 (par0.getD k 0))) {k0 : ℕ → ℕ → ℝ} (h0 : StiffAt f X0 par0 k0) :
    ∃ k : ι → ℕ → ℕ → ℝ, (∀ᶠ i in l, StiffAt f (X i) (par i) (k i)) ∧
      ∀ r c, Tendsto (fun i => k i r c) l (𝓝 (k0 r c)) := by
  obtain ⟨R, st, hr, -⟩ := plane_rep hf
  obtain ⟨kl, ml, h1, rfl⟩ := h0
  obtain ⟨C0, ρ0, ⟨hst, hm, hd⟩, ha, h2⟩ := (hr.ok _ _ _).1 h1
  obtain ⟨E, nu, e1, e2, e3⟩ := umat_ok.1 hm
  match par0, e1, hlen, hpar, hst with
  | a :: b :: rest0, e1, hlen, hpar, hst =>
    simp only [List.take_succ_cons, List.take_zero, List.cons.injEq, and_true] at e1
    obtain ⟨rfl, rfl⟩ := e1
    have hE : Tendsto (fun i => (par i).getD 0 0) l (𝓝 a) := hpar 0
    have hnu : Tendsto (fun i => (par i).getD 1 0) l (𝓝 b) := hpar 1
    have h1nu : Tendsto (fun i => 1 - (par i).getD 1 0 ^ 2) l (𝓝 (1 - b ^ 2)) := tendsto_const_nhds.sub (hnu.pow 2)
    let H : ℝ → ℝ → Matrix (Fin 3) (Fin 3) ℝ := fun E nu => !![E / (1 - nu ^ 2), nu * (E / (1 - nu ^ 2)), 0;
      nu * (E / (1 - nu ^ 2)), E / (1 - nu ^ 2), 0; 0, 0, E / (1 - nu ^ 2) * ((1 - nu) / 2)]
    have hC : Tendsto (fun i => H ((par i).getD 0 0) ((par i).getD 1 0)) l (𝓝 C0) := by
      have t1 := hE.div h1nu e2
      have t2 := hnu.mul t1
      have t3 := t1.mul ((tendsto_const_nhds (x := (1 : ℝ)).sub hnu).div_const 2)
      rw [e3]
      refine tendsto_matrix fun r c => ?_
      fin_cases r <;> fin_cases c <;> first | exact t1 | exact t2 | exact t3 | exact tendsto_const_nhds
    refine ⟨fun i => cell (NdArr.ofBlocks (qStiff (fun sh => bMat2 (grad sh.2 (X i))) R (X i)
      (H ((par i).getD 0 0) ((par i).getD 1 0)))), ?_, fun r c => ?_⟩
    rotate_left
    · rw [(Prod.mk.inj h2).1]
      exact cell_ofBlocks (tendsto_qStiff hX hC ha) r c
    · filter_upwards [eventually_acc hX ha, h1nu.eventually_ne e2] with i h3 h4
      have hl := hlen i
      revert h4
      match par i, hl with
      | a' :: b' :: rest, hl =>
        intro h4
        refine ⟨_, _, (hr.ok _ _ _).2 ⟨_, _, ⟨fun h => ?_, umat_ok.2 ⟨a', b', rfl, h4, rfl⟩, densOf_eq a' b' rest⟩, h3, rfl⟩, rfl⟩
        rw [hl]
        exact hst h

theorem truss_stiff_tendsto {X : ι → Matrix (Fin 2) (Fin 2) ℝ}
    {X0 : Matrix (Fin 2) (Fin 2) ℝ} (hX : Tendsto X l (𝓝 X0)) {par : ι → List ℝ} {par0 : List ℝ}
    (hlen : ∀ i, (par i).length = par0.length)
    (hpar : ∀ k, Tendsto (fun i => (par i).getD k 0) l (𝓝 (par0.getD k 0))) {k0 : ℕ → ℕ → ℝ}
    (h0 : StiffAt (truss2D Real.sqrt) X0 par0 k0) :
    ∃ k : ι → ℕ → ℕ → ℝ, (∀ᶠ i in l, StiffAt (truss2D Real.sqrt) (X i) (par i) (k i)) ∧
      ∀ r c, Tendsto (fun i => k i r c) l (𝓝 (k0 r c)) := by
  obtain ⟨kl, ml, h1, rfl⟩ := h0
  obtain ⟨hne, E, A, rest0, rfl⟩ := (truss_returns_iff sqrtFn_real).1 ⟨_, h1⟩
  have hx : ∀ a b, Tendsto (fun i => X i a b) l (𝓝 (X0 a b)) := fun a b => tendsto_pi_nhds.1 (tendsto_pi_nhds.1 hX a) b
  let len : Matrix (Fin 2) (Fin 2) ℝ → ℝ := fun X => Real.sqrt ((X 1 0 - X 0 0) ^ 2 + (X 1 1 - X 0 1) ^ 2)
  have hlenX : ∀ X : Matrix (Fin 2) (Fin 2) ℝ, X 0 ≠ X 1 → IsLength X (len X) := by
    intro X hX
    obtain ⟨L, hL⟩ := exists_length sqrtFn_real hX
    have : len X = L := by
      show Real.sqrt _ = L
      rw [← hL.2, Real.sqrt_mul_self hL.1.le]
    rw [this]
    exact hL
  have hL0 := hlenX X0 hne
  have hL : Tendsto (fun i => len (X i)) l (𝓝 (len X0)) := by
    refine (Real.continuous_sqrt.tendsto _).comp ?_
    exact (((hx 1 0).sub (hx 0 0)).pow 2).add (((hx 1 1).sub (hx 0 1)).pow 2)
  rw [truss_ok sqrtFn_real hL0, Except.ok.injEq, Prod.mk.injEq] at h1
  have hE : Tendsto (fun i => (par i).getD 0 0) l (𝓝 E) := hpar 0
  have hA : Tendsto (fun i => (par i).getD 1 0) l (𝓝 A) := hpar 1
  refine ⟨fun i => cell (NdArr.mat 4 4 (trussStiff ((X i 1 0 - X i 0 0) / len (X i)) ((X i 1 1 - X i 0 1) / len (X i))
    ((par i).getD 1 0 * (par i).getD 0 0 / len (X i)))), ?_, fun r c => ?_⟩
  · have h01 : ∀ᶠ i in l, X i 0 ≠ X i 1 := by
      have h2 : Tendsto (fun i => X i 0 - X i 1) l (𝓝 (X0 0 - X0 1)) :=
        (tendsto_pi_nhds.1 hX 0).sub (tendsto_pi_nhds.1 hX 1)
      filter_upwards [h2.eventually_ne (sub_ne_zero.2 hne)] with i h
      exact sub_ne_zero.1 h
    filter_upwards [h01] with i h
    have hl := hlen i
    match par i, hl with
    | a :: b :: rest, hl => exact ⟨_, _, truss_ok sqrtFn_real (hlenX _ h) a b rest, rfl⟩
  · rw [← h1.1]
    have t1 := ((hx 1 0).sub (hx 0 0)).div hL hL0.1.ne'
    have t2 := ((hx 1 1).sub (hx 0 1)).div hL hL0.1.ne'
    have t3 := (hA.mul hE).div hL hL0.1.ne'
    simp only [cell]
    split
    · have hc : Continuous fun p : ℝ × ℝ × ℝ => trussStiff p.1 p.2.1 p.2.2 := by
        refine continuous_matrix fun a b => ?_
        fin_cases a <;> fin_cases b <;> simp [trussStiff, barQ, Matrix.mul_apply, Fin.sum_univ_two] <;> fun_prop
      exact tendsto_pi_nhds.1 (tendsto_pi_nhds.1 ((hc.tendsto _).comp (t1.prodMk_nhds (t2.prodMk_nhds t3))) _) _
    · exact tendsto_const_nhds

variable {d : ι → Gui.Data ℝ} {d0 : Gui.Data ℝ}

theorem fieldOf_getD {t : Table ℝ} {p : ℕ} {r : List ℝ} (h : t[p]? = some r) (j : ℕ) : fieldOf t p j = r.getD j 0 := by
  simp [fieldOf, entry, h, List.getD]

theorem tends_widths {t : ι → Table ℝ} {t0 : Table ℝ} (h : TableTends l t t0) {w : ℕ} (hw : ∀ r ∈ t0, r.length = w) (i : ι) :
    ∀ r ∈ t i, r.length = w := by
  intro r hr
  have : r.length ∈ (t i).map List.length := List.mem_map.2 ⟨r, hr, rfl⟩
  rw [h.shape i] at this
  obtain ⟨r', hr', e⟩ := List.mem_map.1 this
  rw [← e]
  exact hw r' hr'

/-- Elements near an accepted element are accepted, and their stiffness is near. -/
theorem member_tendsto (h : ModelTends l d d0) (hn : ∀ r ∈ d0.nodes, r.length = 3) {el : List ℤ} {m0 : Member ℝ}
    (hty : ∀ ty, el[1]? = some ty → ty ∈ [(1 : ℤ), 2, 3, 4] ∨ (ty = 6 ∧ (el.drop 3).length = 2))
    (hm : IsMember (Routine Real.sqrt) d0.mats d0.nodes el m0) :
    ∃ m : ι → Member ℝ, (∀ᶠ i in l, IsMember (Routine Real.sqrt) (d i).mats (d i).nodes el (m i)) ∧
      (∀ i, (m i).nodes = m0.nodes) ∧ ∀ r c, Tendsto (fun i => (m i).k r c) l (𝓝 (m0.k r c)) := by
  obtain ⟨ps, k0⟩ := m0
  obtain ⟨ty, mi, par0, rows0, f, kl, ml, a1, a2, ⟨q, a3, a4⟩, a5, a6, a7, a8, a9⟩ := hm
  dsimp only at a5 a6 a9
  rw [node_rows hn a6] at a8
  -- the material rows
  choose par hpar1 hpar2 using fun i => h.mats.row a4 i
  have hpar : ∀ k, Tendsto (fun i => (par i).getD k 0) l (𝓝 (par0.getD k 0)) := by
    intro k
    have := h.mats.tends q k
    simpa only [fieldOf_getD a4, fieldOf_getD (hpar1 _)] using this
  -- the coordinates
  let X : ι → Matrix (Fin ps.length) (Fin 2) ℝ := fun i => Matrix.of fun a k => coordOf (d i).nodes ps[a] k
  let X0 : Matrix (Fin ps.length) (Fin 2) ℝ := Matrix.of fun a k => coordOf d0.nodes ps[a] k
  have hX : Tendsto X l (𝓝 X0) := tendsto_matrix fun a k => h.nodes.tends _ _
  have hrow : ∀ nodes : Table ℝ, (ps.map fun p => [coordOf nodes p 0, coordOf nodes p 1]) =
      matRows (Matrix.of fun (a : Fin ps.length) (k : Fin 2) => coordOf nodes ps[a] k) := by
    intro nodes
    refine coords_iff.2 ?_
    refine List.ext_getElem (by simp) fun a h1 h2 => ?_
    simp
    rfl
  rw [hrow] at a8
  have key : ∃ k : ι → ℕ → ℕ → ℝ, (∀ᶠ i in l, StiffAt f (X i) (par i) (k i)) ∧
      ∀ r c, Tendsto (fun i => k i r c) l (𝓝 (k0 r c)) := by
    have h0 : StiffAt f X0 par0 k0 := ⟨kl, ml, a8, a9⟩
    rcases hty ty a1 with ht | ⟨rfl, ht⟩
    · obtain ⟨n, hf⟩ := structural_of_type ht a7
      have hn' : n = ps.length := by
        obtain ⟨Y, _, _, hY, _⟩ := C38_plane_shape hf a8
        have := congrArg List.length hY
        simpa [matRows] using this.symm
      subst hn'
      exact plane_stiff_tendsto hf hX hpar2 hpar h0
    · have hf : f = Uel.truss2D Real.sqrt := by
        have := a7
        simp only [Routine, Uel.eleFun, Except.ok.injEq] at this
        exact this.symm
      subst hf
      have hn' : 2 = ps.length := by rw [← a5.length_eq, ht]
      clear_value X X0
      revert X X0
      rw [← hn']
      intro X X0 hX h0
      exact truss_stiff_tendsto hX hpar2 hpar h0
  obtain ⟨k, hk1, hk2⟩ := key
  refine ⟨fun i => ⟨ps, k i⟩, ?_, fun _ => rfl, hk2⟩
  filter_upwards [hk1] with i hi
  obtain ⟨kl', ml', b1, b2⟩ := hi
  have a5' : List.Forall₂ (Resolves (d i).nodes.length) (el.drop 3) ps := by rw [h.nodes.length i]; exact a5
  obtain ⟨rows, hr⟩ := rows_of_resolves a5'
  refine ⟨ty, mi, par i, rows, f, kl', ml', a1, a2, ⟨q, by rw [h.mats.length i]; exact a3, hpar1 i⟩, a5', hr, a7, ?_, b2⟩
  rw [node_rows (tends_widths h.nodes hn i) hr, hrow]
  exact b1

theorem members_tendsto (h : ModelTends l d d0) (hp : PlaneModel d0) {ms0 : List (Member ℝ)} (hms : Members Real.sqrt d0 ms0) :
    ∃ ms : ι → List (Member ℝ), (∀ᶠ i in l, Members Real.sqrt (d i) (ms i)) ∧
      ∀ u p j, Tendsto (fun i => internal 2 (ms i) u p j) l (𝓝 (internal 2 ms0 u p j)) := by
  unfold Members at hms
  have key : ∀ els : List (List ℤ), (∀ el ∈ els, el ∈ d0.elements) → ∀ ms0,
      List.Forall₂ (IsMember (Routine Real.sqrt) d0.mats d0.nodes) els ms0 →
      ∃ ms : ι → List (Member ℝ), (∀ᶠ i in l, List.Forall₂ (IsMember (Routine Real.sqrt) (d i).mats (d i).nodes) els (ms i)) ∧
        ∀ u p j, Tendsto (fun i => internal 2 (ms i) u p j) l (𝓝 (internal 2 ms0 u p j)) := by
    intro els hels ms0 hms
    induction hms with
    | nil => exact ⟨fun _ => [], Eventually.of_forall fun _ => .nil, fun u p j => tendsto_const_nhds⟩
    | @cons el m0 els ms0 h1 _ ih =>
      obtain ⟨ms, h2, h3⟩ := ih fun el hel => hels el (by simp [hel])
      obtain ⟨m, h4, h5, h6⟩ := member_tendsto h hp.nodes (hp.types el (hels el (by simp))) h1
      refine ⟨fun i => m i :: ms i, ?_, fun u p j => ?_⟩
      · filter_upwards [h2, h4] with i h2 h4
        exact .cons h4 h2
      · have e : ∀ m ms, internal 2 (m :: ms) u p j = (∑ a ∈ Finset.range m.nodes.length,
            if m.nodes[a]? = some p then m.force 2 u a j else 0) + internal 2 ms u p j := fun _ _ => by simp [internal]
        simp only [e, h5]
        refine Tendsto.add (tendsto_finsetSum _ fun a _ => ?_) (h3 u p j)
        split
        · unfold Member.force
          simp only [h5]
          exact tendsto_finsetSum _ fun b _ => tendsto_finsetSum _ fun i _ => (h6 _ _).mul tendsto_const_nhds
        · exact tendsto_const_nhds
  obtain ⟨ms, h1, h2⟩ := key d0.elements (fun _ h => h) ms0 hms
  refine ⟨ms, ?_, h2⟩
  filter_upwards [h1] with i hi
  unfold Members
  rw [h.elements i]
  exact hi

/-! ## Matrices, loads, solutions -/

theorem dofEq_of_entry {bc : List (List ℤ)} {neq p j : ℕ} {a : Fin neq} (h : entry bc p j = some (a : ℤ)) : DofEq bc neq p j a :=
  ⟨_, h, by omega, a.2, Or.inl rfl⟩

/-- An entry of the assembled matrix is a nodal force. -/
theorem setup_entry {fn : ℤ → Uel ℝ → Prop} {cons mats nodes : Table ℝ} {elements : List (List ℤ)} {nd neq : ℕ} {bc : List (List ℤ)}
    {Kg : Matrix (Fin neq) (Fin neq) ℝ} {ms : List (Member ℝ)} (s : Setup fn cons elements mats nodes nd neq bc Kg ms)
    {p j : ℕ} {a b : Fin neq} (hf : Free cons nd p j) (ha : entry bc p j = some (a : ℤ)) {U : ℕ → ℕ → ℝ}
    (hU : Completes cons bc nd neq (Pi.single b 1) U) : Kg a b = internal nd ms U p j := by
  rw [← s.mul _ U hU p j a hf (dofEq_of_entry ha), Matrix.mulVec_single_one]
  rfl

theorem names_head {n : ℕ} {L L' : List ℝ} (h : L.head? = L'.head?) (p : ℕ) : Names n L p ↔ Names n L' p := by
  unfold Names
  rw [← List.head?_eq_getElem?, ← List.head?_eq_getElem?, h]

/-- The components of the right hand side follow the loads. -/
theorem loads_tendsto {nd : ℕ} {cons : Table ℝ} {L : ι → Table ℝ} {L0 : Table ℝ} (hL : TableTends l L L0)
    (hl : ∀ i, (L i).map List.head? = L0.map List.head?) {neq : ℕ} {bc : List (List ℤ)} (heq : eqcounter cons nd = .ok (neq, bc))
    (hv : ValidCons cons nd) {rhs : ι → Fin neq → ℝ} {rhs0 : Fin neq → ℝ}
    (hr : ∀ᶠ i in l, loadasem (L i) bc neq nd = .ok (rhs i)) (hr0 : loadasem L0 bc neq nd = .ok rhs0) :
    Tendsto rhs l (𝓝 rhs0) := by
  refine tendsto_pi_nhds.2 fun a => ?_
  obtain ⟨p, j, hf, ha, _⟩ := (C01_numbering_bijective heq).2 a a.2
  obtain ⟨e1, e2⟩ := C13_load_vector heq hv hr0 hf ha
  rcases last_named (n := cons.length) (p := p) L0 with h0 | ⟨pre, R, post, e, h1, h2⟩
  · rw [e1 h0]
    refine tendsto_const_nhds.congr' ?_
    filter_upwards [hr] with i hi
    refine ((C13_load_vector heq hv hi hf ha).1 fun r hr hN => ?_).symm
    have : r.head? ∈ (L i).map List.head? := List.mem_map.2 ⟨r, hr, rfl⟩
    rw [hl i] at this
    obtain ⟨L', hL', e⟩ := List.mem_map.1 this
    exact h0 L' hL' ((names_head e p).2 hN)
  · have e3 := e2 pre R post e h1 h2
    have hk : L0[pre.length]? = some R := by rw [e]; simp
    have e4 : rhs0 a = fieldOf L0 pre.length (j + 1) := by
      rw [fieldOf_getD hk, List.getD, e3]
      rfl
    rw [e4]
    refine (hL.tends _ _).congr' ?_
    filter_upwards [hr] with i hi
    have hlen := hL.length i
    have hlt : pre.length < (L i).length := by rw [hlen, e]; simp
    have hsplit : (L i) = (L i).take pre.length ++ (L i)[pre.length] :: (L i).drop (pre.length + 1) := by
      rw [List.getElem_cons_drop]
      exact (List.take_append_drop _ _).symm
    have hhead : ∀ k, ((L i)[k]?).map List.head? = (L0[k]?).map List.head? := fun k => by
      rw [← List.getElem?_map, ← List.getElem?_map, hl i]
    have hN : Names cons.length ((L i)[pre.length]) p := by
      refine (names_head ?_ p).2 h1
      have := hhead pre.length
      rw [List.getElem?_eq_getElem hlt, hk] at this
      simpa using this
    have hpost : ∀ L' ∈ (L i).drop (pre.length + 1), ¬ Names cons.length L' p := by
      intro L' hL' hN'
      obtain ⟨k, hk', rfl⟩ := List.mem_iff_getElem.1 hL'
      have hk2 : k < post.length := by
        rw [List.length_drop, hlen, e] at hk'
        simp at hk'
        omega
      refine h2 post[k] (List.getElem_mem hk2) ((names_head ?_ p).1 hN')
      have := hhead (pre.length + 1 + k)
      have g : L0[pre.length + 1 + k]? = some post[k] := by
        rw [e, List.getElem?_append_right (by omega)]
        have : pre.length + 1 + k - pre.length = k + 1 := by omega
        rw [this]
        simp
      rw [← List.getElem?_drop, List.getElem?_eq_getElem hk', g] at this
      simpa using this
    have := (C13_load_vector heq hv hi hf ha).2 _ _ _ hsplit hN hpost
    rw [fieldOf_getD (List.getElem?_eq_getElem hlt), List.getD, this]
    rfl

theorem rhs_tendsto (h : ModelTends l d d0) {neq : ℕ} {bc : List (List ℤ)} (heq : eqcounter d0.cons 2 = .ok (neq, bc))
    (hv : ValidCons d0.cons 2) {rhs : ι → Fin neq → ℝ} {rhs0 : Fin neq → ℝ}
    (hr : ∀ᶠ i in l, loadasem (d i).loads bc neq = .ok (rhs i)) (hr0 : loadasem d0.loads bc neq = .ok rhs0) :
    Tendsto rhs l (𝓝 rhs0) := loads_tendsto h.loads h.loaded heq hv hr hr0

theorem solved_eq {n : ℕ} {A : Matrix (Fin n) (Fin n) ℝ} {x b : Fin n → ℝ} (hA : A.det ≠ 0) (hx : A.mulVec x = b) :
    x = A.det⁻¹ • A.adjugate.mulVec b := by
  rw [← hx, Matrix.mulVec_mulVec, Matrix.adjugate_mul, Matrix.smul_mulVec, Matrix.one_mulVec, smul_smul,
    inv_mul_cancel₀ hA, one_smul]

theorem tendsto_solution {n : ℕ} {A : ι → Matrix (Fin n) (Fin n) ℝ} {A0 : Matrix (Fin n) (Fin n) ℝ} {b : ι → Fin n → ℝ} {b0 : Fin n → ℝ}
    (hA : Tendsto A l (𝓝 A0)) (h0 : A0.det ≠ 0) (hb : Tendsto b l (𝓝 b0)) :
    Tendsto (fun i => (A i).det⁻¹ • (A i).adjugate.mulVec (b i)) l (𝓝 (A0.det⁻¹ • A0.adjugate.mulVec b0)) := by
  have h1 : Tendsto (fun i => (A i).adjugate.mulVec (b i)) l (𝓝 (A0.adjugate.mulVec b0)) := by
    refine tendsto_pi_nhds.2 fun r => ?_
    unfold Matrix.mulVec dotProduct
    have hadj := tendsto_adjugate hA
    exact tendsto_finsetSum _ fun c _ => (tendsto_pi_nhds.1 (tendsto_pi_nhds.1 hadj r) c).mul (tendsto_pi_nhds.1 hb c)
  exact ((tendsto_det hA).inv₀ h0).smul h1

/-- C161.  If the coordinates, material numbers and loads of models with the same elements and supports tend to those of a stable
model, then the models are finally accepted, stable and solved, and every displacement tends to that of the limit. -/
theorem C161_wellposed {sp de : Sol.Solver ℝ} (h : ModelTends l d d0) (hp : PlaneModel d0) (hwf : WellFormed d0) (hsp : SolverOk sp)
    {ms0 : List (Member ℝ)} (hms : Members Real.sqrt d0 ms0) (hst : Stable d0.cons 2 ms0) {plot : Bool} {res0 : Gui.Result ℝ}
    (h0 : Gui.solidsAuto Real.sqrt sp de d0 plot = .ok res0) :
    (∀ᶠ i in l, (∃ ms, Members Real.sqrt (d i) ms ∧ Stable (d i).cons 2 ms) ∧
      ∃ res, Gui.solidsAuto Real.sqrt sp de (d i) false = .ok res) ∧
    ∀ (plot' : Bool) (res : ι → Gui.Result ℝ), (∀ᶠ i in l, Gui.solidsAuto Real.sqrt sp de (d i) plot' = .ok (res i)) →
      ∀ p j, p < d0.nodes.length → j < 2 →
        Tendsto (fun i => fieldOf (res i).disp p j) l (𝓝 (fieldOf res0.disp p j)) := by
  obtain ⟨ms, hm1, hm2⟩ := members_tendsto h hp hms
  have hpi : ∀ i, PlaneModel (d i) := fun i => ⟨tends_widths h.nodes hp.nodes i, fun el hel => by
    rw [h.elements i] at hel
    exact hp.types el hel⟩
  have hwfi : ∀ i, WellFormed (d i) := fun i => ⟨by rw [h.cons i]; exact hwf.codes, by rw [h.cons i]; exact hwf.width,
    by rw [h.cons i, h.nodes.length i]; exact hwf.size⟩
  obtain ⟨neq, bc, Kg0, Mg0, op, ms', hms', s0, hd0, ha0, rhs0, x0, ok0, hl0, hx0, hb0, _, hc0⟩ := auto_solves hwf h0
  obtain rfl := members_unique hms hms'
  have heq := s0.eq
  have hdet0 := det_ne_zero_of_stable s0 hst
  choose P J hPf hPe _ using fun a : Fin neq => (C01_numbering_bijective heq).2 a a.2
  choose U hU using fun b : Fin neq => exists_completes (cons := d0.cons) bc 2 (Pi.single b (1 : ℝ))
  -- the matrices
  let M : ι → Matrix (Fin neq) (Fin neq) ℝ := fun i => Matrix.of fun a b => internal 2 (ms i) (U b) (P a) (J a)
  have hK0 : Kg0 = Matrix.of fun a b => internal 2 ms0 (U b) (P a) (J a) := by
    ext a b
    exact setup_entry s0 (hPf a) (hPe a) (hU b)
  have hM : Tendsto M l (𝓝 Kg0) := by
    rw [hK0]
    exact tendsto_matrix fun a b => hm2 _ _ _
  have hsetup : ∀ i, Members Real.sqrt (d i) (ms i) → ∀ {neq' bc' op'} {Kg Mg : Matrix (Fin neq') (Fin neq') ℝ},
      dme (d i).cons (d i).elements = .ok (op', bc', neq') →
      assembler (Uel.eleFun Real.sqrt) (d i).elements (d i).mats (d i).nodes neq' op' = .ok (Kg, Mg) →
      ∃ e : neq' = neq, bc' = bc ∧ op' = op ∧ e ▸ Kg = M i ∧
        Setup (Routine Real.sqrt) (d i).cons (d i).elements (d i).mats (d i).nodes 2 neq bc (M i) (ms i) := by
    intro i hi neq' bc' op' Kg Mg h1 h2
    obtain ⟨ms', s⟩ := auto_setup h1 h2 (hwfi i).codes (hwfi i).width (hwfi i).size
    obtain rfl := members_unique hi s.mem
    rw [h.cons i, h.elements i, hd0, Except.ok.injEq, Prod.mk.injEq, Prod.mk.injEq] at h1
    obtain ⟨rfl, rfl, rfl⟩ := h1
    have hKM : Kg = M i := by
      ext a b
      refine setup_entry s ?_ (hPe a) ?_
      · rw [h.cons i]; exact hPf a
      · rw [h.cons i]; exact hU b
    subst hKM
    exact ⟨rfl, rfl, rfl, rfl, s⟩
  have hdet : ∀ᶠ i in l, (M i).det ≠ 0 := (tendsto_det hM).eventually_ne hdet0
  clear_value M
  constructor
  · filter_upwards [hm1, hdet] with i h1 h2
    obtain ⟨op', bc', neq', Kg, Mg, b1, b2⟩ := plane_assembly (hpi i) (hwfi i) h1
    obtain ⟨rfl, rfl, rfl, rfl, s⟩ := hsetup i h1 b1 b2
    have hsti : Stable (d i).cons 2 (ms i) := stable_of_det_ne_zero s h2
    refine ⟨⟨ms i, h1, hsti⟩, ?_⟩
    refine (C160_runs_iff (hwfi i) (hpi i).nodes hsp (fun el hel ty hty => ?_) (fun ms' hms' => ?_)).2 ⟨fun el hel => ?_, ?_, ?_⟩
    · rcases (hpi i).types el hel ty hty with hh | ⟨rfl, _⟩
      · simp only [List.mem_cons, List.not_mem_nil, or_false] at hh ⊢
        tauto
      · simp
    · rw [← members_unique h1 hms']
      exact hsti
    · refine ⟨?_, fun h6 => ?_⟩
      · obtain ⟨k, hk, rfl⟩ := List.mem_iff_getElem.1 hel
        exact ⟨_, h1.get (i := k) hk (by rw [← h1.length_eq]; exact hk)⟩
      · rcases (hpi i).types el hel 6 h6 with hh | ⟨_, hh⟩
        · simp at hh
        · exact hh
    · have := (C160_loads_iff heq hwf.codes).1 ⟨rhs0, hl0⟩
      intro L hL
      rw [h.cons i]
      obtain ⟨k, hk, rfl⟩ := List.mem_iff_getElem.1 hL
      have hk0 : k < d0.loads.length := by rw [← h.loads.length i]; exact hk
      obtain ⟨p, hp1, hp2⟩ := this d0.loads[k] (List.getElem_mem hk0)
      have e1 := congrArg (fun x => x[k]?) (h.loaded i)
      have e2 := congrArg (fun x => x[k]?) (h.loads.shape i)
      simp only [List.getElem?_map, List.getElem?_eq_getElem hk, List.getElem?_eq_getElem hk0, Option.map_some,
        Option.some.injEq] at e1 e2
      exact ⟨p, (names_head e1 p).2 hp1, fun j hf => by rw [e2]; exact hp2 j hf⟩
    · by_contra hf
      push Not at hf
      have hz : neq' = 0 := by
        by_contra hne
        exact hf _ _ (by rw [h.cons i]; exact hPf ⟨0, by omega⟩)
      subst hz
      simp [Gui.balanced, Gui.matMax, Post.listMax] at hb0
  · intro plot' res hres p j hp' hj
    -- the reduced solutions
    have hex : ∀ᶠ i in l, ∃ (rhs : Fin neq → ℝ) (x : Fin neq → ℝ), loadasem (d i).loads bc neq = .ok rhs ∧
        (M i).mulVec x = rhs ∧ Completes d0.cons bc 2 neq x (fieldOf (res i).disp) := by
      filter_upwards [hres, hm1, hdet] with i h1 h2 h3
      obtain ⟨neq', bc', Kg, Mg, op', ms', hms', s, hd, ha, rhs, x, ok, hl, hx, hb, _, hc⟩ := auto_solves (hwfi i) h1
      obtain ⟨rfl, rfl, rfl, hKM, _⟩ := hsetup i h2 hd ha
      dsimp only at hKM
      subst hKM
      obtain ⟨y, hy1, hy2⟩ := hsp _ (M i) rhs h3
      rw [hx, Except.ok.injEq] at hy1
      subst hy1
      rw [h.cons i] at hc
      exact ⟨rhs, x, hl, hy2, hc⟩
    classical
    let rhs : ι → Fin neq → ℝ := fun i => if hi : ∃ (rhs : Fin neq → ℝ) (x : Fin neq → ℝ), loadasem (d i).loads bc neq = .ok rhs ∧
        (M i).mulVec x = rhs ∧ Completes d0.cons bc 2 neq x (fieldOf (res i).disp) then hi.choose else 0
    have hrhs : ∀ᶠ i in l, loadasem (d i).loads bc neq = .ok (rhs i) ∧ ∃ x, (M i).mulVec x = rhs i ∧
        Completes d0.cons bc 2 neq x (fieldOf (res i).disp) := by
      filter_upwards [hex] with i hi
      simp only [rhs, dif_pos hi]
      obtain ⟨x, h1, h2, h3⟩ := hi.choose_spec
      exact ⟨h1, x, h2, h3⟩
    clear_value rhs
    have hR : Tendsto rhs l (𝓝 rhs0) := rhs_tendsto h heq hwf.codes (hrhs.mono fun i hi => hi.1) hl0
    have hlim : Tendsto (fun i => (M i).det⁻¹ • (M i).adjugate.mulVec (rhs i)) l (𝓝 x0) := by
      obtain ⟨y, hy1, hy2⟩ := hsp _ Kg0 rhs0 hdet0
      rw [hx0, Except.ok.injEq] at hy1
      subst hy1
      rw [solved_eq hdet0 hy2]
      exact tendsto_solution hM hdet0 hR
    rw [← hwf.size] at hp'
    rcases free_or_fixed heq hwf.codes hp' hj with ⟨_, a, ha, _⟩ | ⟨_, _, hno⟩
    · rw [(hc0 p hp' j hj).1 a ha]
      refine (tendsto_pi_nhds.1 hlim a).congr' ?_
      filter_upwards [hrhs, hdet] with i ⟨_, x, h2, h3⟩ h4
      rw [(h3 p hp' j hj).1 a ha, solved_eq h4 h2]
    · rw [(hc0 p hp' j hj).2 hno]
      refine tendsto_const_nhds.congr' ?_
      filter_upwards [hrhs] with i ⟨_, x, _, h3⟩
      rw [(h3 p hp' j hj).2 hno]

theorem tableNear_tends {t : ℕ → Table ℝ} {t0 : Table ℝ} (h : ∀ n : ℕ, TableNear (1 / ((n : ℝ) + 1)) (t n) t0) :
    TableTends atTop t t0 := by
  refine ⟨fun n => (h n).1, fun p j => ?_⟩
  rw [tendsto_iff_dist_tendsto_zero]
  refine squeeze_zero (fun _ => dist_nonneg) (fun n => ?_) tendsto_one_div_add_atTop_nhds_zero_nat
  rw [Real.dist_eq]
  exact ((h n).2 p j).le

/-- C161.  For every tolerance there is a precision of the data that suffices: all models within that precision of a stable model
are solved, and their displacements differ by less than the tolerance. -/
theorem C161_precision {sp de : Sol.Solver ℝ} {d0 : Gui.Data ℝ} (hp : PlaneModel d0) (hwf : WellFormed d0) (hsp : SolverOk sp)
    {ms0 : List (Member ℝ)} (hms : Members Real.sqrt d0 ms0) (hst : Stable d0.cons 2 ms0) {plot : Bool} {res0 : Gui.Result ℝ}
    (h0 : Gui.solidsAuto Real.sqrt sp de d0 plot = .ok res0) {ε : ℝ} (hε : 0 < ε) :
    ∃ δ > 0, ∀ d, ModelNear δ d d0 → ∃ res, Gui.solidsAuto Real.sqrt sp de d false = .ok res ∧
      ∀ p j, p < d0.nodes.length → j < 2 → |fieldOf res.disp p j - fieldOf res0.disp p j| < ε := by
  by_contra hc
  push Not at hc
  choose d hd hbad using fun n : ℕ => hc (1 / ((n : ℝ) + 1)) (by positivity)
  have ht : ModelTends atTop d d0 := ⟨fun n => (hd n).elements, fun n => (hd n).cons, tableNear_tends fun n => (hd n).nodes,
    tableNear_tends fun n => (hd n).mats, tableNear_tends fun n => (hd n).loads, fun n => (hd n).loaded⟩
  obtain ⟨h1, h2⟩ := C161_wellposed (de := de) ht hp hwf hsp hms hst h0
  classical
  let res : ℕ → Gui.Result ℝ := fun n =>
    if hn : ∃ res, Gui.solidsAuto Real.sqrt sp de (d n) false = .ok res then hn.choose else res0
  have hres : ∀ᶠ n in atTop, Gui.solidsAuto Real.sqrt sp de (d n) false = .ok (res n) := by
    filter_upwards [h1] with n hn
    simp only [res, dif_pos hn.2]
    exact hn.2.choose_spec
  have hall : ∀ᶠ n in atTop, ∀ q ∈ Finset.range d0.nodes.length ×ˢ Finset.range 2,
      |fieldOf (res n).disp q.1 q.2 - fieldOf res0.disp q.1 q.2| < ε := by
    refine (Filter.eventually_all_finset _).2 fun q hq => ?_
    rw [Finset.mem_product, Finset.mem_range, Finset.mem_range] at hq
    have := (tendsto_iff_dist_tendsto_zero.1 (h2 false res hres q.1 q.2 hq.1 hq.2)).eventually (gt_mem_nhds hε)
    filter_upwards [this] with n hn
    rwa [Real.dist_eq] at hn
  obtain ⟨n, hn1, hn2⟩ := (hres.and hall).exists
  obtain ⟨p, j, hp', hj, hge⟩ := hbad n (res n) hn1
  exact absurd (hn2 (p, j) (by simp [hp', hj])) (not_lt.2 hge)

end

section demo

/-- Models near the truss of two bars: other moduli and another load. -/
example {δ t u : ℝ} (ht : |t| < δ) (hu : |u| < δ) :
    ModelNear δ { trussR with mats := [[125 + t, 1], [9, 1]], loads := [[2, 4 + u, -6]] } trussR := by
  have hδ : 0 < δ := lt_of_le_of_lt (abs_nonneg _) ht
  refine ⟨rfl, rfl, ⟨rfl, fun p j => by simpa using hδ⟩, ⟨rfl, fun p j => ?_⟩, ⟨rfl, fun p j => ?_⟩, rfl⟩
  · match p, j with
    | 0, 0 => simpa [fieldOf, entry, trussR] using ht
    | 0, 1 => simpa [fieldOf, entry, trussR] using hδ
    | 0, j + 2 => simpa [fieldOf, entry, trussR] using hδ
    | 1, j => simpa [fieldOf, entry, trussR] using hδ
    | p + 2, j => simpa [fieldOf, entry, trussR] using hδ
  · match p, j with
    | 0, 0 => simpa [fieldOf, entry, trussR] using hδ
    | 0, 1 => simpa [fieldOf, entry, trussR] using hu
    | 0, j + 2 => simpa [fieldOf, entry, trussR] using hδ
    | p + 1, j => simpa [fieldOf, entry, trussR] using hδ

/-- Case for C161: a precision of the tables of the truss that gives its displacements within a thousandth. -/
example : ∃ res0, Gui.solidsAuto Real.sqrt cramerR cramerR trussR false = .ok res0 ∧
    ∃ δ > 0, ∀ d, ModelNear δ d trussR → ∃ res, Gui.solidsAuto Real.sqrt cramerR cramerR d false = .ok res ∧
      ∀ p j, p < 3 → j < 2 → |fieldOf res.disp p j - fieldOf res0.disp p j| < 1 / 1000 := by
  obtain ⟨ms, hms⟩ := truss_members sqrtFn_real trussR_bars
  have hst := trussR_stable hms
  obtain ⟨res, hres⟩ := C93_solids_auto_returns (de := cramerR) trussR_plane trussR_wf cramerR_ok hms hst
    ⟨2, 0, trussR_free 0 (by omega)⟩ (by
      intro L hL
      simp only [trussR, List.mem_singleton] at hL
      subst hL
      exact ⟨by simp, 2, (names_nat (by decide) rfl).2 rfl⟩)
  exact ⟨res, hres, C161_precision trussR_plane trussR_wf cramerR_ok hms hst hres (by norm_num)⟩

end demo

end SolidsPy
