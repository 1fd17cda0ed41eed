import Verif.Proofs.Assembly
import Mathlib.LinearAlgebra.Matrix.Notation

/-! # C07 - C12: assembly -/

set_option linter.unusedSectionVars false

namespace SolidsPy
open Spec Assem

variable {K : Type} [Field K] {eleFun : ℤ → Py (Uel K)} {elements : List (List ℤ)}
  {mats nodes : Table K} {neq : ℕ} {assemOp : List (List ℤ)} {uel : Option (Uel K)}

/-- Both assembly routines return the scatter-add sum of the retrieved local matrices. -/
theorem assembler_scatter {sparse : Bool} {Kg Mg : Matrix (Fin neq) (Fin neq) K}
    (h : assembler eleFun elements mats nodes neq assemOp sparse uel = .ok (Kg, Mg)) :
    ∃ (loc : ℕ → NdArr K × NdArr K) (op : ℕ → List ℤ),
      (∀ e < elements.length, retriever eleFun elements mats nodes e uel = .ok (loc e) ∧
        assemOp[e]? = some (op e)) ∧
      ∀ i j : Fin neq,
        Kg i j = ∑ e ∈ Finset.range elements.length,
          scatter (op e) neq (rowsOf (loc e).1) (cell (loc e).1) i j ∧
        Mg i j = ∑ e ∈ Finset.range elements.length,
          scatter (op e) neq (rowsOf (loc e).1) (cell (loc e).2) i j := by
  have key : ∀ {In : ℤ → Prop},
      (∀ e < elements.length, StepOk In eleFun elements mats nodes assemOp uel e) →
      Kg = total eleFun elements mats nodes neq assemOp uel Prod.fst →
      Mg = total eleFun elements mats nodes neq assemOp uel Prod.snd →
      ∃ (loc : ℕ → NdArr K × NdArr K) (op : ℕ → List ℤ),
      (∀ e < elements.length, retriever eleFun elements mats nodes e uel = .ok (loc e) ∧
        assemOp[e]? = some (op e)) ∧
      ∀ i j : Fin neq,
        Kg i j = ∑ e ∈ Finset.range elements.length,
          scatter (op e) neq (rowsOf (loc e).1) (cell (loc e).1) i j ∧
        Mg i j = ∑ e ∈ Finset.range elements.length,
          scatter (op e) neq (rowsOf (loc e).1) (cell (loc e).2) i j := by
    intro In hs hk hm
    refine ⟨locOf eleFun elements mats nodes uel, fun e => assemOp.getD e [], fun e he => ?_,
      fun i j => ⟨by rw [hk]; rfl, by rw [hm]; rfl⟩⟩
    obtain ⟨loc, op, h1, h2, _⟩ := hs e he
    have hl : locOf eleFun elements mats nodes uel e = loc := by unfold locOf; rw [h1]
    have ho : assemOp.getD e [] = op := by rw [List.getD_eq_getElem?_getD, h2]; rfl
    rw [hl]
    exact ⟨h1, by rw [h2]; exact congrArg some ho.symm⟩
  unfold assembler at h
  cases sparse with
  | true =>
    rw [if_pos rfl] at h
    have hs : ∀ e < elements.length, StepOk (InC neq) eleFun elements mats nodes assemOp uel e := by
      by_contra hc
      obtain ⟨e, he⟩ := sparseAssem_spec.2 hc
      rw [he] at h
      simp at h
    rw [sparseAssem_spec.1 hs, Except.ok.injEq, Prod.mk.injEq] at h
    exact key hs h.1.symm h.2.symm
  | false =>
    rw [if_neg (by simp)] at h
    have hs : ∀ e < elements.length, StepOk (InR neq) eleFun elements mats nodes assemOp uel e := by
      by_contra hc
      obtain ⟨e, he⟩ := denseAssem_spec.2 hc
      rw [he] at h
      simp at h
    rw [denseAssem_spec.1 hs, Except.ok.injEq, Prod.mk.injEq] at h
    exact key hs h.1.symm h.2.symm

/-- C07. Entry `(i, j)` of the dense global matrices is the sum over elements `e` and local pairs
`(r, c)` whose operator entries are `i` and `j` of the local entries. -/
theorem C07_dense_assembly_scatter_add {Kg Mg : Matrix (Fin neq) (Fin neq) K}
    (h : denseAssem eleFun elements mats nodes neq assemOp uel = .ok (Kg, Mg)) :
    ∃ (loc : ℕ → NdArr K × NdArr K) (op : ℕ → List ℤ),
      (∀ e < elements.length, retriever eleFun elements mats nodes e uel = .ok (loc e) ∧
        assemOp[e]? = some (op e)) ∧
      ∀ i j : Fin neq,
        Kg i j = ∑ e ∈ Finset.range elements.length, ∑ r ∈ Finset.range (rowsOf (loc e).1),
          ∑ c ∈ Finset.range (rowsOf (loc e).1),
            (if Hit (op e) neq r i ∧ Hit (op e) neq c j then cell (loc e).1 r c else 0) ∧
        Mg i j = ∑ e ∈ Finset.range elements.length, ∑ r ∈ Finset.range (rowsOf (loc e).1),
          ∑ c ∈ Finset.range (rowsOf (loc e).1),
            (if Hit (op e) neq r i ∧ Hit (op e) neq c j then cell (loc e).2 r c else 0) :=
  assembler_scatter (sparse := false) h

/-- A user element for the cases below: stiffness `[[k, -k], [-k, k]]`, mass `diag(1, 2)`. -/
def demoUel : Uel ℚ := fun _ params => do
  let k ← pyGet params 0
  pure (.mat 2 2 !![k, -k; -k, k], .mat 2 2 !![1, 0; 0, 2])

/-- Case for C07: two user elements in series, first degree of freedom fixed. -/
example : (denseAssem (fun _ => .error .valueError) [[0, 5, 0, 0, 1], [1, 5, 1, 1, 2]] [[10], [4]]
    ([[0, 0], [1, 1], [2, 2]] : Table ℚ) 2 [[-1, 0], [0, 1]] (some demoUel)).map accRows =
    .ok ([[14, -4], [-4, 4]], [[3, 0], [0, 2]]) := by decide +kernel

/-- C08. With no operator entry below -1, the sparse and dense routines return the same matrices, and
one succeeds exactly when the other does. -/
theorem C08_sparse_dense_agree (hop : ∀ row ∈ assemOp, ∀ g ∈ row, -1 ≤ g)
    (r : Matrix (Fin neq) (Fin neq) K × Matrix (Fin neq) (Fin neq) K) :
    sparseAssem eleFun elements mats nodes neq assemOp uel = .ok r ↔
      denseAssem eleFun elements mats nodes neq assemOp uel = .ok r := by
  have hsteps : (∀ e < elements.length, StepOk (InC neq) eleFun elements mats nodes assemOp uel e) ↔
      ∀ e < elements.length, StepOk (InR neq) eleFun elements mats nodes assemOp uel e := by
    refine forall₂_congr fun e he => ?_
    have hcell : ∀ {op : List ℤ}, assemOp[e]? = some op → ∀ {k : ℕ} {g : ℤ}, op[k]? = some g →
        g ≠ -1 → (InC neq g ↔ InR neq g) := by
      intro op ho k g hg hne
      have := hop op (List.mem_of_getElem? ho) g (List.mem_of_getElem? hg)
      unfold InC InR
      omega
    constructor
    · rintro ⟨loc, op, h1, h2, h3⟩
      refine ⟨loc, op, h1, h2, fun r hr => ?_⟩
      obtain ⟨gr, hgr, h4⟩ := h3 r hr
      refine ⟨gr, hgr, fun hne c hc => ?_⟩
      obtain ⟨gc, hgc, h5⟩ := h4 hne c hc
      refine ⟨gc, hgc, fun hne2 => ?_⟩
      obtain ⟨h6, h7, h8⟩ := h5 hne2
      exact ⟨(hcell h2 hgr hne).1 h6, (hcell h2 hgc hne2).1 h7, h8⟩
    · rintro ⟨loc, op, h1, h2, h3⟩
      refine ⟨loc, op, h1, h2, fun r hr => ?_⟩
      obtain ⟨gr, hgr, h4⟩ := h3 r hr
      refine ⟨gr, hgr, fun hne c hc => ?_⟩
      obtain ⟨gc, hgc, h5⟩ := h4 hne c hc
      refine ⟨gc, hgc, fun hne2 => ?_⟩
      obtain ⟨h6, h7, h8⟩ := h5 hne2
      exact ⟨(hcell h2 hgr hne).2 h6, (hcell h2 hgc hne2).2 h7, h8⟩
  by_cases hs : ∀ e < elements.length, StepOk (InC neq) eleFun elements mats nodes assemOp uel e
  · rw [sparseAssem_spec.1 hs, denseAssem_spec.1 (hsteps.1 hs)]
  · obtain ⟨e1, h1⟩ := sparseAssem_spec.2 hs
    obtain ⟨e2, h2⟩ := denseAssem_spec.2 fun h => hs (hsteps.2 h)
    rw [h1, h2]
    simp

/-- C08. Without the condition on the operator: whenever the sparse routine returns, the dense one
returns the same. -/
theorem C08_sparse_implies_dense
    {r : Matrix (Fin neq) (Fin neq) K × Matrix (Fin neq) (Fin neq) K}
    (h : sparseAssem eleFun elements mats nodes neq assemOp uel = .ok r) :
    denseAssem eleFun elements mats nodes neq assemOp uel = .ok r := by
  have hs : ∀ e < elements.length, StepOk (InC neq) eleFun elements mats nodes assemOp uel e := by
    by_contra hc
    obtain ⟨e, he⟩ := sparseAssem_spec.2 hc
    rw [he] at h
    simp at h
  have hs' : ∀ e < elements.length, StepOk (InR neq) eleFun elements mats nodes assemOp uel e := by
    intro e he
    obtain ⟨loc, op, h1, h2, h3⟩ := hs e he
    have himp : ∀ {g : ℤ}, InC neq g → InR neq g := by
      intro g
      unfold InC InR
      omega
    refine ⟨loc, op, h1, h2, fun r hr => ?_⟩
    obtain ⟨gr, hgr, h4⟩ := h3 r hr
    refine ⟨gr, hgr, fun hne c hc => ?_⟩
    obtain ⟨gc, hgc, h5⟩ := h4 hne c hc
    refine ⟨gc, hgc, fun hne2 => ?_⟩
    obtain ⟨h6, h7, h8⟩ := h5 hne2
    exact ⟨himp h6, himp h7, h8⟩
  rw [sparseAssem_spec.1 hs] at h
  rw [denseAssem_spec.1 hs', h]

/-- Cases for C08: the same two elements through both routines; with a constraint code -2 the dense
routine silently assembles into the second equation from the end while the sparse one raises. -/
example :
    (sparseAssem (fun _ => .error .valueError) [[0, 5, 0, 0, 1], [1, 5, 1, 1, 2]] [[10], [4]]
      ([[0, 0], [1, 1], [2, 2]] : Table ℚ) 2 [[-1, 0], [0, 1]] (some demoUel)).map accRows =
      .ok ([[14, -4], [-4, 4]], [[3, 0], [0, 2]]) ∧
    (sparseAssem (fun _ => .error .valueError) [[0, 5, 0, 0, 1]] [[10]]
      ([[0, 0], [1, 1]] : Table ℚ) 2 [[-2, 1]] (some demoUel)).map accRows = .error .valueError ∧
    (denseAssem (fun _ => .error .valueError) [[0, 5, 0, 0, 1]] [[10]]
      ([[0, 0], [1, 1]] : Table ℚ) 2 [[-2, 1]] (some demoUel)).map accRows =
      .ok ([[10, -10], [-10, 10]], [[1, 0], [0, 2]]) := by decide +kernel

/-- C09. Reordering the element rows together with their operator rows does not change the result of
either routine (success included). -/
theorem C09_element_order_irrelevant {elements' assemOp' : List (List ℤ)} {sparse : Bool}
    (hl : assemOp.length = elements.length) (hl' : assemOp'.length = elements'.length)
    (hp : (elements.zip assemOp).Perm (elements'.zip assemOp'))
    (r : Matrix (Fin neq) (Fin neq) K × Matrix (Fin neq) (Fin neq) K) :
    assembler eleFun elements mats nodes neq assemOp sparse uel = .ok r ↔
      assembler eleFun elements' mats nodes neq assemOp' sparse uel = .ok r := by
  have hstep : ∀ {In : ℤ → Prop},
      (∀ e < elements.length, StepOk In eleFun elements mats nodes assemOp uel e) ↔
      ∀ e < elements'.length, StepOk In eleFun elements' mats nodes assemOp' uel e := by
    intro In
    rw [stepOk_zip hl, stepOk_zip hl']
    exact forall_congr' fun p => by rw [hp.mem_iff]
  have htot : ∀ sel, total eleFun elements mats nodes neq assemOp uel sel =
      total eleFun elements' mats nodes neq assemOp' uel sel := by
    intro sel
    rw [total_zip hl, total_zip hl']
    exact (hp.map _).sum_eq
  unfold assembler
  cases sparse with
  | true =>
    simp only [if_true]
    by_cases hs : ∀ e < elements.length, StepOk (InC neq) eleFun elements mats nodes assemOp uel e
    · rw [sparseAssem_spec.1 hs, sparseAssem_spec.1 (hstep.1 hs), htot, htot]
    · obtain ⟨e1, h1⟩ := sparseAssem_spec.2 hs
      obtain ⟨e2, h2⟩ := sparseAssem_spec.2 fun h => hs (hstep.2 h)
      rw [h1, h2]
      simp
  | false =>
    simp only [Bool.false_eq_true, if_false]
    by_cases hs : ∀ e < elements.length, StepOk (InR neq) eleFun elements mats nodes assemOp uel e
    · rw [denseAssem_spec.1 hs, denseAssem_spec.1 (hstep.1 hs), htot, htot]
    · obtain ⟨e1, h1⟩ := denseAssem_spec.2 hs
      obtain ⟨e2, h2⟩ := denseAssem_spec.2 fun h => hs (hstep.2 h)
      rw [h1, h2]
      simp

/-- Case for C09: the two elements of the C07 case swapped. -/
example : (assembler (fun _ => .error .valueError) [[1, 5, 1, 1, 2], [0, 5, 0, 0, 1]] [[10], [4]]
    ([[0, 0], [1, 1], [2, 2]] : Table ℚ) 2 [[0, 1], [-1, 0]] true (some demoUel)).map accRows =
    .ok ([[14, -4], [-4, 4]], [[3, 0], [0, 2]]) ∧
    ([[0, 5, 0, 0, 1], [1, 5, 1, 1, 2]].zip [[-1, 0], [(0 : ℤ), 1]]).Perm
      ([[(1 : ℤ), 5, 1, 1, 2], [0, 5, 0, 0, 1]].zip [[0, 1], [-1, 0]]) := by decide +kernel

/-- C10. If every retrieved local stiffness (mass) is symmetric, so is the assembled one, for both
routines. -/
theorem C10_assembled_symmetric {sparse : Bool} {Kg Mg : Matrix (Fin neq) (Fin neq) K}
    (h : assembler eleFun elements mats nodes neq assemOp sparse uel = .ok (Kg, Mg)) :
    ((∀ e k m, e < elements.length → retriever eleFun elements mats nodes e uel = .ok (k, m) →
        ∀ r < rowsOf k, ∀ c < rowsOf k, cell k r c = cell k c r) → Kg.transpose = Kg) ∧
    ((∀ e k m, e < elements.length → retriever eleFun elements mats nodes e uel = .ok (k, m) →
        ∀ r < rowsOf k, ∀ c < rowsOf k, cell m r c = cell m c r) → Mg.transpose = Mg) := by
  obtain ⟨loc, op, h1, h2⟩ := assembler_scatter h
  have key : ∀ (e : ℕ) (a : ℕ → ℕ → K) (n : ℕ) (i j : Fin neq),
      (∀ r < n, ∀ c < n, a r c = a c r) → scatter (op e) neq n a i j = scatter (op e) neq n a j i := by
    intro e a n i j hs
    unfold scatter
    rw [Finset.sum_comm]
    refine Finset.sum_congr rfl fun c hc => Finset.sum_congr rfl fun r hr => ?_
    rw [hs r (Finset.mem_range.1 hr) c (Finset.mem_range.1 hc)]
    simp only [and_comm]
  constructor
  · intro hs
    ext i j
    rw [Matrix.transpose_apply, (h2 j i).1, (h2 i j).1]
    exact Finset.sum_congr rfl fun e he => key e _ _ _ _
      (hs e _ _ (Finset.mem_range.1 he) (h1 e (Finset.mem_range.1 he)).1)
  · intro hs
    ext i j
    rw [Matrix.transpose_apply, (h2 j i).2, (h2 i j).2]
    exact Finset.sum_congr rfl fun e he => key e _ _ _ _
      (hs e _ _ (Finset.mem_range.1 he) (h1 e (Finset.mem_range.1 he)).1)

/-- Case for C10: the C07 case has symmetric local matrices. -/
example : ∀ e k m, e < 2 → retriever (fun _ => .error .valueError) [[0, 5, 0, 0, 1], [1, 5, 1, 1, 2]]
    [[10], [4]] ([[0, 0], [1, 1], [2, 2]] : Table ℚ) e (some demoUel) = .ok (k, m) →
    ∀ r < rowsOf k, ∀ c < rowsOf k, cell k r c = cell k c r := by
  intro e k m he h
  have : e = 0 ∨ e = 1 := by omega
  rcases this with rfl | rfl
  · have h' : retriever (fun _ => .error .valueError) [[0, 5, 0, 0, 1], [1, 5, 1, 1, 2]]
      [[10], [4]] ([[0, 0], [1, 1], [2, 2]] : Table ℚ) 0 (some demoUel) =
        .ok (.mat 2 2 !![10, -10; -10, 10], .mat 2 2 !![1, 0; 0, 2]) := rfl
    rw [h'] at h
    cases h
    decide +kernel
  · have h' : retriever (fun _ => .error .valueError) [[0, 5, 0, 0, 1], [1, 5, 1, 1, 2]]
      [[10], [4]] ([[0, 0], [1, 1], [2, 2]] : Table ℚ) 1 (some demoUel) =
        .ok (.mat 2 2 !![4, -4; -4, 4], .mat 2 2 !![1, 0; 0, 2]) := rfl
    rw [h'] at h
    cases h
    decide +kernel

/-- C11. For all reduced vectors `v`, `u`: `v^T K u` (and `v^T M u`) is the sum over elements of the
element forms, where `ve e`, `ue e` are the element values of `v` and `u` (constrained ones 0). -/
theorem C11_energy_equivalence {sparse : Bool} {Kg Mg : Matrix (Fin neq) (Fin neq) K}
    (h : assembler eleFun elements mats nodes neq assemOp sparse uel = .ok (Kg, Mg)) :
    ∃ (loc : ℕ → NdArr K × NdArr K) (op : ℕ → List ℤ),
      (∀ e < elements.length, retriever eleFun elements mats nodes e uel = .ok (loc e) ∧
        assemOp[e]? = some (op e)) ∧
      ∀ (v u : Fin neq → K) (ve ue : ℕ → ℕ → K), (∀ e, IsLocal (op e) v (ve e)) →
        (∀ e, IsLocal (op e) u (ue e)) →
        (∑ i, ∑ j, v i * Kg i j * u j = ∑ e ∈ Finset.range elements.length,
          bilin (rowsOf (loc e).1) (cell (loc e).1) (ve e) (ue e)) ∧
        (∑ i, ∑ j, v i * Mg i j * u j = ∑ e ∈ Finset.range elements.length,
          bilin (rowsOf (loc e).1) (cell (loc e).2) (ve e) (ue e)) := by
  obtain ⟨loc, op, h1, h2⟩ := assembler_scatter h
  refine ⟨loc, op, h1, fun v u ve ue hv hu => ⟨?_, ?_⟩⟩
  · simp only [(h2 _ _).1, Finset.mul_sum, Finset.sum_mul]
    rw [← Finset.sum_congr rfl fun e _ => scatter_bilin (hv e) (hu e)]
    rw [Finset.sum_comm]
    rw [Finset.sum_congr rfl fun j _ => Finset.sum_comm, Finset.sum_comm]
    exact Finset.sum_congr rfl fun e _ => Finset.sum_comm
  · simp only [(h2 _ _).2, Finset.mul_sum, Finset.sum_mul]
    rw [← Finset.sum_congr rfl fun e _ => scatter_bilin (hv e) (hu e)]
    rw [Finset.sum_comm]
    rw [Finset.sum_congr rfl fun j _ => Finset.sum_comm, Finset.sum_comm]
    exact Finset.sum_congr rfl fun e _ => Finset.sum_comm

/-- Case for C11: element values exist for every reduced vector and operator row. -/
example (op : List ℤ) (u : Fin neq → K) : ∃ ue, IsLocal op u ue := exists_isLocal op u

/-- C12. If all local stiffness matrices are positive semidefinite, so is the assembled one. -/
theorem C12_assembled_psd [LinearOrder K] [IsStrictOrderedRing K] {sparse : Bool}
    {Kg Mg : Matrix (Fin neq) (Fin neq) K}
    (h : assembler eleFun elements mats nodes neq assemOp sparse uel = .ok (Kg, Mg)) :
    ((∀ e k m, e < elements.length → retriever eleFun elements mats nodes e uel = .ok (k, m) →
        ∀ x : ℕ → K, 0 ≤ bilin (rowsOf k) (cell k) x x) →
      ∀ u : Fin neq → K, 0 ≤ ∑ i, ∑ j, u i * Kg i j * u j) ∧
    ((∀ e k m, e < elements.length → retriever eleFun elements mats nodes e uel = .ok (k, m) →
        ∀ x : ℕ → K, 0 ≤ bilin (rowsOf k) (cell m) x x) →
      ∀ u : Fin neq → K, 0 ≤ ∑ i, ∑ j, u i * Mg i j * u j) := by
  obtain ⟨loc, op, h1, h2⟩ := C11_energy_equivalence h
  constructor
  · intro hs u
    choose ue hue using fun e => exists_isLocal (op e) u
    rw [(h2 u u ue ue hue hue).1]
    exact Finset.sum_nonneg fun e he =>
      hs e _ _ (Finset.mem_range.1 he) (h1 e (Finset.mem_range.1 he)).1 _
  · intro hs u
    choose ue hue using fun e => exists_isLocal (op e) u
    rw [(h2 u u ue ue hue hue).2]
    exact Finset.sum_nonneg fun e he =>
      hs e _ _ (Finset.mem_range.1 he) (h1 e (Finset.mem_range.1 he)).1 _

/-- Case for C12: the local stiffness of the demo element with a non-negative constant. -/
example (k : ℚ) (hk : 0 ≤ k) (x : ℕ → ℚ) :
    0 ≤ bilin 2 (cell (.mat 2 2 !![k, -k; -k, k])) x x := by
  simp only [bilin, Finset.sum_range_succ, Finset.sum_range_zero, cell]
  simp
  nlinarith [mul_nonneg hk (sq_nonneg (x 0 - x 1))]

end SolidsPy
