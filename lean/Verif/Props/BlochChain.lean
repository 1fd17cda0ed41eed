import Verif.Props.BarModes
import Verif.Props.BlochModes
import Mathlib.LinearAlgebra.Vandermonde
import Mathlib.RingTheory.RootsOfUnity.Complex

/-! # C144: waves in a periodic rod -/

set_option linter.unusedSectionVars false

namespace SolidsPy
open Spec Assem Matrix Bloch

/-- A rod along the first axis: `n` equal bars of length `h` and material `(E, A, ρ)`, free to move along the axis only. -/
structure Spec.PeriodicRod {K : Type} [Field K] (d : Gui.Data K) (n : ℕ) (h E A ρ : K) : Prop where
  count : d.nodes.length = n + 1
  place : ∃ x y, ∀ p ≤ n, ∃ id, d.nodes[p]? = some [id, x + p * h, y]
  bars : d.elements.length = n
  bar : ∀ e < n, ∃ id, d.elements[e]? = some [id, 6, 0, (e : ℤ), (e + 1 : ℤ)]
  material : d.mats[0]? = some [E, A, ρ]
  cons : d.cons = List.replicate (n + 1) [0, -1]

/-- The square of the frequency at which the rod of elements of length `h` carries a wave that turns by `θ` from node to node. -/
noncomputable def Spec.waveFreq (h E ρ θ : ℝ) : ℝ := E / ρ * (6 * (1 - Real.cos θ) / (2 + Real.cos θ) / h ^ 2)

section
variable {K : Type} [Field K] [LinearOrder K] [IsStrictOrderedRing K] [FloorRing K]
variable {sq : K → K} {d : Gui.Data K} {n : ℕ} {h E A ρ : K} {ms : List (Member K)}
  {op bc : List (List ℤ)} {neq : ℕ}

/-- The same bars, held at the ends. -/
def heldRod (d : Gui.Data K) (n : ℕ) : Gui.Data K :=
  { d with cons := (List.range (n + 1)).map fun p => if p = 0 ∨ p = n then [-1, -1] else [0, -1] }

theorem Spec.PeriodicRod.held (hr : PeriodicRod d n h E A ρ) : UniformBar (heldRod d n) n h E A ρ where
  count := hr.count
  place := hr.place
  bars := hr.bars
  bar := hr.bar
  material := hr.material
  rows := by simp [heldRod]
  fixed := by simp [heldRod]
  inner := by
    intro p h0 h1
    have : ¬ (p = 0 ∨ p = n) := by omega
    simp [heldRod, List.getElem?_range (show p < n + 1 by omega), this]

theorem Spec.PeriodicRod.row (hr : PeriodicRod d n h E A ρ) {p : ℕ} {row : List K} (hp : d.cons[p]? = some row) :
    p ≤ n ∧ row = [0, -1] := by
  rw [hr.cons, List.getElem?_replicate] at hp
  split at hp
  · rename_i hlt
    exact ⟨by omega, (Option.some.inj hp).symm⟩
  · cases hp

theorem Spec.PeriodicRod.wf (hr : PeriodicRod d n h E A ρ) : WellFormed d where
  codes := by
    intro i j x hj hx
    obtain ⟨row, h1, h2⟩ := entry_some.1 hx
    obtain ⟨-, rfl⟩ := hr.row h1
    rcases (by omega : j = 0 ∨ j = 1) with rfl | rfl <;> simp at h2 <;> simp [← h2]
  width := by
    intro r hr'
    obtain ⟨p, hp⟩ := List.mem_iff_getElem?.1 hr'
    rw [(hr.row hp).2]
    rfl
  size := by rw [hr.cons, List.length_replicate, hr.count]

theorem Spec.PeriodicRod.model (hr : PeriodicRod d n h E A ρ) : PlaneModel d :=
  ⟨hr.held.model.nodes, hr.held.model.types⟩

theorem Spec.PeriodicRod.free (hr : PeriodicRod d n h E A ρ) {p : ℕ} (hp : p ≤ n) : Free d.cons 2 p 0 := by
  refine ⟨by omega, 0, entry_some.2 ⟨[0, -1], ?_, rfl⟩, by simp, by simp⟩
  rw [hr.cons, List.getElem?_replicate, if_pos (by omega)]

theorem rod_zeros (m : ℕ) : zerosTab 2 (truncTab (List.replicate m [(0 : K), -1])) = m := by
  induction m with
  | zero => rfl
  | succ m ih =>
    have h0 : pyTrunc (0 : K) = 0 := by simp [pyTrunc]
    have h1 : pyTrunc (-1 : K) = -1 := by
      have : ¬ ((1 : K) ≤ 0) := by simp
      simp [pyTrunc, this]
      exact_mod_cast Int.ceil_intCast (R := K) (-1)
    rw [List.replicate_succ]
    simp only [truncTab, List.map_cons, List.map_nil, zerosTab_cons, h0, h1] at ih ⊢
    rw [ih]
    have : zeros (List.take 2 [(0 : ℤ), -1]) = 1 := by decide
    omega

/-- Node `p` has equation `p`. -/
theorem Spec.PeriodicRod.numbering (hr : PeriodicRod d n h E A ρ) (h1 : dme d.cons d.elements = .ok (op, bc, neq)) :
    neq = n + 1 ∧ ∀ p ≤ n, DofEq bc neq p 0 p := by
  have heq := (dme_ok.1 h1).1
  have hneq : neq = n + 1 := by
    rw [eqcounter_neq heq, hr.cons, rod_zeros]
  refine ⟨hneq, fun p hp => ?_⟩
  obtain ⟨c1, c2⟩ := free_entry heq (hr.free hp)
  have hrank : Assem.rank d.cons 2 p 0 = p := by
    unfold Assem.rank
    rw [List.take_zero, zeros_nil, add_zero]
    have : (truncTab d.cons).take p = truncTab (List.replicate p [(0 : K), -1]) := by
      rw [hr.cons]
      unfold truncTab
      rw [List.map_replicate, List.map_replicate, List.take_replicate]
      congr 1
      omega
    rw [this, rod_zeros]
  rw [hrank] at c1
  exact ⟨p, c1, by omega, by omega, .inl rfl⟩

/-- Forces at the nodes of a line of two-node elements. -/
theorem line_internal_all (hlen : ms.length = n) (hn : ∀ e (he : e < ms.length), ms[e].nodes = [e, e + 1]) (nd : ℕ) (U : ℕ → ℕ → K)
    {j : ℕ} (p : ℕ) :
    internal nd ms U p j = (if h : 0 < p ∧ p - 1 < ms.length then ms[p - 1].force nd U 1 j else 0) +
      (if h : p < ms.length then ms[p].force nd U 0 j else 0) := by
  have key : ∀ e (he : e < ms.length), (∑ a ∈ Finset.range ms[e].nodes.length,
      if ms[e].nodes[a]? = some p then ms[e].force nd U a j else 0) =
      (if e = p then ms[e].force nd U 0 j else 0) + if e + 1 = p then ms[e].force nd U 1 j else 0 := by
    intro e he
    rw [hn e he]
    simp [Finset.sum_range_succ]
  subst hlen
  unfold internal
  rw [← sum_range_list ms ⟨[], fun _ _ => 0⟩]
  have e1 : ∀ e ∈ Finset.range ms.length, (∑ a ∈ Finset.range (ms.getD e ⟨[], fun _ _ => 0⟩).nodes.length,
      if (ms.getD e ⟨[], fun _ _ => 0⟩).nodes[a]? = some p then (ms.getD e ⟨[], fun _ _ => 0⟩).force nd U a j else 0) =
      (if e = p then (ms.getD e ⟨[], fun _ _ => 0⟩).force nd U 0 j else 0) +
        if e = p - 1 then (if 0 < p then (ms.getD e ⟨[], fun _ _ => 0⟩).force nd U 1 j else 0) else 0 := by
    intro e he
    have he : e < ms.length := Finset.mem_range.1 he
    have hg : ms.getD e ⟨[], fun _ _ => 0⟩ = ms[e] := by
      rw [List.getD_eq_getElem?_getD, List.getElem?_eq_getElem he, Option.getD_some]
    rw [hg, key e he]
    congr 1
    by_cases hp : 0 < p
    · rw [if_pos hp]
      exact if_congr (by omega) rfl rfl
    · rw [if_neg hp, if_neg (by omega), ite_self]
  rw [Finset.sum_congr rfl e1, Finset.sum_add_distrib, Finset.sum_ite_eq', Finset.sum_ite_eq', add_comm]
  congr 1
  · simp only [Finset.mem_range]
    by_cases h0 : 0 < p
    · by_cases h1 : p - 1 < ms.length
      · rw [if_pos h1, if_pos h0, dif_pos ⟨h0, h1⟩, List.getD_eq_getElem?_getD, List.getElem?_eq_getElem h1, Option.getD_some]
      · rw [if_neg h1, dif_neg (by tauto)]
    · rw [if_neg h0, ite_self, dif_neg (by tauto)]
  · simp only [Finset.mem_range]
    by_cases h1 : p < ms.length
    · rw [if_pos h1, dif_pos h1, List.getD_eq_getElem?_getD, List.getElem?_eq_getElem h1, Option.getD_some]
    · rw [if_neg h1, dif_neg h1]

variable {Kg Mg : Matrix (Fin (n + 1)) (Fin (n + 1)) K}

theorem Spec.PeriodicRod.stiff_mul (hr : PeriodicRod d n h E A ρ) (hs : SqrtFn sq) (hh : 0 < h)
    (h1 : dme d.cons d.elements = .ok (op, bc, n + 1))
    (h2 : assembler (Uel.eleFun sq) d.elements d.mats d.nodes (n + 1) op = .ok (Kg, Mg)) (f : ℕ → K) (i : Fin (n + 1)) :
    Kg.mulVec (fun p => f p) i = A * E / h * ((if 0 < (i : ℕ) then f i - f (i - 1) else 0) +
      if (i : ℕ) < n then f i - f (i + 1) else 0) := by
  obtain ⟨ms, s⟩ := auto_setup h1 h2 hr.wf.codes hr.wf.width hr.wf.size
  have hlen : ms.length = n := by rw [← s.mem.length_eq, hr.bars]
  have hf := hr.held.stiff hs hh (ms := ms) s.mem
  obtain ⟨V, hV⟩ := exists_completes (cons := d.cons) bc 2 (fun p : Fin (n + 1) => f p)
  have hVp : ∀ p ≤ n, V p 0 = f p := by
    intro p hp
    exact (hV p (by rw [hr.cons, List.length_replicate]; omega) 0 (by omega)).1 ⟨p, by omega⟩ ((hr.numbering h1).2 p hp)
  have hi : (i : ℕ) ≤ n := by omega
  rw [s.mul _ V hV i 0 i (hr.free hi) ((hr.numbering h1).2 i hi), line_internal_all hlen (fun e he => (hf e he).1) 2 V i, mul_add]
  congr 1
  · by_cases h0 : 0 < (i : ℕ)
    · rw [dif_pos ⟨h0, by omega⟩, if_pos h0, ((hf _ _).2 V).2, Nat.sub_add_cancel h0, hVp i hi, hVp (i - 1) (by omega)]
    · rw [dif_neg (by tauto), if_neg h0, mul_zero]
  · by_cases h0 : (i : ℕ) < n
    · rw [dif_pos (by omega), if_pos h0, ((hf _ _).2 V).1, hVp i hi, hVp (i + 1) (by omega)]
    · rw [dif_neg (by omega), if_neg h0, mul_zero]

theorem Spec.PeriodicRod.mass_mul (hr : PeriodicRod d n h E A ρ) (hs : SqrtFn sq) (hh : 0 < h)
    (h1 : dme d.cons d.elements = .ok (op, bc, n + 1))
    (h2 : assembler (Uel.eleFun sq) d.elements d.mats d.nodes (n + 1) op = .ok (Kg, Mg)) (f : ℕ → K) (i : Fin (n + 1)) :
    Mg.mulVec (fun p => f p) i = A * h * ρ / 6 * ((if 0 < (i : ℕ) then f (i - 1) + 2 * f i else 0) +
      if (i : ℕ) < n then 2 * f i + f (i + 1) else 0) := by
  obtain ⟨ms, s⟩ := mass_setup h1 h2 hr.wf
  have hlen : ms.length = n := by rw [← s.mem.length_eq, hr.bars]
  have hf := hr.held.mass hs hh (ms := ms) s.mem
  obtain ⟨V, hV⟩ := exists_completes (cons := d.cons) bc 2 (fun p : Fin (n + 1) => f p)
  have hVp : ∀ p ≤ n, V p 0 = f p := by
    intro p hp
    exact (hV p (by rw [hr.cons, List.length_replicate]; omega) 0 (by omega)).1 ⟨p, by omega⟩ ((hr.numbering h1).2 p hp)
  have hi : (i : ℕ) ≤ n := by omega
  rw [s.mul _ V hV i 0 i (hr.free hi) ((hr.numbering h1).2 i hi), line_internal_all hlen (fun e he => (hf e he).1) 2 V i, mul_add]
  congr 1
  · by_cases h0 : 0 < (i : ℕ)
    · rw [dif_pos ⟨h0, by omega⟩, if_pos h0, ((hf _ _).2 V).2, Nat.sub_add_cancel h0, hVp i hi, hVp (i - 1) (by omega)]
    · rw [dif_neg (by tauto), if_neg h0, mul_zero]
  · by_cases h0 : (i : ℕ) < n
    · rw [dif_pos (by omega), if_pos h0, ((hf _ _).2 V).1, hVp i hi, hVp (i + 1) (by omega)]
    · rw [dif_neg (by omega), if_neg h0, mul_zero]

end

/-! ## The Bloch analysis -/

/-- The data of a Bloch analysis of the rod with wave vector `(κ, κ')`: the last node is the image of the first, and only the
components along the axis take part. -/
structure Spec.RodWave (d : Gui.Data ℝ) (n : ℕ) (κ κ' : ℝ) (refDof imaDof : ℤ → Option (List ℤ)) (newNum : List ℤ)
    (T : Matrix (Fin (n + 1)) (Fin (n + 1 - [(0 : ℤ)].length)) ℂ) : Prop where
  cells : 0 < n
  refs : refDof 0 = some [0]
  imas : imaDof n = some [(n : ℤ)]
  numbers : reassignDof (n + 1) [(n : ℤ)] [0] = .ok newNum
  matrix : blochTransformMat [κ, κ'] (d.nodes.map (List.drop 1)) (n + 1) [0] [(n : ℤ)] [0] [(n : ℤ)] refDof imaDof newNum = .ok T

section
variable {sq : ℝ → ℝ} {d : Gui.Data ℝ} {n : ℕ} {h E A ρ κ κ' : ℝ} {op bc : List (List ℤ)}
  {refDof imaDof : ℤ → Option (List ℤ)} {newNum : List ℤ}
  {T : Matrix (Fin (n + 1)) (Fin (n + 1 - [(0 : ℤ)].length)) ℂ} {Kg Mg : Matrix (Fin (n + 1)) (Fin (n + 1)) ℝ}

theorem rod_numbers (hn : 0 < n) (hN : reassignDof (n + 1) [(n : ℤ)] [0] = .ok newNum) :
    newNum.length = n + 1 ∧ (∀ p < n, newNum[p]? = some (p : ℤ)) ∧ newNum[n]? = some 0 := by
  obtain ⟨h1, h2⟩ := reassign_ok hN
  have below : ∀ p ≤ n, imagesBelow [(n : ℤ)] p = 0 := by
    intro p
    induction p with
    | zero => exact fun _ => rfl
    | succ p ih =>
      intro hp
      rw [imagesBelow_succ, ih (by omega), if_neg]
      simp
      omega
  refine ⟨h1, fun p hp => ?_, ?_⟩
  · obtain ⟨x, hx, h3⟩ := h2 p (by omega)
    rcases h3 with ⟨-, h3⟩ | ⟨h3, -⟩
    · rw [hx, h3, below p (by omega)]
      simp
    · simp at h3
      omega
  · obtain ⟨x, hx, h3⟩ := h2 n (by omega)
    rcases h3 with ⟨h3, -⟩ | ⟨-, r, h3, h4⟩
    · simp at h3
    · simp at h3
      rw [hx, h4, ← h3, if_pos (by omega)]

theorem rod_links (hrd : refDof 0 = some [0]) (him : imaDof n = some [(n : ℤ)]) :
    links [(n : ℤ)] [0] refDof imaDof = [⟨(n : ℤ), 0, (n : ℤ), 0⟩] := by
  simp [links, hrd, him]

/-- The transformation of the rod. -/
theorem rod_matrix (hr : PeriodicRod d n h E A ρ) (hw : RodWave d n κ κ' refDof imaDof newNum T) :
    (∀ (c : Fin n) (j : Fin (n + 1 - [(0 : ℤ)].length)), T c.castSucc j = if (c : ℕ) = j then 1 else 0) ∧
    ∀ j : Fin (n + 1 - [(0 : ℤ)].length), T (Fin.last n) j =
      if (j : ℕ) = 0 then Complex.exp (Complex.I * ((κ * (n * h) : ℝ) : ℂ)) else 0 := by
  obtain ⟨hn, hrd, him, hN, hT⟩ := hw
  obtain ⟨hl, hlow, hlast⟩ := rod_numbers hn hN
  have hlk := rod_links hrd him
  have hp : Pairing (n + 1) [(n : ℤ)] (links [(n : ℤ)] [0] refDof imaDof) := by
    rw [hlk]
    refine ⟨by simp, by simp, ?_, ?_⟩
    · intro e he hm
      simp at hm
      exact ⟨_, List.mem_singleton_self _, by simp [hm]⟩
    · simp
      omega
  obtain ⟨r1, r2⟩ := bloch_rows hT hp
  constructor
  · intro c j
    obtain ⟨c', h3, h4⟩ := r1 c.castSucc (by simp; omega)
    rw [Fin.val_castSucc, hlow c c.2, Option.some.injEq, Nat.cast_inj] at h3
    rw [h4]
    exact if_congr (by rw [h3, Fin.ext_iff]) rfl rfl
  · intro j
    obtain ⟨e, r, φ, h3, h4, h5, c, h6, h7⟩ := r2 ⟨(n : ℤ), 0, (n : ℤ), 0⟩ (by rw [hlk]; simp)
    dsimp only at h3 h4 h5
    obtain rfl : e = Fin.last n := Fin.ext (by rw [Fin.val_last]; exact_mod_cast h3.symm)
    have hr0 : (r : ℕ) = 0 := by exact_mod_cast h4.symm
    rw [hr0, hlow 0 hn, Option.some.injEq, Nat.cast_inj] at h6
    have hφ : φ = κ * (n * h) := by
      obtain ⟨x, y, hpl⟩ := hr.place
      obtain ⟨i0, p0⟩ := hpl 0 (by omega)
      obtain ⟨i1, p1⟩ := hpl n le_rfl
      refine shift_unique h5 ⟨n, 0, [x + n * h, y], [x + (0 : ℕ) * h, y], ⟨by simp [hr.count], .inl rfl⟩,
        ⟨by simp [hr.count], .inl rfl⟩, by simp [p1], by simp [p0], rfl, ?_⟩
      show _ = ∑ t : Fin 2, _
      rw [Fin.sum_univ_two]
      simp
    rw [h7, hφ]
    exact if_congr (by rw [Fin.ext_iff, ← h6, eq_comm]) rfl rfl

theorem red_lt (j : Fin (n + 1 - [(0 : ℤ)].length)) : (j : ℕ) < n := j.2

theorem rod_pull (hr : PeriodicRod d n h E A ρ) (hw : RodWave d n κ κ' refDof imaDof newNum T) (x : Fin (n + 1) → ℂ)
    (j : Fin (n + 1 - [(0 : ℤ)].length)) :
    T.conjTranspose.mulVec x j = x ⟨j, Nat.lt_succ_of_lt (red_lt j)⟩ +
      if (j : ℕ) = 0 then star (Complex.exp (Complex.I * ((κ * (n * h) : ℝ) : ℂ))) * x (Fin.last n) else 0 := by
  obtain ⟨h1, h2⟩ := rod_matrix hr hw
  simp only [Matrix.mulVec, dotProduct, Matrix.conjTranspose_apply]
  rw [Fin.sum_univ_castSucc, h2]
  congr 1
  · rw [Finset.sum_eq_single (⟨j, red_lt j⟩ : Fin n)]
    · rw [h1]
      simp
      rfl
    · intro c _ hc
      rw [h1, if_neg]
      · simp
      · intro e
        exact hc (Fin.ext e)
    · intro hc
      exact absurd (Finset.mem_univ _) hc
  · split <;> simp

theorem rod_push (hr : PeriodicRod d n h E A ρ) (hw : RodWave d n κ κ' refDof imaDof newNum T) {z : ℂ}
    (hz : z ^ n = Complex.exp (Complex.I * ((κ * (n * h) : ℝ) : ℂ))) :
    T.mulVec (fun j => z ^ (j : ℕ)) = fun i : Fin (n + 1) => z ^ (i : ℕ) := by
  obtain ⟨h1, h2⟩ := rod_matrix hr hw
  have hn := hw.cells
  funext i
  simp only [Matrix.mulVec, dotProduct]
  refine Fin.lastCases ?_ (fun c => ?_) i
  · rw [Finset.sum_eq_single (⟨0, by simp; omega⟩ : Fin (n + 1 - [(0 : ℤ)].length))]
    · rw [h2, if_pos rfl, Fin.val_last, hz]
      simp
    · intro c _ hc
      rw [h2, if_neg (fun e => hc (Fin.ext e)), zero_mul]
    · intro hc
      exact absurd (Finset.mem_univ _) hc
  · rw [Finset.sum_eq_single (⟨c, by simp⟩ : Fin (n + 1 - [(0 : ℤ)].length))]
    · rw [h1, if_pos rfl, one_mul, Fin.val_castSucc]
    · intro e _ he
      rw [h1, if_neg (fun e' => he (Fin.ext e'.symm)), zero_mul]
    · intro hc
      exact absurd (Finset.mem_univ _) hc

theorem Spec.PeriodicRod.stiff_complex (hr : PeriodicRod d n h E A ρ) (hs : SqrtFn sq) (hh : 0 < h)
    (h1 : dme d.cons d.elements = .ok (op, bc, n + 1))
    (h2 : assembler (Uel.eleFun sq) d.elements d.mats d.nodes (n + 1) op = .ok (Kg, Mg)) (f : ℕ → ℂ) (i : Fin (n + 1)) :
    (Kg.map Complex.ofReal).mulVec (fun p => f p) i = ((A * E / h : ℝ) : ℂ) * ((if 0 < (i : ℕ) then f i - f (i - 1) else 0) +
      if (i : ℕ) < n then f i - f (i + 1) else 0) := by
  rw [map_mulVec, hr.stiff_mul hs hh h1 h2 (fun p => (f p).re), hr.stiff_mul hs hh h1 h2 (fun p => (f p).im)]
  apply Complex.ext <;> simp only [Complex.re_ofReal_mul, Complex.im_ofReal_mul] <;> split_ifs <;> simp

theorem Spec.PeriodicRod.mass_complex (hr : PeriodicRod d n h E A ρ) (hs : SqrtFn sq) (hh : 0 < h)
    (h1 : dme d.cons d.elements = .ok (op, bc, n + 1))
    (h2 : assembler (Uel.eleFun sq) d.elements d.mats d.nodes (n + 1) op = .ok (Kg, Mg)) (f : ℕ → ℂ) (i : Fin (n + 1)) :
    (Mg.map Complex.ofReal).mulVec (fun p => f p) i = ((A * h * ρ / 6 : ℝ) : ℂ) * ((if 0 < (i : ℕ) then f (i - 1) + 2 * f i else 0) +
      if (i : ℕ) < n then 2 * f i + f (i + 1) else 0) := by
  rw [map_mulVec, hr.mass_mul hs hh h1 h2 (fun p => (f p).re), hr.mass_mul hs hh h1 h2 (fun p => (f p).im)]
  apply Complex.ext <;> simp only [Complex.re_ofReal_mul, Complex.im_ofReal_mul] <;> split_ifs <;> simp

/-- The angle from node to node of the `m`-th wave. -/
noncomputable def Spec.rodAngle (n : ℕ) (h κ : ℝ) (m : ℕ) : ℝ := κ * h + 2 * Real.pi * m / n

theorem turn_pow (hn : 0 < n) (m : ℕ) :
    Complex.exp (Complex.I * (rodAngle n h κ m : ℂ)) ^ n = Complex.exp (Complex.I * ((κ * (n * h) : ℝ) : ℂ)) := by
  rw [← Complex.exp_nat_mul, Complex.exp_eq_exp_iff_exists_int]
  refine ⟨m, ?_⟩
  have : (n : ℂ) ≠ 0 := by exact_mod_cast hn.ne'
  unfold rodAngle
  push_cast
  field_simp

theorem turn_inv (θ : ℝ) : Complex.exp (Complex.I * (θ : ℂ)) + (Complex.exp (Complex.I * (θ : ℂ)))⁻¹ = ((2 * Real.cos θ : ℝ) : ℂ) := by
  rw [← Complex.exp_neg]
  push_cast
  rw [Complex.cos]
  ring_nf

/-- C144.  The waves: the reduced matrices act on the values `exp(i θ p)` as multiplication by a number. -/
theorem C144_waves (hr : PeriodicRod d n h E A ρ) (hs : SqrtFn sq) (hh : 0 < h) (h1 : dme d.cons d.elements = .ok (op, bc, n + 1))
    (h2 : assembler (Uel.eleFun sq) d.elements d.mats d.nodes (n + 1) op = .ok (Kg, Mg))
    (hw : RodWave d n κ κ' refDof imaDof newNum T) (m : ℕ) :
    let θ := rodAngle n h κ m
    let q : Fin (n + 1 - [(0 : ℤ)].length) → ℂ := fun j => Complex.exp (Complex.I * (θ : ℂ)) ^ (j : ℕ)
    (T.mulVec q = fun i : Fin (n + 1) => Complex.exp (Complex.I * (θ : ℂ)) ^ (i : ℕ)) ∧
    (T.conjTranspose * Kg.map Complex.ofReal * T).mulVec q = ((A * E / h * (2 * (1 - Real.cos θ)) : ℝ) : ℂ) • q ∧
    (T.conjTranspose * Mg.map Complex.ofReal * T).mulVec q = ((A * h * ρ / 3 * (2 + Real.cos θ) : ℝ) : ℂ) • q := by
  intro θ q
  have hpow := turn_pow (h := h) (κ := κ) hw.cells m
  have hcos := turn_inv θ
  have hq : q = fun j : Fin _ => Complex.exp (Complex.I * (θ : ℂ)) ^ (j : ℕ) := rfl
  have hz0 : Complex.exp (Complex.I * (θ : ℂ)) ≠ 0 := Complex.exp_ne_zero _
  have hst : ∀ k : ℕ, star (Complex.exp (Complex.I * (θ : ℂ)) ^ k) * Complex.exp (Complex.I * (θ : ℂ)) ^ k = 1 := by
    intro k
    rw [star_pow, ← mul_pow, star_phase, one_pow]
  have hTq := rod_push hr hw hpow
  change Complex.exp (Complex.I * (θ : ℂ)) ^ n = _ at hpow
  refine ⟨hTq, ?_, ?_⟩
  · rw [← Matrix.mulVec_mulVec, ← Matrix.mulVec_mulVec, hTq]
    funext j
    rw [rod_pull hr hw, ← hpow]
    have hn := hw.cells
    have hst := hst n
    rw [hr.stiff_complex hs hh h1 h2 (fun p => Complex.exp (Complex.I * (θ : ℂ)) ^ p),
      hr.stiff_complex hs hh h1 h2 (fun p => Complex.exp (Complex.I * (θ : ℂ)) ^ p), Pi.smul_apply, hq, smul_eq_mul]
    have hj : (j : ℕ) < n := red_lt j
    simp only [Fin.val_last, lt_irrefl, if_false, if_pos hj, if_pos hn, add_zero]
    obtain ⟨k, rfl⟩ : ∃ k, n = k + 1 := ⟨n - 1, by omega⟩
    rw [Nat.add_sub_cancel]
    have hc2 : ((Real.cos θ : ℝ) : ℂ) = (Complex.exp (Complex.I * (θ : ℂ)) + (Complex.exp (Complex.I * (θ : ℂ)))⁻¹) / 2 := by
      rw [hcos]
      push_cast
      ring
    generalize Complex.exp (Complex.I * (θ : ℂ)) = z at *
    rw [pow_succ] at hst
    push_cast
    push_cast at hc2
    rw [hc2]
    by_cases h0 : (j : ℕ) = 0
    · rw [if_pos h0, h0]
      simp only [lt_irrefl, if_false, pow_zero, zero_add, pow_one]
      have e : star (z ^ k * z) * (z ^ k * z - z ^ k) = 1 - z⁻¹ := by
        have : star (z ^ k * z) * (z ^ k * z - z ^ k) = star (z ^ k * z) * (z ^ k * z) * (1 - z⁻¹) := by
          field_simp
        rw [this, hst, one_mul]
      rw [pow_succ]
      linear_combination (A : ℂ) * E / h * e
    · rw [if_neg h0, if_pos (by omega), add_zero]
      obtain ⟨l, hl⟩ : ∃ l, (j : ℕ) = l + 1 := ⟨(j : ℕ) - 1, by omega⟩
      rw [hl, Nat.add_sub_cancel]
      field_simp
      ring
  · rw [← Matrix.mulVec_mulVec, ← Matrix.mulVec_mulVec, hTq]
    funext j
    rw [rod_pull hr hw, ← hpow]
    have hn := hw.cells
    have hst := hst n
    rw [hr.mass_complex hs hh h1 h2 (fun p => Complex.exp (Complex.I * (θ : ℂ)) ^ p),
      hr.mass_complex hs hh h1 h2 (fun p => Complex.exp (Complex.I * (θ : ℂ)) ^ p), Pi.smul_apply, hq, smul_eq_mul]
    have hj : (j : ℕ) < n := red_lt j
    simp only [Fin.val_last, lt_irrefl, if_false, if_pos hj, if_pos hn, add_zero]
    obtain ⟨k, rfl⟩ : ∃ k, n = k + 1 := ⟨n - 1, by omega⟩
    rw [Nat.add_sub_cancel]
    have hc2 : ((Real.cos θ : ℝ) : ℂ) = (Complex.exp (Complex.I * (θ : ℂ)) + (Complex.exp (Complex.I * (θ : ℂ)))⁻¹) / 2 := by
      rw [hcos]
      push_cast
      ring
    generalize Complex.exp (Complex.I * (θ : ℂ)) = z at *
    rw [pow_succ] at hst
    push_cast
    push_cast at hc2
    rw [hc2]
    by_cases h0 : (j : ℕ) = 0
    · rw [if_pos h0, h0]
      simp only [lt_irrefl, if_false, pow_zero, zero_add, pow_one]
      have e : star (z ^ k * z) * (z ^ k + 2 * (z ^ k * z)) = z⁻¹ + 2 := by
        have : star (z ^ k * z) * (z ^ k + 2 * (z ^ k * z)) = star (z ^ k * z) * (z ^ k * z) * (z⁻¹ + 2) := by
          field_simp
        rw [this, hst, one_mul]
      rw [pow_succ]
      linear_combination (A : ℂ) * h * ρ / 6 * e
    · rw [if_neg h0, if_pos (by omega), add_zero]
      obtain ⟨l, hl⟩ : ∃ l, (j : ℕ) = l + 1 := ⟨(j : ℕ) - 1, by omega⟩
      rw [hl, Nat.add_sub_cancel]
      field_simp
      ring

theorem turn_distinct (hn : 0 < n) : Function.Injective fun m : Fin n => Complex.exp (Complex.I * (rodAngle n h κ m : ℂ)) := by
  intro a b hab
  have key : ∀ m : ℕ, Complex.exp (Complex.I * (rodAngle n h κ m : ℂ)) =
      Complex.exp (Complex.I * ((κ * h : ℝ) : ℂ)) * Complex.exp (2 * Real.pi * Complex.I / n) ^ m := by
    intro m
    rw [← Complex.exp_nat_mul, ← Complex.exp_add]
    congr 1
    unfold rodAngle
    push_cast
    ring
  dsimp only at hab
  rw [key, key] at hab
  have := mul_left_cancel₀ (Complex.exp_ne_zero _) hab
  exact Fin.ext ((Complex.isPrimitiveRoot_exp n hn.ne').pow_inj a.2 b.2 this)

/-- C144.  The frequencies of the rod for a given wave vector: one for each of the `n` waves of the cell, and no others. -/
theorem C144_frequencies (hr : PeriodicRod d n h E A ρ) (hs : SqrtFn sq) (hh : 0 < h) (hA : 0 < A) (hρ : 0 < ρ)
    (h1 : dme d.cons d.elements = .ok (op, bc, n + 1))
    (h2 : assembler (Uel.eleFun sq) d.elements d.mats d.nodes (n + 1) op = .ok (Kg, Mg))
    (hw : RodWave d n κ κ' refDof imaDof newNum T) (w : ℂ) :
    (∃ q : Fin (n + 1 - [(0 : ℤ)].length) → ℂ, q ≠ 0 ∧ (T.conjTranspose * Kg.map Complex.ofReal * T).mulVec q =
      w • (T.conjTranspose * Mg.map Complex.ofReal * T).mulVec q) ↔
    ∃ m < n, w = ((waveFreq h E ρ (rodAngle n h κ m) : ℝ) : ℂ) := by
  have hn := hw.cells
  have hmu : ∀ m : ℕ, A * h * ρ / 3 * (2 + Real.cos (rodAngle n h κ m)) ≠ 0 := by
    intro m
    have := Real.neg_one_le_cos (rodAngle n h κ m)
    have : 0 < 2 + Real.cos (rodAngle n h κ m) := by linarith
    positivity
  have hfreq : ∀ m : ℕ, A * E / h * (2 * (1 - Real.cos (rodAngle n h κ m))) =
      waveFreq h E ρ (rodAngle n h κ m) * (A * h * ρ / 3 * (2 + Real.cos (rodAngle n h κ m))) := by
    intro m
    have := Real.neg_one_le_cos (rodAngle n h κ m)
    have : 2 + Real.cos (rodAngle n h κ m) ≠ 0 := by linarith
    unfold waveFreq
    field_simp
    ring
  constructor
  · rintro ⟨q, hq, he⟩
    let q' : Fin n → ℂ := q
    let V : Matrix (Fin n) (Fin n) ℂ := (vandermonde fun m : Fin n => Complex.exp (Complex.I * (rodAngle n h κ m : ℂ))).transpose
    have hdet : IsUnit V.det := by
      rw [Matrix.det_transpose, isUnit_iff_ne_zero, det_vandermonde_ne_zero_iff]
      exact turn_distinct hn
    let c : Fin n → ℂ := V⁻¹.mulVec q'
    have hc : V.mulVec c = q' := by
      rw [Matrix.mulVec_mulVec, Matrix.mul_nonsing_inv _ hdet, Matrix.one_mulVec]
    have act : ∀ (B : Matrix (Fin (n + 1 - [(0 : ℤ)].length)) (Fin (n + 1 - [(0 : ℤ)].length)) ℂ) (l : Fin n → ℂ),
        (∀ m : Fin n, B.mulVec (fun j : Fin _ => Complex.exp (Complex.I * (rodAngle n h κ m : ℂ)) ^ (j : ℕ)) =
          l m • fun j : Fin _ => Complex.exp (Complex.I * (rodAngle n h κ m : ℂ)) ^ (j : ℕ)) →
        (B.mulVec q : Fin n → ℂ) = V.mulVec fun m => l m * c m := by
      intro B l hB
      have hsum : ∀ x : Fin n → ℂ, V.mulVec x =
          ∑ m, x m • fun j : Fin n => Complex.exp (Complex.I * (rodAngle n h κ m : ℂ)) ^ (j : ℕ) := by
        intro x
        funext j
        rw [Finset.sum_apply]
        simp only [V, Matrix.mulVec, dotProduct, Matrix.transpose_apply, vandermonde_apply, Pi.smul_apply, smul_eq_mul]
        exact Finset.sum_congr rfl fun m _ => mul_comm _ _
      have hq' : q = ∑ m : Fin n, c m • fun j : Fin (n + 1 - [(0 : ℤ)].length) =>
          Complex.exp (Complex.I * (rodAngle n h κ m : ℂ)) ^ (j : ℕ) := by
        have := hsum c
        rw [hc] at this
        exact this
      rw [hsum, hq', Matrix.mulVec_sum]
      refine Finset.sum_congr rfl fun m _ => ?_
      rw [Matrix.mulVec_smul, hB m, smul_smul, mul_comm]
      rfl
    have e1 := act _ (fun m => ((A * E / h * (2 * (1 - Real.cos (rodAngle n h κ m))) : ℝ) : ℂ)) fun m =>
      (C144_waves hr hs hh h1 h2 hw m).2.1
    have e2 := act _ (fun m => ((A * h * ρ / 3 * (2 + Real.cos (rodAngle n h κ m)) : ℝ) : ℂ)) fun m =>
      (C144_waves hr hs hh h1 h2 hw m).2.2
    have e3 : V.mulVec (fun m => ((A * E / h * (2 * (1 - Real.cos (rodAngle n h κ m))) : ℝ) : ℂ) * c m) =
        w • V.mulVec (fun m => ((A * h * ρ / 3 * (2 + Real.cos (rodAngle n h κ m)) : ℝ) : ℂ) * c m) := by
      rw [← e1, ← e2]
      exact he
    have hc0 : c ≠ 0 := by
      intro h0
      rw [h0, Matrix.mulVec_zero] at hc
      exact hq hc.symm
    obtain ⟨m, hm⟩ := Function.ne_iff.1 hc0
    refine ⟨m, m.2, ?_⟩
    rw [← Matrix.mulVec_smul] at e3
    have inj := Matrix.mulVec_injective_iff_isUnit.2 ((Matrix.isUnit_iff_isUnit_det _).2 hdet)
    have e4 := congrFun (inj e3) m
    simp only [Pi.smul_apply, smul_eq_mul] at e4
    rw [hfreq m] at e4
    push_cast at e4 ⊢
    have hm' : (A * h * ρ / 3 * (2 + Complex.cos (rodAngle n h κ m)) : ℂ) ≠ 0 := by exact_mod_cast hmu m
    have : ((A * h * ρ / 3 * (2 + Complex.cos (rodAngle n h κ m))) * c m) * (w - (waveFreq h E ρ (rodAngle n h κ m) : ℂ)) = 0 := by
      linear_combination -e4
    have := (mul_eq_zero.1 this).resolve_left (mul_ne_zero hm' hm)
    exact sub_eq_zero.1 this
  · rintro ⟨m, hm, rfl⟩
    obtain ⟨-, a1, a2⟩ := C144_waves hr hs hh h1 h2 hw m
    refine ⟨fun j : Fin _ => Complex.exp (Complex.I * (rodAngle n h κ m : ℂ)) ^ (j : ℕ), ?_, ?_⟩
    · intro h0
      have := congrFun h0 ⟨0, hn⟩
      simp at this
    · rw [a1, a2, smul_smul, hfreq m, Complex.ofReal_mul]

/-- C144.  Everything is computed: the matrices of the rod, the numbers of `reassign_dof_bloch` and the transformation. -/
theorem C144_returns (hr : PeriodicRod d n h E A ρ) (hs : SqrtFn sq) (hh : 0 < h) (hn : 0 < n) (κ κ' : ℝ)
    (hrd : refDof 0 = some [0]) (him : imaDof n = some [(n : ℤ)]) :
    ∃ op bc Kg Mg newNum T, dme d.cons d.elements = .ok (op, bc, n + 1) ∧
      assembler (Uel.eleFun sq) d.elements d.mats d.nodes (n + 1) op = .ok (Kg, Mg) ∧
      RodWave d n κ κ' refDof imaDof newNum T := by
  obtain ⟨ms, hms⟩ := hr.held.exists_members hs hh
  obtain ⟨op, bc, neq, Kg, Mg, h1, h2⟩ := plane_assembly hr.model hr.wf (ms := ms) hms
  obtain ⟨rfl, -⟩ := hr.numbering h1
  obtain ⟨newNum, hN⟩ := C83_total (n + 1) (ima := [(n : ℤ)]) (ref := [0]) le_rfl
  obtain ⟨hl, hlow, hlast⟩ := rod_numbers hn hN
  refine ⟨op, bc, Kg, Mg, newNum, ?_⟩
  suffices h : ∃ T, blochTransformMat [κ, κ'] (d.nodes.map (List.drop 1)) (n + 1) [0] [(n : ℤ)] [0] [(n : ℤ)] refDof imaDof newNum = .ok T by
    obtain ⟨T, hT⟩ := h
    exact ⟨T, h1, h2, hn, hrd, him, hN, hT⟩
  obtain ⟨x, y, hpl⟩ := hr.place
  obtain ⟨i0, p0⟩ := hpl 0 (by omega)
  obtain ⟨i1, p1⟩ := hpl n le_rfl
  unfold blochTransformMat
  obtain ⟨inner, hin⟩ : ∃ inner, innerEntries (n + 1) [(n : ℤ)] newNum = .ok inner := by
    unfold innerEntries
    refine mapM_exists.2 fun e he => ?_
    have he : e < n + 1 := by simp at he; omega
    exact ⟨_, bind_ok.2 ⟨_, pyGet_nat.2 (List.getElem?_eq_getElem (by omega)), rfl⟩⟩
  have hb : blochPair [κ, κ'] (d.nodes.map (List.drop 1)) refDof imaDof newNum ((n : ℤ), 0) =
      .ok [((n : ℤ), 0, Complex.exp (Complex.I * ((([κ * (x + n * h - (x + (0 : ℕ) * h)), κ' * (y - y)] : List ℝ).sum : ℝ) : ℂ)))] := by
    unfold blochPair
    dsimp only
    have g1 : (d.nodes.map (List.drop 1))[n]? = some [x + n * h, y] := by simp [p1]
    have g0 : (d.nodes.map (List.drop 1))[0]? = some [x + (0 : ℕ) * h, y] := by simp [p0]
    rw [pyGet_nat.2 g1, ok_bind, pyGet_zero.2 g0, ok_bind]
    rw [hrd, him]
    have hz : newNum[0]? = some 0 := hlow 0 hn
    simp [dot, ok_bind, pyGet_zero.2 hz]
  rw [hin, ok_bind, List.zip_cons_cons, List.zip_nil_left, mapM_ok.2 (.cons hb .nil), ok_bind]
  dsimp only
  rw [if_neg (by simp)]
  unfold cooMatrix
  have hall : ((inner ++ [[((n : ℤ), (0 : ℤ), Complex.exp (Complex.I * ((([κ * (x + n * h - (x + (0 : ℕ) * h)), κ' * (y - y)] : List ℝ).sum : ℝ) : ℂ)))]].flatten).all
      fun t => decide (0 ≤ t.1 ∧ t.1 < ((n + 1 : ℕ) : ℤ) ∧ 0 ≤ t.2.1 ∧ t.2.1 < ((n + 1 - [(0 : ℤ)].length : ℕ) : ℤ))) = true := by
    rw [List.all_eq_true]
    intro t ht
    rw [decide_eq_true_eq]
    rcases List.mem_append.1 ht with ht | ht
    · unfold innerEntries at hin
      obtain ⟨k, hk, rfl⟩ := List.mem_iff_getElem.1 ht
      have hf := mapM_ok.1 hin
      have hk' := hf.length_eq
      have := hf.get (i := k) (by omega) hk
      rw [List.get_eq_getElem, List.get_eq_getElem] at this
      obtain ⟨v, g1, g2⟩ := bind_ok.1 this
      have hm := List.getElem_mem (l := List.filter (fun d : ℕ => decide ((d : ℤ) ∉ [(n : ℤ)])) (List.range (n + 1))) (n := k) (by omega)
      rw [List.mem_filter] at hm
      generalize (List.filter (fun d : ℕ => decide ((d : ℤ) ∉ [(n : ℤ)])) (List.range (n + 1)))[k] = e at *
      simp at hm
      rw [pyGet_nat, hlow e (by omega), Option.some.injEq] at g1
      rw [← pure_ok.1 g2, ← g1]
      simp
      omega
    · simp at ht
      rw [ht]
      simp
      omega
  exact ⟨_, if_pos hall⟩

end

/-- C144.  Computing with a cell of `n` bars instead of one changes nothing but the wave vectors: its frequencies are those of the
cell of one bar at the wave vectors `κ + 2 π m / (n h)`. -/
theorem C144_folding {sq : ℝ → ℝ} {d d' : Gui.Data ℝ} {n : ℕ} {h E A A' ρ κ κ' : ℝ} {op bc op' bc' : List (List ℤ)}
    {refDof imaDof refDof' imaDof' : ℤ → Option (List ℤ)} {newNum newNum' : List ℤ}
    {T : Matrix (Fin (n + 1)) (Fin (n + 1 - [(0 : ℤ)].length)) ℂ} {Kg Mg : Matrix (Fin (n + 1)) (Fin (n + 1)) ℝ}
    {T' : ℕ → Matrix (Fin (1 + 1)) (Fin (1 + 1 - [(0 : ℤ)].length)) ℂ} {Kg' Mg' : Matrix (Fin (1 + 1)) (Fin (1 + 1)) ℝ}
    (hs : SqrtFn sq) (hh : 0 < h) (hA : 0 < A) (hA' : 0 < A') (hρ : 0 < ρ)
    (hr : PeriodicRod d n h E A ρ) (h1 : dme d.cons d.elements = .ok (op, bc, n + 1))
    (h2 : assembler (Uel.eleFun sq) d.elements d.mats d.nodes (n + 1) op = .ok (Kg, Mg))
    (hw : RodWave d n κ κ' refDof imaDof newNum T)
    (hr' : PeriodicRod d' 1 h E A' ρ) (h1' : dme d'.cons d'.elements = .ok (op', bc', 1 + 1))
    (h2' : assembler (Uel.eleFun sq) d'.elements d'.mats d'.nodes (1 + 1) op' = .ok (Kg', Mg'))
    (hw' : ∀ m < n, RodWave d' 1 (κ + 2 * Real.pi * m / (n * h)) κ' refDof' imaDof' newNum' (T' m)) (w : ℂ) :
    (∃ q : Fin (n + 1 - [(0 : ℤ)].length) → ℂ, q ≠ 0 ∧ (T.conjTranspose * Kg.map Complex.ofReal * T).mulVec q =
      w • (T.conjTranspose * Mg.map Complex.ofReal * T).mulVec q) ↔
    ∃ m < n, ∃ q : Fin (1 + 1 - [(0 : ℤ)].length) → ℂ, q ≠ 0 ∧ ((T' m).conjTranspose * Kg'.map Complex.ofReal * T' m).mulVec q =
      w • ((T' m).conjTranspose * Mg'.map Complex.ofReal * T' m).mulVec q := by
  have hn : (n : ℝ) ≠ 0 := by exact_mod_cast hw.cells.ne'
  rw [C144_frequencies hr hs hh hA hρ h1 h2 hw]
  refine exists_congr fun m => and_congr_right fun hm => ?_
  rw [C144_frequencies hr' hs hh hA' hρ h1' h2' (hw' m hm)]
  have key : rodAngle n h κ m = rodAngle 1 h (κ + 2 * Real.pi * m / (n * h)) 0 := by
    unfold rodAngle
    field_simp
    simp
  rw [key]
  constructor
  · exact fun e => ⟨0, by omega, e⟩
  · rintro ⟨k, hk, e⟩
    obtain rfl : k = 0 := by omega
    exact e

/-- C144.  The frequency is never below that of the continuous rod with the same wave number, and above it by no more than the
stated factor. -/
theorem C144_bounds {h E ρ k : ℝ} (hh : 0 < h) (hE : 0 < E) (hρ : 0 < ρ) (hk : |k * h| ≤ Real.pi) :
    E / ρ * k ^ 2 ≤ waveFreq h E ρ (k * h) ∧
    ((k * h) ^ 2 < 6 → waveFreq h E ρ (k * h) ≤ E / ρ * k ^ 2 / (1 - (k * h) ^ 2 / 6)) := by
  have hx : k ^ 2 = |k * h| ^ 2 / h ^ 2 := by
    rw [sq_abs]
    field_simp
  have hf : waveFreq h E ρ (k * h) = E / ρ * (6 * (1 - Real.cos |k * h|) / (2 + Real.cos |k * h|) / h ^ 2) := by
    unfold waveFreq
    rw [Real.cos_abs]
  rw [hf, ← sq_abs (k * h), hx]
  have h0 := abs_nonneg (k * h)
  generalize |k * h| = x at *
  refine ⟨?_, fun h6 => ?_⟩
  · have := sq_le_chain h0 hk
    gcongr
  · have e1 : 6 * (1 - Real.cos x) / (2 + Real.cos x) ≤ x ^ 2 / (1 - x ^ 2 / 6) := by
      have c0 := Real.neg_one_le_cos x
      have c1 := Real.one_sub_sq_div_two_le_cos (x := x)
      rw [div_le_div_iff₀ (by linarith) (by linarith)]
      nlinarith [sq_nonneg x]
    have e2 : E / ρ * (x ^ 2 / h ^ 2) / (1 - x ^ 2 / 6) = E / ρ * (x ^ 2 / (1 - x ^ 2 / 6) / h ^ 2) := by
      ring
    rw [e2]
    gcongr

/-- C144.  Long waves travel at the speed of the continuous rod. -/
theorem C144_speed {h E ρ : ℝ} (hh : 0 < h) :
    Filter.Tendsto (fun k : ℝ => waveFreq h E ρ (k * h) / k ^ 2) (nhdsWithin 0 {0}ᶜ) (nhds (E / ρ)) := by
  have hx : Filter.Tendsto (fun k : ℝ => k * h) (nhdsWithin 0 {0}ᶜ) (nhdsWithin 0 {0}ᶜ) := by
    rw [tendsto_nhdsWithin_iff]
    constructor
    · have : Filter.Tendsto (fun k : ℝ => k * h) (nhds 0) (nhds (0 * h)) := (continuous_mul_const h).tendsto 0
      rw [zero_mul] at this
      exact this.mono_left nhdsWithin_le_nhds
    · filter_upwards [self_mem_nhdsWithin] with k hk
      exact mul_ne_zero hk hh.ne'
  have := (chain_limit.comp hx).const_mul (E / ρ)
  rw [mul_one] at this
  refine this.congr' ?_
  filter_upwards [self_mem_nhdsWithin] with k hk
  have hk : k ≠ 0 := hk
  simp only [Function.comp_apply, waveFreq]
  generalize 6 * (1 - Real.cos (k * h)) / (2 + Real.cos (k * h)) = y
  field_simp

/-- A rod of any number of bars. -/
noncomputable def testRod (n : ℕ) (h E A ρ : ℝ) : Gui.Data ℝ :=
  { testBar n h E A ρ with cons := List.replicate (n + 1) [0, -1] }

theorem testRod_periodic (n : ℕ) (h E A ρ : ℝ) : PeriodicRod (testRod n h E A ρ) n h E A ρ :=
  have hb := testBar_uniform n h E A ρ
  ⟨hb.count, hb.place, hb.bars, hb.bar, hb.material, rfl⟩

/-- Three bars of length one at the wave number `π / 3`: the frequencies are `12`, `6 / 5` and `6 / 5`. -/
example : ∃ op bc Kg Mg newNum T,
    dme (testRod 3 1 1 1 1).cons (testRod 3 1 1 1 1).elements = .ok (op, bc, 3 + 1) ∧
    assembler (Uel.eleFun Real.sqrt) (testRod 3 1 1 1 1).elements (testRod 3 1 1 1 1).mats (testRod 3 1 1 1 1).nodes (3 + 1) op = .ok (Kg, Mg) ∧
    RodWave (testRod 3 1 1 1 1) 3 (Real.pi / 3) 0 (fun z => if z = 0 then some [0] else none) (fun z => if z = 3 then some [3] else none) newNum T ∧
    ∀ w : ℂ, (∃ q : Fin (3 + 1 - [(0 : ℤ)].length) → ℂ, q ≠ 0 ∧ (T.conjTranspose * Kg.map Complex.ofReal * T).mulVec q =
      w • (T.conjTranspose * Mg.map Complex.ofReal * T).mulVec q) ↔ w = 12 ∨ w = 6 / 5 := by
  obtain ⟨op, bc, Kg, Mg, newNum, T, h1, h2, hw⟩ := C144_returns (refDof := fun z => if z = 0 then some [0] else none)
    (imaDof := fun z => if z = 3 then some [3] else none) (testRod_periodic 3 1 1 1 1) sqrtFn_real one_pos (by omega) (Real.pi / 3) 0
    (by simp) (by simp)
  refine ⟨op, bc, Kg, Mg, newNum, T, h1, h2, hw, fun w => ?_⟩
  rw [C144_frequencies (testRod_periodic 3 1 1 1 1) sqrtFn_real one_pos one_pos one_pos h1 h2 hw]
  have a0 : waveFreq 1 1 1 (rodAngle 3 1 (Real.pi / 3) 0) = 6 / 5 := by
    have : rodAngle 3 1 (Real.pi / 3) 0 = Real.pi / 3 := by unfold rodAngle; simp
    rw [this]
    unfold waveFreq
    rw [Real.cos_pi_div_three]
    norm_num
  have a1 : waveFreq 1 1 1 (rodAngle 3 1 (Real.pi / 3) 1) = 12 := by
    have : rodAngle 3 1 (Real.pi / 3) 1 = Real.pi := by unfold rodAngle; push_cast; ring
    rw [this]
    unfold waveFreq
    rw [Real.cos_pi]
    norm_num
  have a2 : waveFreq 1 1 1 (rodAngle 3 1 (Real.pi / 3) 2) = 6 / 5 := by
    have : rodAngle 3 1 (Real.pi / 3) 2 = 2 * Real.pi - Real.pi / 3 := by unfold rodAngle; push_cast; ring
    rw [this]
    unfold waveFreq
    rw [Real.cos_two_pi_sub, Real.cos_pi_div_three]
    norm_num
  constructor
  · rintro ⟨m, hm, rfl⟩
    rcases (by omega : m = 0 ∨ m = 1 ∨ m = 2) with rfl | rfl | rfl
    · right; rw [a0]; push_cast; rfl
    · left; rw [a1]; push_cast; rfl
    · right; rw [a2]; push_cast; rfl
  · rintro (rfl | rfl)
    · exact ⟨1, by omega, by rw [a1]; push_cast; rfl⟩
    · exact ⟨0, by omega, by rw [a0]; push_cast; rfl⟩

end SolidsPy
