import Verif.Props.Acoustic
import Verif.Props.BandScale
import Verif.Props.Wellposed

/-! # C183: motions of the cell without forces -/

set_option linter.unusedSectionVars false

namespace SolidsPy
open Spec Assem Bloch Matrix
open scoped ComplexOrder

section
variable {neq D : ℕ} {Kg Mg : Matrix (Fin neq) (Fin neq) ℝ} {nodesRef nodesIma dofsRef dofsIma : List ℤ} {refDof imaDof : ℤ → Option (List ℤ)}
  {newNum : List ℤ} {coords : List (List ℝ)} {l : (Fin D → ℝ) → Fin (neq - dofsRef.length) → ℝ}

/-- A displacement with equal values at images and references is a Bloch vector of the wave vector zero. -/
theorem bloch_in_phase (ht : Tied neq nodesRef nodesIma dofsRef dofsIma refDof imaDof newNum) {T : Matrix (Fin neq) (Fin (neq - dofsRef.length)) ℂ}
    (hT : blochTransformMat (List.ofFn (0 : Fin D → ℝ)) coords neq nodesRef nodesIma dofsRef dofsIma refDof imaDof newNum = .ok T)
    {v : Fin neq → ℂ} (hv : ∀ x ∈ links nodesIma nodesRef refDof imaDof, ∀ i r : Fin neq, x.ima = ((i : ℕ) : ℤ) → x.ref = ((r : ℕ) : ℤ) → v i = v r) :
    ∃ q, T.mulVec q = v := by
  choose e he hk hn using ht.onto
  obtain ⟨r1, r2⟩ := bloch_rows hT ht.pairing
  have kept : ∀ (i : Fin neq) (c : Fin (neq - dofsRef.length)), ((i : ℕ) : ℤ) ∉ dofsIma → newNum[(i : ℕ)]? = some ((c : ℕ) : ℤ) →
      v ⟨e c, he c⟩ = v i := fun i c hi hc => by
    have : e c = i := ht.once _ _ (he c) i.2 (hk c) hi (by rw [hn, hc])
    congr 1
    exact Fin.ext this
  refine ⟨fun c => v ⟨e c, he c⟩, funext fun i => ?_⟩
  by_cases hi : ((i : ℕ) : ℤ) ∈ dofsIma
  · obtain ⟨x, hx, hxi⟩ := ht.pairing.all i i.2 hi
    obtain ⟨d, r, φ, f1, f2, f3, c, f4, f5⟩ := r2 x hx
    obtain rfl : d = i := Fin.ext (by exact_mod_cast f1.symm.trans hxi)
    obtain ⟨ki, kr, xi, xr, -, -, -, -, rfl⟩ := shift_ofFn f3
    rw [hv x hx _ _ f1 f2, ← kept r c (by rw [← f2]; exact (ht.pairing.source x hx).1) f4, Matrix.mulVec, dotProduct]
    simp [f5]
  · obtain ⟨c, f1, f2⟩ := r1 i hi
    rw [← kept i c hi f1, Matrix.mulVec, dotProduct]
    simp [f2]

theorem branches_mechanisms (hK : Kg.IsSymm) (hM : Mg.IsSymm ∧ ∀ v, v ≠ 0 → 0 < v ⬝ᵥ Mg.mulVec v)
    (ht : Tied neq nodesRef nodesIma dofsRef dofsIma refDof imaDof newNum)
    (hb : Branches D Kg Mg coords nodesRef nodesIma dofsRef dofsIma refDof imaDof newNum l) {r : ℕ} {v : Fin r → Fin neq → ℝ}
    (hv : LinearIndependent ℝ v) (h0 : ∀ a, Kg.mulVec (v a) = 0)
    (he : ∀ a, ∀ x ∈ links nodesIma nodesRef refDof imaDof, ∀ i s : Fin neq, x.ima = ((i : ℕ) : ℤ) → x.ref = ((s : ℕ) : ℤ) → v a i = v a s) :
    ∃ C : ℝ, 0 ≤ C ∧ ∀ (κ : Fin D → ℝ) (k : Fin (neq - dofsRef.length)), (k : ℕ) < r → l κ k ≤ C * ∑ s, κ s ^ 2 := by
  obtain ⟨T, -, hT, -⟩ := hb 0
  choose q hq using fun a => bloch_in_phase ht hT (v := fun i => (v a i : ℂ)) fun x hx i s h1 h2 => by rw [he a x hx i s h1 h2]
  refine branches_acoustic hK hM ht hb hT (v := q) ?_ fun a => ?_
  · rw [Fintype.linearIndependent_iff] at hv ⊢
    intro c hc a
    have e : ∀ i, ∑ b, c b * (v b i : ℂ) = 0 := fun i => by
      have := congrFun (congrArg T.mulVec hc) i
      rw [Matrix.mulVec_sum, Finset.sum_apply, Matrix.mulVec_zero, Pi.zero_apply] at this
      simpa only [Matrix.mulVec_smul, Pi.smul_apply, hq, smul_eq_mul] using this
    refine Complex.ext (hv (fun b => (c b).re) (funext fun i => ?_) a) (hv (fun b => (c b).im) (funext fun i => ?_) a)
    · have := congrArg Complex.re (e i)
      simpa [Complex.re_sum] using this
    · have := congrArg Complex.im (e i)
      simpa [Complex.im_sum] using this
  · rw [hq]
    funext i
    have := congrFun (h0 a) i
    simp only [Matrix.mulVec, dotProduct, Matrix.map_apply, Pi.zero_apply] at this ⊢
    exact_mod_cast this

end

section
variable {sq : ℝ → ℝ} {d : Gui.Data ℝ} {neq D : ℕ} {Kg Mg : Matrix (Fin neq) (Fin neq) ℝ} {ks ms : List (Member ℝ)}
  {nodesRef nodesIma dofsRef dofsIma : List ℤ} {refDof imaDof : ℤ → Option (List ℤ)} {newNum : List ℤ} {coords : List (List ℝ)}
  {l : (Fin D → ℝ) → Fin (neq - dofsRef.length) → ℝ}

/-- C183.  Plane cells of any elements, trusses and supported cells among them: every motion of the cell without forces, equal at images and
references, gives a branch that stays below a multiple of the square of the wave vector. -/
theorem C183_mechanisms (hs : SqrtFn sq) (h : Vibrating sq d ks ms Kg Mg) (ht : Tied neq nodesRef nodesIma dofsRef dofsIma refDof imaDof newNum)
    (hb : Branches D Kg Mg coords nodesRef nodesIma dofsRef dofsIma refDof imaDof newNum l) {r : ℕ} {v : Fin r → Fin neq → ℝ}
    (hv : LinearIndependent ℝ v) (h0 : ∀ a, Kg.mulVec (v a) = 0)
    (he : ∀ a, ∀ x ∈ links nodesIma nodesRef refDof imaDof, ∀ i s : Fin neq, x.ima = ((i : ℕ) : ℤ) → x.ref = ((s : ℕ) : ℤ) → v a i = v a s) :
    ∃ C : ℝ, 0 ≤ C ∧ ∀ (κ : Fin D → ℝ) (k : Fin (neq - dofsRef.length)), (k : ℕ) < r → l κ k ≤ C * ∑ s, κ s ^ 2 :=
  branches_mechanisms (h.stiff hs) (h.mass hs) ht hb hv h0 he

end

/-- Case for C183: the rod of `n` bars moves along its axis without forces, so its first branch stays below `C |κ|²`. -/
example (n : ℕ) (hn : 0 < n) : ∃ (Kg Mg : Matrix (Fin (n + 1)) (Fin (n + 1)) ℝ) (newNum : List ℤ) (ks ms : List (Member ℝ))
    (l : (Fin 2 → ℝ) → Fin (n + 1 - [(0 : ℤ)].length) → ℝ), Vibrating Real.sqrt (testRod n 1 1 1 1) ks ms Kg Mg ∧
    Branches 2 Kg Mg ((testRod n 1 1 1 1).nodes.map (List.drop 1)) [0] [(n : ℤ)] [0] [(n : ℤ)] (fun z => if z = 0 then some [0] else none)
      (fun z => if z = n then some [(n : ℤ)] else none) newNum l ∧
    (Kg.mulVec fun _ => 1) = 0 ∧ ∃ C : ℝ, 0 ≤ C ∧ ∀ κ, l κ ⟨0, by simpa using hn⟩ ≤ C * ∑ s, κ s ^ 2 := by
  obtain ⟨op, bc, Kg, Mg, newNum, T, h1, h2, hw⟩ := C144_returns (refDof := fun z => if z = 0 then some [0] else none)
    (imaDof := fun z => if z = n then some [(n : ℤ)] else none) (testRod_periodic n 1 1 1 1) sqrtFn_real one_pos hn 0 0 (by simp) (by simp)
  obtain ⟨ks, ms, hv⟩ := (testRod_periodic n 1 1 1 1).vibrating sqrtFn_real hn one_pos one_pos one_pos h1 h2
  obtain ⟨l, hl, -⟩ := C180_exists (D := 2) sqrtFn_real hv (rod_tied hw) hw.matrix rfl
  have hone : (Kg.mulVec fun _ => 1) = 0 := by
    funext i
    rw [(testRod_periodic n 1 1 1 1).stiff_mul sqrtFn_real one_pos h1 h2 (fun _ => 1) i]
    simp
  obtain ⟨C, hC, hle⟩ := C183_mechanisms (r := 1) (v := fun _ _ => 1) sqrtFn_real hv (rod_tied hw) hl
    (linearIndependent_unique_iff.2 fun h => by simpa using congrFun h 0) (fun _ => hone) fun _ _ _ _ _ _ _ => rfl
  exact ⟨Kg, Mg, newNum, ks, ms, l, hv, hl, hone, C, hC, fun κ => hle κ _ (by simp)⟩

section
variable {sq : ℝ → ℝ} {cons mats nodes : Table ℝ} {elements : List (List ℤ)} {neq D : ℕ} {ks ms : List (Member ℝ)}
  {Kg Mg : Matrix (Fin neq) (Fin neq) ℝ} {w : Fin neq → ℝ} {φ : Fin neq → Fin neq → ℝ} {bc : List (List ℤ)}
  {nodesRef nodesIma dofsRef dofsIma : List ℤ} {refDof imaDof : ℤ → Option (List ℤ)} {newNum : List ℤ} {coords : List (List ℝ)}
  {l : (Fin D → ℝ) → Fin (neq - dofsRef.length) → ℝ}

theorem modes_mass (hm : Modes Kg Mg w φ) (v : Fin neq → ℝ) (hv : v ≠ 0) : 0 < v ⬝ᵥ Mg.mulVec v := by
  rw [hm.form_mass]
  refine lt_of_le_of_ne (Finset.sum_nonneg fun k _ => sq_nonneg _) fun h0 => hv ?_
  have := (Finset.sum_eq_zero_iff_of_nonneg fun k _ => sq_nonneg _).1 h0.symm
  rw [hm.expand v]
  exact Finset.sum_eq_zero fun k hk => by rw [pow_eq_zero_iff (by omega) |>.1 (this k hk), zero_smul]

/-- C183.  Cells made of beams: motions of the cell without forces. -/
theorem C183_frame_mechanisms (hs : SqrtFn sq) (h : BeamModel sq cons mats nodes elements ks ms Kg Mg) (hm : Modes Kg Mg w φ)
    (ht : Tied neq nodesRef nodesIma dofsRef dofsIma refDof imaDof newNum)
    (hb : Branches D Kg Mg coords nodesRef nodesIma dofsRef dofsIma refDof imaDof newNum l) {r : ℕ} {v : Fin r → Fin neq → ℝ}
    (hv : LinearIndependent ℝ v) (h0 : ∀ a, Kg.mulVec (v a) = 0)
    (he : ∀ a, ∀ x ∈ links nodesIma nodesRef refDof imaDof, ∀ i s : Fin neq, x.ima = ((i : ℕ) : ℤ) → x.ref = ((s : ℕ) : ℤ) → v a i = v a s) :
    ∃ C : ℝ, 0 ≤ C ∧ ∀ (κ : Fin D → ℝ) (k : Fin (neq - dofsRef.length)), (k : ℕ) < r → l κ k ≤ C * ∑ s, κ s ^ 2 :=
  branches_mechanisms (h.symm hs).1 ⟨(h.symm hs).2, modes_mass hm⟩ ht hb hv h0 he

/-- A mirrored rigid motion of a frame without supports meets no forces. -/
theorem frame_still (hs : SqrtFn sq) (h : BeamModel sq cons mats nodes elements ks ms Kg Mg) (hr : RigidFrame mats nodes elements)
    (hfree : ∀ p < nodes.length, ∀ j < 3, Free cons 3 p j) (heq : eqcounter cons 3 = .ok (neq, bc)) (g : Motion ℝ) {v : Fin neq → ℝ}
    (hv : ∀ p < nodes.length, ∀ j < 3, ∀ i : Fin neq, DofEq bc neq p j i → v i = g.mirrored nodes p j) : Kg.mulVec v = 0 := by
  obtain ⟨bc', s, -⟩ := h.setups
  obtain rfl : bc' = bc := by have := s.eq; rw [heq] at this; simpa using this.symm
  have hsz := h.frame.size
  funext i
  obtain ⟨p, j, hf, he, -⟩ := (C01_numbering_bijective heq).2 i i.2
  rw [s.mul v (g.mirrored nodes) (fun p hp j hj => ⟨fun i hi => (hv p (by rw [← hsz]; exact hp) j hj i hi).symm, fun hno => ?_⟩)
    p j i hf (dofEq_of_entry he), internal_unit ks _ p hf.1, Pi.zero_apply]
  · have hz := (C125_zero_energy hs hr h.springs (g.mirrored nodes)).2 ⟨g, fun p _ j hj => rfl⟩
    refine List.sum_eq_zero fun y hy => ?_
    obtain ⟨m, hm, rfl⟩ := List.mem_map.1 hy
    obtain ⟨el, hel, hr'⟩ := forall₂_mem h.springs hm
    obtain ⟨a', b, X, L, EI, EA, γ, ν, hb, h1, h2⟩ := hr.stiff el hel
    exact beam_still_work hs hb h1 h2 hr' (hz m hm) _
  · obtain ⟨c1, c2⟩ := free_entry heq (hfree p (by rw [← hsz]; exact hp) j hj)
    exact absurd (dofEq_of_entry (a := ⟨_, c2⟩) c1) (hno _)

/-- A translation of a frame without supports meets no forces. -/
theorem frame_translation (hs : SqrtFn sq) (h : BeamModel sq cons mats nodes elements ks ms Kg Mg) (hr : RigidFrame mats nodes elements)
    (hfree : ∀ p < nodes.length, ∀ j < 3, Free cons 3 p j) (heq : eqcounter cons 3 = .ok (neq, bc)) {a : ℕ} (ha : a < 2) {v : Fin neq → ℝ}
    (hv : ∀ p < nodes.length, ∀ j < 3, ∀ i : Fin neq, DofEq bc neq p j i → v i = if j = a then 1 else 0) : Kg.mulVec v = 0 := by
  refine frame_still hs h hr hfree heq ⟨if a = 0 then 1 else 0, if a = 1 then 1 else 0, 0⟩ fun p hp j hj i hi => (hv p hp j hj i hi).trans ?_
  rcases (by omega : a = 0 ∨ a = 1) with rfl | rfl <;> rcases (by omega : j = 0 ∨ j = 1 ∨ j = 2) with rfl | rfl | rfl <;>
    simp [(mirrored_fields _ p).1, (mirrored_fields _ p).2.1, (mirrored_fields _ p).2.2]

/-- C183.  Frames without supports whose ties keep the directions: the first two branches stay below a multiple of the square of the wave
vector. -/
theorem C183_frame_speed (hs : SqrtFn sq) (h : BeamModel sq cons mats nodes elements ks ms Kg Mg) (hm : Modes Kg Mg w φ)
    (hr : RigidFrame mats nodes elements) (hne : 0 < nodes.length) (hfree : ∀ p < nodes.length, ∀ j < 3, Free cons 3 p j)
    (heq : eqcounter cons 3 = .ok (neq, bc)) (ht : Tied neq nodesRef nodesIma dofsRef dofsIma refDof imaDof newNum)
    (hdir : ∀ x ∈ links nodesIma nodesRef refDof imaDof, ∀ i s : Fin neq, x.ima = ((i : ℕ) : ℤ) → x.ref = ((s : ℕ) : ℤ) →
      ∃ p q j, p < nodes.length ∧ q < nodes.length ∧ j < 3 ∧ DofEq bc neq p j i ∧ DofEq bc neq q j s)
    (hb : Branches D Kg Mg coords nodesRef nodesIma dofsRef dofsIma refDof imaDof newNum l) :
    ∃ C : ℝ, 0 ≤ C ∧ ∀ (κ : Fin D → ℝ) (k : Fin (neq - dofsRef.length)), (k : ℕ) < 2 → l κ k ≤ C * ∑ s, κ s ^ 2 := by
  classical
  have val : ∀ a : Fin 2, ∃ v : Fin neq → ℝ, ∀ p < nodes.length, ∀ j < 3, ∀ i : Fin neq, DofEq bc neq p j i → v i = if j = a then 1 else 0 := by
    intro a
    refine ⟨fun i => if ∃ p, DofEq bc neq p a i then 1 else 0, fun p hp j hj i hi => ?_⟩
    obtain ⟨hf, he⟩ := free_of_dofEq heq h.frame.codes hj hi
    have own := (owns_of_eqcounter heq h.frame.codes hf he i.2).2.2
    by_cases hja : j = a
    · subst hja
      simp only [if_true]
      exact if_pos ⟨p, hi⟩
    · rw [if_neg hja]
      exact if_neg fun ⟨q, hq⟩ => hja (own q a (by omega) hq).2.symm
  choose v hv using val
  refine C183_frame_mechanisms hs h hm ht hb (v := v) ?_ (fun a => frame_translation hs h hr hfree heq a.2 (hv a)) fun a x hx i s h1 h2 => ?_
  · rw [Fintype.linearIndependent_iff]
    intro c hc a
    obtain ⟨c1, c2⟩ := free_entry heq (hfree 0 hne a (by omega))
    have := congrFun hc ⟨_, c2⟩
    rw [Finset.sum_apply] at this
    simp only [Pi.smul_apply, smul_eq_mul, hv _ 0 hne a (by omega) ⟨_, c2⟩ (dofEq_of_entry c1), Fin.val_inj] at this
    simpa using this
  · obtain ⟨p, q, j, hp, hq, hj, d1, d2⟩ := hdir x hx i s h1 h2
    rw [hv a p hp j hj i d1, hv a q hq j hj s d2]

end

/-- Case for C183: the frame of the tests without supports, its last node the image of the first. -/
example : ∃ (Kg Mg : Matrix (Fin 9) (Fin 9) ℝ) (ks ms : List (Member ℝ)) (l : (Fin 2 → ℝ) → Fin (9 - [(0 : ℤ), 1, 2].length) → ℝ),
    BeamModel Real.sqrt [[0, 0, 0], [0, 0, 0], [0, 0, 0]] testFrame.2.2.1 testFrame.2.2.2.1 testFrame.2.1 ks ms Kg Mg ∧
    Branches 2 Kg Mg (testFrame.2.2.2.1.map (List.drop 1)) [0] [2] [0, 1, 2] [6, 7, 8] (fun z => if z = 0 then some [0, 1, 2] else none)
      (fun z => if z = 2 then some [6, 7, 8] else none) [0, 1, 2, 3, 4, 5, 0, 1, 2] l ∧
    ∃ C : ℝ, 0 ≤ C ∧ ∀ κ, l κ ⟨0, by simp⟩ ≤ C * ∑ s, κ s ^ 2 ∧ l κ ⟨1, by simp⟩ ≤ C * ∑ s, κ s ^ 2 := by
  obtain ⟨Kg, Mg, ks, ms, w, φ, hB, hm, heq⟩ := freeFrame_vibrates
  obtain ⟨T, hT⟩ : ∃ T, blochTransformMat [(0 : ℝ), 0] (testFrame.2.2.2.1.map (List.drop 1)) 9 [0] [2] [0, 1, 2] [6, 7, 8]
      (fun z => if z = 0 then some [0, 1, 2] else none) (fun z => if z = 2 then some [6, 7, 8] else none) [0, 1, 2, 3, 4, 5, 0, 1, 2] = .ok T :=
    ⟨_, rfl⟩
  obtain ⟨l, hl, -⟩ := C180_frame_exists (D := 2) sqrtFn_real hB hm freeFrame_tied hT rfl
  obtain ⟨C, hC, hle⟩ := C183_frame_speed sqrtFn_real hB hm testFrame_rigid (by simp [testFrame]) (fun p hp j hj => by
    have hp : p < 3 := hp
    refine ⟨hj, 0, ?_, by norm_num, by norm_num⟩
    rcases (by omega : p = 0 ∨ p = 1 ∨ p = 2) with rfl | rfl | rfl <;> rcases (by omega : j = 0 ∨ j = 1 ∨ j = 2) with rfl | rfl | rfl <;> simp [entry])
    heq freeFrame_tied (fun x hx i s h1 h2 => by
      have hlk : links [2] [0] (fun z => if z = 0 then some [0, 1, 2] else none) (fun z => if z = 2 then some [6, 7, 8] else none) =
        [⟨6, 0, 2, 0⟩, ⟨7, 1, 2, 0⟩, ⟨8, 2, 2, 0⟩] := rfl
      rw [hlk] at hx
      simp only [List.mem_cons, List.not_mem_nil, or_false] at hx
      rcases hx with rfl | rfl | rfl
      · refine ⟨2, 0, 0, by simp [testFrame], by simp [testFrame], by omega, dofEq_of_entry (by rw [← h1]; rfl), dofEq_of_entry (by rw [← h2]; rfl)⟩
      · refine ⟨2, 0, 1, by simp [testFrame], by simp [testFrame], by omega, dofEq_of_entry (by rw [← h1]; rfl), dofEq_of_entry (by rw [← h2]; rfl)⟩
      · refine ⟨2, 0, 2, by simp [testFrame], by simp [testFrame], by omega, dofEq_of_entry (by rw [← h1]; rfl), dofEq_of_entry (by rw [← h2]; rfl)⟩) hl
  exact ⟨Kg, Mg, ks, ms, l, hB, hl, C, hC, fun κ => ⟨hle κ _ (by simp), hle κ _ (by simp)⟩⟩

end SolidsPy
