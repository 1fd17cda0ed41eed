import Verif.Props.CantModes

/-! # C124: dividing a beam of a frame -/

set_option linter.unusedSectionVars false

namespace SolidsPy
open Spec Assem Matrix

section
variable {K : Type} [Field K] [LinearOrder K] [IsStrictOrderedRing K] [FloorRing K]
variable {sq : K → K} {cons mats nodes cons' nodes' loads loads' : Table K} {els pre post : List (List ℤ)} {el el1 el2 : List ℤ} {m m1 m2 : Member K}
  {a b c : ℕ} {X : Matrix (Fin 2) (Fin 2) K} {L EI EA γ ν r : K} {U V : ℕ → ℕ → K} {ks ks' ms ms' : List (Member K)}

/-- The ends of the first part of a beam divided in the ratio `r`. -/
def Spec.firstPart (X : Matrix (Fin 2) (Fin 2) K) (r : K) : Matrix (Fin 2) (Fin 2) K :=
  !![X 0 0, X 0 1; X 0 0 + r * (X 1 0 - X 0 0), X 0 1 + r * (X 1 1 - X 0 1)]

/-- The ends of the second part. -/
def Spec.secondPart (X : Matrix (Fin 2) (Fin 2) K) (r : K) : Matrix (Fin 2) (Fin 2) K :=
  !![X 0 0 + r * (X 1 0 - X 0 0), X 0 1 + r * (X 1 1 - X 0 1); X 1 0, X 1 1]

/-- The beam `el` from `a` to `b` is replaced by two beams with the same properties that meet in the node `c`, which divides it in the
ratio `r`.  All other beams stay what they are. -/
structure Spec.Splits (mats nodes nodes' : Table K) (pre post : List (List ℤ)) (el el1 el2 : List ℤ) (a b c : ℕ)
    (X : Matrix (Fin 2) (Fin 2) K) (L EI EA γ ν r : K) : Prop where
  whole : IsBeam mats nodes el a b X L EI EA γ ν
  first : IsBeam mats nodes' el1 a c (firstPart X r) (r * L) EI EA γ ν
  second : IsBeam mats nodes' el2 c b (secondPart X r) ((1 - r) * L) EI EA γ ν
  apart : a ≠ c ∧ b ≠ c
  rest : ∀ e ∈ pre ++ post, ∃ a' b' X' L' EI' EA' γ' ν', IsBeam mats nodes e a' b' X' L' EI' EA' γ' ν' ∧
    IsBeam mats nodes' e a' b' X' L' EI' EA' γ' ν' ∧ a' ≠ c ∧ b' ≠ c

/-- The nodal field `U` with the node `c` on the curve of the undivided beam: `v`, `n` and `t` are the deflection, the axial displacement
and the slope of that curve in the ratio `r`. -/
def Spec.splitField (a b c : ℕ) (X : Matrix (Fin 2) (Fin 2) K) (L r : K) (U : ℕ → ℕ → K) : ℕ → ℕ → K := fun p j =>
  if p = c then
    let v := (1 - 3 * r ^ 2 + 2 * r ^ 3) * across X L (endsOf a b U) 0 + L * (r - 2 * r ^ 2 + r ^ 3) * U a 2 +
      (3 * r ^ 2 - 2 * r ^ 3) * across X L (endsOf a b U) 1 + L * (r ^ 3 - r ^ 2) * U b 2
    let n := (1 - r) * along X L (endsOf a b U) 0 + r * along X L (endsOf a b U) 1
    let t := (6 * r ^ 2 - 6 * r) / L * across X L (endsOf a b U) 0 + (1 - 4 * r + 3 * r ^ 2) * U a 2 +
      (6 * r - 6 * r ^ 2) / L * across X L (endsOf a b U) 1 + (3 * r ^ 2 - 2 * r) * U b 2
    if j = 0 then ((X 1 0 - X 0 0) * n + (X 1 1 - X 0 1) * v) / L
    else if j = 1 then ((X 1 0 - X 0 0) * v - (X 1 1 - X 0 1) * n) / L
    else if j = 2 then t else 0
  else U p j

theorem split_away {p : ℕ} (hp : p ≠ c) (j : ℕ) : splitField a b c X L r U p j = U p j := if_neg hp

/-- Bending energy by parts, against a cubic: only the ends of the other curve count. -/
theorem bendInt_parts {P Q : Polynomial K} (hQ : Q.natDegree ≤ 3) (L : K) : bendInt L Q P =
    (2 * P.coeff 2 + 6 * P.coeff 3 * L) * Q.derivative.eval L - 2 * P.coeff 2 * Q.derivative.eval 0 -
      6 * P.coeff 3 * (Q.eval L - Q.eval 0) := by
  rw [(eval_cubic hQ L).1, (eval_cubic hQ L).2.1, (eval_cubic hQ 0).1, (eval_cubic hQ 0).2.1]
  unfold bendInt
  ring

/-- The polynomial `P` seen from `s`. -/
noncomputable def seenFrom (P : Polynomial K) (s : K) : Polynomial K :=
  Polynomial.C (P.eval s) + Polynomial.C (P.derivative.eval s) * Polynomial.X +
    Polynomial.C (P.coeff 2 + 3 * P.coeff 3 * s) * Polynomial.X ^ 2 + Polynomial.C (P.coeff 3) * Polynomial.X ^ 3

theorem seenFrom_coeff (P : Polynomial K) (s : K) : (seenFrom P s).coeff 0 = P.eval s ∧ (seenFrom P s).coeff 1 = P.derivative.eval s ∧
    (seenFrom P s).coeff 2 = P.coeff 2 + 3 * P.coeff 3 * s ∧ (seenFrom P s).coeff 3 = P.coeff 3 := by
  unfold seenFrom
  generalize P.coeff 2 + 3 * P.coeff 3 * s = x
  refine ⟨?_, ?_, ?_, ?_⟩ <;> simp [Polynomial.coeff_X, Polynomial.coeff_C, Polynomial.coeff_X_pow]

theorem seenFrom_spec {P : Polynomial K} (hP : P.natDegree ≤ 3) (s t : K) : (seenFrom P s).natDegree ≤ 3 ∧
    (seenFrom P s).eval t = P.eval (s + t) ∧ (seenFrom P s).derivative.eval t = P.derivative.eval (s + t) := by
  have h0 : (seenFrom P s).natDegree ≤ 3 := by
    unfold seenFrom
    compute_degree
  obtain ⟨c0, c1, c2, c3⟩ := seenFrom_coeff P s
  refine ⟨h0, ?_, ?_⟩
  · rw [(eval_cubic h0 t).1, c0, c1, c2, c3, (eval_cubic hP s).1, (eval_cubic hP s).2.1, (eval_cubic hP (s + t)).1]
    ring
  · rw [(eval_cubic h0 t).2.1, c1, c2, c3, (eval_cubic hP s).2.1, (eval_cubic hP (s + t)).2.1]
    ring

theorem prodInt_split {P Q : Polynomial K} (hP : P.natDegree ≤ 3) (hQ : Q.natDegree ≤ 3) (s t : K) :
    prodInt s P Q + prodInt t (seenFrom P s) (seenFrom Q s) = prodInt (s + t) P Q := by
  obtain ⟨c0, c1, c2, c3⟩ := seenFrom_coeff P s
  obtain ⟨d0, d1, d2, d3⟩ := seenFrom_coeff Q s
  unfold prodInt
  rw [c0, c1, c2, c3, d0, d1, d2, d3, (eval_cubic hP s).1, (eval_cubic hP s).2.1, (eval_cubic hQ s).1, (eval_cubic hQ s).2.1]
  ring

theorem across_first (hr : r ≠ 0) (hL : L ≠ 0) (u : Fin 2 × Fin 3 → K) (i : Fin 2) :
    across (firstPart X r) (r * L) u i = across X L u i ∧ along (firstPart X r) (r * L) u i = along X L u i := by
  unfold across along firstPart
  constructor <;> simp <;> field_simp

theorem across_second (hr : 1 - r ≠ 0) (hL : L ≠ 0) (u : Fin 2 × Fin 3 → K) (i : Fin 2) :
    across (secondPart X r) ((1 - r) * L) u i = across X L u i ∧ along (secondPart X r) ((1 - r) * L) u i = along X L u i := by
  unfold across along secondPart
  constructor <;> simp <;> field_simp <;> ring

theorem across_left (U : ℕ → ℕ → K) : across X L (endsOf a b U) 0 = ((X 1 1 - X 0 1) * U a 0 + (X 1 0 - X 0 0) * U a 1) / L ∧
    along X L (endsOf a b U) 0 = ((X 1 0 - X 0 0) * U a 0 - (X 1 1 - X 0 1) * U a 1) / L := ⟨rfl, rfl⟩

theorem across_right (U : ℕ → ℕ → K) : across X L (endsOf a b U) 1 = ((X 1 1 - X 0 1) * U b 0 + (X 1 0 - X 0 0) * U b 1) / L ∧
    along X L (endsOf a b U) 1 = ((X 1 0 - X 0 0) * U b 0 - (X 1 1 - X 0 1) * U b 1) / L := ⟨rfl, rfl⟩

/-- The node on the curve. -/
theorem split_node (hL : IsLength X L) (U : ℕ → ℕ → K) :
    ((X 1 1 - X 0 1) * splitField a b c X L r U c 0 + (X 1 0 - X 0 0) * splitField a b c X L r U c 1) / L =
      (deflection a b X L U).eval (r * L) ∧
    ((X 1 0 - X 0 0) * splitField a b c X L r U c 0 - (X 1 1 - X 0 1) * splitField a b c X L r U c 1) / L =
      (extension a b X L U).eval (r * L) ∧
    splitField a b c X L r U c 2 = (deflection a b X L U).derivative.eval (r * L) := by
  have hne := hL.1.ne'
  have e1 : (deflection a b X L U).eval (r * L) = (1 - 3 * r ^ 2 + 2 * r ^ 3) * across X L (endsOf a b U) 0 + L * (r - 2 * r ^ 2 + r ^ 3) * U a 2 +
      (3 * r ^ 2 - 2 * r ^ 3) * across X L (endsOf a b U) 1 + L * (r ^ 3 - r ^ 2) * U b 2 := by
    unfold deflection hermite
    simp
    field_simp
    ring
  have e2 : (extension a b X L U).eval (r * L) = (1 - r) * along X L (endsOf a b U) 0 + r * along X L (endsOf a b U) 1 := by
    unfold extension
    simp
    field_simp
    ring
  have e3 : (deflection a b X L U).derivative.eval (r * L) = (6 * r ^ 2 - 6 * r) / L * across X L (endsOf a b U) 0 +
      (1 - 4 * r + 3 * r ^ 2) * U a 2 + (6 * r - 6 * r ^ 2) / L * across X L (endsOf a b U) 1 + (3 * r ^ 2 - 2 * r) * U b 2 := by
    unfold deflection hermite
    simp
    field_simp
    ring
  have hLL : (X 1 0 - X 0 0) ^ 2 + (X 1 1 - X 0 1) ^ 2 = L * L := hL.2.symm
  have s0 : splitField a b c X L r U c 0 = ((X 1 0 - X 0 0) * (extension a b X L U).eval (r * L) +
      (X 1 1 - X 0 1) * (deflection a b X L U).eval (r * L)) / L := by
    rw [e1, e2]
    exact if_pos rfl
  have s1 : splitField a b c X L r U c 1 = ((X 1 0 - X 0 0) * (deflection a b X L U).eval (r * L) -
      (X 1 1 - X 0 1) * (extension a b X L U).eval (r * L)) / L := by
    rw [e1, e2]
    exact if_pos rfl
  have s2 : splitField a b c X L r U c 2 = (deflection a b X L U).derivative.eval (r * L) := by
    rw [e3]
    exact if_pos rfl
  rw [s0, s1, s2]
  generalize (deflection a b X L U).eval (r * L) = v
  generalize (extension a b X L U).eval (r * L) = n
  refine ⟨?_, ?_, rfl⟩
  · rw [div_eq_iff hne]
    field_simp
    linear_combination v * hLL
  · rw [div_eq_iff hne]
    field_simp
    linear_combination n * hLL

theorem curves_first (hL : IsLength X L) (hr : 0 < r) (hac : a ≠ c) (U : ℕ → ℕ → K) :
    deflection a c (firstPart X r) (r * L) (splitField a b c X L r U) = deflection a b X L U ∧
      extension a c (firstPart X r) (r * L) (splitField a b c X L r U) = extension a b X L U := by
  have hne := hL.1.ne'
  have hne' : r * L ≠ 0 := mul_ne_zero hr.ne' hne
  have hb := deflection_bends (a := a) (b := b) (X := X) hne U
  have hs := extension_stretches (a := a) (b := b) (X := X) hne U
  obtain ⟨n1, n2, n3⟩ := split_node (a := a) (b := b) (c := c) (r := r) hL U
  constructor
  · refine (C121_curves (firstPart X r) hne' _).1.unique (deflection_bends hne' _) ⟨hb.cubic, ?_, ?_, ?_, ?_⟩
    · rw [← hb.start, (across_first hr.ne' hne _ 0).1, (across_left _).1, (across_left _).1, split_away hac, split_away hac]
    · rw [← hb.slope]
      exact split_away hac 2
    · rw [(across_first hr.ne' hne _ 1).1, (across_right _).1, n1]
    · exact n3
  · refine (C121_curves (firstPart X r) hne' _).2.unique (extension_stretches hne' _) ⟨hs.linear, ?_, ?_⟩
    · rw [← hs.start, (across_first hr.ne' hne _ 0).2, (across_left _).2, (across_left _).2, split_away hac, split_away hac]
    · rw [(across_first hr.ne' hne _ 1).2, (across_right _).2, n2]

theorem curves_second (hL : IsLength X L) (hr : r < 1) (hbc : b ≠ c) (U : ℕ → ℕ → K) :
    deflection c b (secondPart X r) ((1 - r) * L) (splitField a b c X L r U) = seenFrom (deflection a b X L U) (r * L) ∧
      extension c b (secondPart X r) ((1 - r) * L) (splitField a b c X L r U) = seenFrom (extension a b X L U) (r * L) := by
  have hne := hL.1.ne'
  have hr' : 1 - r ≠ 0 := by
    have := sub_pos.2 hr
    exact this.ne'
  have hne' : (1 - r) * L ≠ 0 := mul_ne_zero hr' hne
  have hb := deflection_bends (a := a) (b := b) (X := X) hne U
  have hs := extension_stretches (a := a) (b := b) (X := X) hne U
  have hs3 := hs.linear.trans (by norm_num : 1 ≤ 3)
  obtain ⟨n1, n2, n3⟩ := split_node (a := a) (b := b) (c := c) (r := r) hL U
  have hsum : r * L + (1 - r) * L = L := by ring
  constructor
  · refine (C121_curves (secondPart X r) hne' _).1.unique (deflection_bends hne' _) ⟨(seenFrom_spec hb.cubic _ 0).1, ?_, ?_, ?_, ?_⟩
    · rw [(seenFrom_spec hb.cubic _ _).2.1, add_zero, (across_second hr' hne _ 0).1, (across_left _).1, n1]
    · rw [(seenFrom_spec hb.cubic _ _).2.2, add_zero]
      exact n3
    · rw [(seenFrom_spec hb.cubic _ _).2.1, hsum, ← hb.stop, (across_second hr' hne _ 1).1, (across_right _).1, (across_right _).1, split_away hbc,
        split_away hbc]
    · rw [(seenFrom_spec hb.cubic _ _).2.2, hsum, ← hb.slope']
      exact split_away hbc 2
  · refine (C121_curves (secondPart X r) hne' _).2.unique (extension_stretches hne' _) ⟨?_, ?_, ?_⟩
    · have h2 : (extension a b X L U).coeff 2 = 0 := Polynomial.coeff_eq_zero_of_natDegree_lt (by have := hs.linear; omega)
      have h3 : (extension a b X L U).coeff 3 = 0 := Polynomial.coeff_eq_zero_of_natDegree_lt (by have := hs.linear; omega)
      unfold seenFrom
      rw [h2, h3]
      simp only [mul_zero, zero_mul, add_zero, map_zero]
      compute_degree
    · rw [(seenFrom_spec hs3 _ _).2.1, add_zero, (across_second hr' hne _ 0).2, (across_left _).2, n2]
    · rw [(seenFrom_spec hs3 _ _).2.1, hsum, ← hs.stop, (across_second hr' hne _ 1).2, (across_right _).2, (across_right _).2, split_away hbc,
        split_away hbc]

/-- Every beam acts only through its ends. -/
theorem Spec.IsBeam.local (hs : SqrtFn sq) {nodes₁ nodes₂ : Table K} (h : IsBeam mats nodes₁ el a b X L EI EA γ ν)
    (h' : IsBeam mats nodes₂ el a b X L EI EA γ ν) {V' U' : ℕ → ℕ → K} (hV : ∀ j, V' a j = V a j ∧ V' b j = V b j)
    (hU : ∀ j, U' a j = U a j ∧ U' b j = U b j) :
    (∀ m m', IsMember (Routine sq) mats nodes₁ el m → IsMember (Routine sq) mats nodes₂ el m' → m'.form 3 V' U' = m.form 3 V U) ∧
    ∀ m m', IsMember (MassRoutine sq) mats nodes₁ el m → IsMember (MassRoutine sq) mats nodes₂ el m' → m'.form 3 V' U' = m.form 3 V U := by
  have e : ∀ {W W' : ℕ → ℕ → K}, (∀ j, W' a j = W a j ∧ W' b j = W b j) → endsOf a b W' = endsOf a b W := by
    intro W W' hW
    funext q
    unfold endsOf
    rw [(hW q.2).1, (hW q.2).2]
  have d : ∀ {W W' : ℕ → ℕ → K}, (∀ j, W' a j = W a j ∧ W' b j = W b j) → deflection a b X L W' = deflection a b X L W ∧
      extension a b X L W' = extension a b X L W := by
    intro W W' hW
    unfold deflection extension
    rw [e hW, (hW 2).1, (hW 2).2]
    exact ⟨rfl, rfl⟩
  refine ⟨fun m m' g g' => ?_, fun m m' g g' => ?_⟩
  · rw [(h.spring hs g).2, (h'.spring hs g').2, (d hV).1, (d hU).1, (d hV).2, (d hU).2]
  · rw [(h.mass hs g).2, (h'.mass hs g').2, (d hV).1, (d hU).1, (d hV).2, (d hU).2]

/-- The two parts resist a node on the curve as the whole beam does, whatever the other field. -/
theorem Spec.Splits.springs (hs : SqrtFn sq) (h : Splits mats nodes nodes' pre post el el1 el2 a b c X L EI EA γ ν r) (hr : 0 < r) (hr' : r < 1)
    (g : IsMember (Routine sq) mats nodes el m) (g1 : IsMember (Routine sq) mats nodes' el1 m1) (g2 : IsMember (Routine sq) mats nodes' el2 m2)
    (V U : ℕ → ℕ → K) : m1.form 3 V (splitField a b c X L r U) + m2.form 3 V (splitField a b c X L r U) = m.form 3 V U := by
  have hL := h.whole.length
  have hne := hL.1.ne'
  have hr1 : 1 - r ≠ 0 := (sub_pos.2 hr').ne'
  rw [(h.first.spring hs g1).2, (h.second.spring hs g2).2, (h.whole.spring hs g).2, (curves_first hL hr h.apart.1 U).1,
    (curves_first hL hr h.apart.1 U).2, (curves_second hL hr' h.apart.2 U).1, (curves_second hL hr' h.apart.2 U).2]
  have b1 := deflection_bends (a := a) (b := c) (X := firstPart X r) (mul_ne_zero hr.ne' hne) V
  have b2 := deflection_bends (a := c) (b := b) (X := secondPart X r) (mul_ne_zero hr1 hne) V
  have b0 := deflection_bends (a := a) (b := b) (X := X) hne V
  rw [bendInt_parts b0.cubic, bendInt_parts b1.cubic, bendInt_parts b2.cubic, ← b0.start, ← b0.stop, ← b0.slope, ← b0.slope', ← b1.start, ← b1.stop,
    ← b1.slope, ← b1.slope', ← b2.start, ← b2.stop, ← b2.slope, ← b2.slope', (seenFrom_coeff _ _).2.2.1, (seenFrom_coeff _ _).2.2.2,
    (across_first hr.ne' hne _ 0).1, (across_first hr.ne' hne _ 1).1, (across_second hr1 hne _ 0).1, (across_second hr1 hne _ 1).1,
    (seenFrom_coeff _ _).2.1]
  have hd : (extension a b X L U).derivative.eval (r * L) = (extension a b X L U).coeff 1 := by
    unfold extension
    simp
  rw [hd]
  have x0 : (extension a b X L V).coeff 1 = (along X L (endsOf a b V) 1 - along X L (endsOf a b V) 0) / L := by
    unfold extension
    simp [Polynomial.coeff_C]
  have x1 : (extension a c (firstPart X r) (r * L) V).coeff 1 = (along X L (endsOf a c V) 1 - along X L (endsOf a c V) 0) / (r * L) := by
    unfold extension
    rw [(across_first hr.ne' hne _ 0).2, (across_first hr.ne' hne _ 1).2]
    simp [Polynomial.coeff_C]
  have x2 : (extension c b (secondPart X r) ((1 - r) * L) V).coeff 1 =
      (along X L (endsOf c b V) 1 - along X L (endsOf c b V) 0) / ((1 - r) * L) := by
    unfold extension
    rw [(across_second hr1 hne _ 0).2, (across_second hr1 hne _ 1).2]
    simp [Polynomial.coeff_C]
  rw [x0, x1, x2, (across_left _).1, (across_right _).1, (across_left _).1, (across_right _).1, (across_left _).1, (across_right _).1, (across_left _).2,
    (across_right _).2, (across_left _).2, (across_right _).2, (across_left _).2, (across_right _).2]
  have q1 : endsOf a c V (0, 2) = V a 2 := rfl
  have q2 : endsOf a c V (1, 2) = V c 2 := rfl
  have q3 : endsOf c b V (0, 2) = V c 2 := rfl
  have q4 : endsOf c b V (1, 2) = V b 2 := rfl
  have q5 : endsOf a b V (0, 2) = V a 2 := rfl
  have q6 : endsOf a b V (1, 2) = V b 2 := rfl
  rw [q1, q2, q3, q4, q5, q6]
  field_simp
  ring

/-- And they carry the same kinetic energy. -/
theorem Spec.Splits.masses (hs : SqrtFn sq) (h : Splits mats nodes nodes' pre post el el1 el2 a b c X L EI EA γ ν r) (hr : 0 < r) (hr' : r < 1)
    (g : IsMember (MassRoutine sq) mats nodes el m) (g1 : IsMember (MassRoutine sq) mats nodes' el1 m1)
    (g2 : IsMember (MassRoutine sq) mats nodes' el2 m2) (V U : ℕ → ℕ → K) :
    m1.form 3 (splitField a b c X L r V) (splitField a b c X L r U) + m2.form 3 (splitField a b c X L r V) (splitField a b c X L r U) =
      m.form 3 V U := by
  have hL := h.whole.length
  have hne := hL.1.ne'
  rw [(h.first.mass hs g1).2, (h.second.mass hs g2).2, (h.whole.mass hs g).2, (curves_first hL hr h.apart.1 U).1,
    (curves_first hL hr h.apart.1 U).2, (curves_second hL hr' h.apart.2 U).1, (curves_second hL hr' h.apart.2 U).2,
    (curves_first hL hr h.apart.1 V).1,
    (curves_first hL hr h.apart.1 V).2, (curves_second hL hr' h.apart.2 V).1, (curves_second hL hr' h.apart.2 V).2]
  have bV := deflection_bends (a := a) (b := b) (X := X) hne V
  have bU := deflection_bends (a := a) (b := b) (X := X) hne U
  have sV := (extension_stretches (a := a) (b := b) (X := X) hne V).linear.trans (by norm_num : 1 ≤ 3)
  have sU := (extension_stretches (a := a) (b := b) (X := X) hne U).linear.trans (by norm_num : 1 ≤ 3)
  have e1 := prodInt_split bV.cubic bU.cubic (r * L) ((1 - r) * L)
  have e2 := prodInt_split sV sU (r * L) ((1 - r) * L)
  rw [show r * L + (1 - r) * L = L by ring] at e1 e2
  rw [← e1, ← e2]
  ring

theorem forall₂_append_left {α β : Type} {R : α → β → Prop} {l₁ l₂ : List α} {l : List β} (h : List.Forall₂ R (l₁ ++ l₂) l) :
    ∃ r₁ r₂, l = r₁ ++ r₂ ∧ List.Forall₂ R l₁ r₁ ∧ List.Forall₂ R l₂ r₂ := by
  induction l₁ generalizing l with
  | nil => exact ⟨[], l, rfl, .nil, h⟩
  | cons x t ih =>
    cases h with
    | cons h1 h2 =>
      obtain ⟨r₁, r₂, rfl, g1, g2⟩ := ih h2
      exact ⟨_ :: r₁, r₂, rfl, .cons h1 g1, g2⟩

theorem sum_pairs {α β β' : Type} {R : α → β → Prop} {R' : α → β' → Prop} {l : List α} {xs : List β} {ys : List β'} {f : β → K} {g : β' → K}
    (h : List.Forall₂ R l xs) (h' : List.Forall₂ R' l ys) (H : ∀ e ∈ l, ∀ x y, R e x → R' e y → f x = g y) :
    (xs.map f).sum = (ys.map g).sum := by
  induction h generalizing ys with
  | nil =>
    cases h'
    rfl
  | cons h1 _ ih =>
    cases h' with
    | cons g1 g2 =>
      rw [List.map_cons, List.sum_cons, List.map_cons, List.sum_cons, H _ (by simp) _ _ h1 g1, ih g2 fun e he => H e (by simp [he])]

theorem sum_split {α β β' : Type} {R : α → β → Prop} {R' : α → β' → Prop} {pre post : List α} {e e1 e2 : α} {xs : List β} {ys : List β'}
    {f : β → K} {g : β' → K} (h : List.Forall₂ R (pre ++ e :: post) xs) (h' : List.Forall₂ R' (pre ++ e1 :: e2 :: post) ys)
    (H : ∀ e ∈ pre ++ post, ∀ x y, R e x → R' e y → g y = f x)
    (H' : ∀ x y y', R e x → R' e1 y → R' e2 y' → g y + g y' = f x) : (ys.map g).sum = (xs.map f).sum := by
  obtain ⟨x1, x2, rfl, a1, a2⟩ := forall₂_append_left h
  obtain ⟨y1, y2, rfl, b1, b2⟩ := forall₂_append_left h'
  cases a2 with
  | cons c1 c2 =>
    cases b2 with
    | cons d1 d2 =>
      cases d2 with
      | cons d2 d3 =>
        rw [List.map_append, List.map_append, List.sum_append, List.sum_append, List.map_cons, List.map_cons, List.map_cons, List.sum_cons,
          List.sum_cons, List.sum_cons, ← H' _ _ _ c1 d1 d2, sum_pairs b1 a1 fun e he x y r1 r2 => H e (by simp [he]) y x r2 r1,
          sum_pairs d3 c2 fun e he x y r1 r2 => H e (by simp [he]) y x r2 r1]
        ring

/-- The internal force is the work on a unit displacement. -/
theorem internal_unit {nd : ℕ} (ms : List (Member K)) (U : ℕ → ℕ → K) (p : ℕ) {j : ℕ} (hj : j < nd) :
    internal nd ms U p j = (ms.map fun m => m.form nd (fun q i => if q = p ∧ i = j then 1 else 0) U).sum := by
  unfold internal
  congr 1
  refine List.map_congr_left fun m _ => ?_
  unfold Member.form
  refine Finset.sum_congr rfl fun i hi => ?_
  rw [Finset.mem_range] at hi
  rw [List.getElem?_eq_getElem hi, List.getD_eq_getElem?_getD, List.getElem?_eq_getElem hi, Option.getD_some]
  by_cases hp : m.nodes[i] = p
  · rw [if_pos (by rw [hp]), Finset.sum_eq_single j]
    · dsimp only
      rw [if_pos ⟨hp, rfl⟩, one_mul]
    · intro k _ hk
      dsimp only
      rw [if_neg fun h => hk h.2, zero_mul]
    · intro h
      exact absurd (Finset.mem_range.2 hj) h
  · rw [if_neg (by simpa using hp), Finset.sum_eq_zero]
    intro k _
    dsimp only
    rw [if_neg fun h => hp h.1, zero_mul]

/-- C124.  Against any field, the springs of the divided frame resist a field whose new node lies on the curve of the undivided beam as
those of the undivided frame do; and the kinetic energies agree. -/
theorem C124_forms (hs : SqrtFn sq) (h : Splits mats nodes nodes' pre post el el1 el2 a b c X L EI EA γ ν r) (hr : 0 < r) (hr' : r < 1)
    (hk : List.Forall₂ (IsMember (Routine sq) mats nodes) (pre ++ el :: post) ks)
    (hk' : List.Forall₂ (IsMember (Routine sq) mats nodes') (pre ++ el1 :: el2 :: post) ks')
    (hm : List.Forall₂ (IsMember (MassRoutine sq) mats nodes) (pre ++ el :: post) ms)
    (hm' : List.Forall₂ (IsMember (MassRoutine sq) mats nodes') (pre ++ el1 :: el2 :: post) ms') (V U : ℕ → ℕ → K) :
    (ks'.map fun m => m.form 3 V (splitField a b c X L r U)).sum = (ks.map fun m => m.form 3 V U).sum ∧
    (ms'.map fun m => m.form 3 (splitField a b c X L r V) (splitField a b c X L r U)).sum = (ms.map fun m => m.form 3 V U).sum := by
  constructor
  · refine sum_split hk hk' (fun e he x y g g' => ?_) fun x y y' g g1 g2 => h.springs hs hr hr' g g1 g2 V U
    obtain ⟨a', b', X', L', EI', EA', γ', ν', h1, h2, n1, n2⟩ := h.rest e he
    exact (h1.local hs h2 (fun j => ⟨rfl, rfl⟩) fun j => ⟨split_away n1 j, split_away n2 j⟩).1 x y g g'
  · refine sum_split hm hm' (fun e he x y g g' => ?_) fun x y y' g g1 g2 => h.masses hs hr hr' g g1 g2 V U
    obtain ⟨a', b', X', L', EI', EA', γ', ν', h1, h2, n1, n2⟩ := h.rest e he
    exact (h1.local hs h2 (fun j => ⟨split_away n1 j, split_away n2 j⟩) fun j => ⟨split_away n1 j, split_away n2 j⟩).2 x y g g'

theorem Spec.Splits.away (hs : SqrtFn sq) (h : Splits mats nodes nodes' pre post el el1 el2 a b c X L EI EA γ ν r)
    (hk : List.Forall₂ (IsMember (Routine sq) mats nodes) (pre ++ el :: post) ks) (U : ℕ → ℕ → K) (j : ℕ) : internal 3 ks U c j = 0 := by
  refine List.sum_eq_zero fun y hy => ?_
  obtain ⟨m, hm, rfl⟩ := List.mem_map.1 hy
  obtain ⟨e, he, g⟩ := forall₂_mem hk hm
  obtain ⟨a', b', hn, n1, n2⟩ : ∃ a' b', m.nodes = [a', b'] ∧ a' ≠ c ∧ b' ≠ c := by
    have he' : e = el ∨ e ∈ pre ++ post := by
      simp only [List.mem_append, List.mem_cons] at he ⊢
      tauto
    rcases he' with rfl | he'
    · exact ⟨a, b, (h.whole.spring hs g).1, h.apart⟩
    · obtain ⟨a', b', X', L', EI', EA', γ', ν', h1, -, n1, n2⟩ := h.rest e he'
      exact ⟨a', b', (h1.spring hs g).1, n1, n2⟩
  rw [hn]
  simp [Finset.sum_range_succ, n1, n2]

/-- C124.  The new node is in equilibrium on the curve, and the forces at all other nodes are those of the undivided frame. -/
theorem C124_balance (hs : SqrtFn sq) (h : Splits mats nodes nodes' pre post el el1 el2 a b c X L EI EA γ ν r) (hr : 0 < r) (hr' : r < 1)
    (hk : List.Forall₂ (IsMember (Routine sq) mats nodes) (pre ++ el :: post) ks)
    (hk' : List.Forall₂ (IsMember (Routine sq) mats nodes') (pre ++ el1 :: el2 :: post) ks') (U : ℕ → ℕ → K) :
    (∀ p, ∀ j < 3, internal 3 ks' (splitField a b c X L r U) p j = internal 3 ks U p j) ∧
      ∀ j < 3, internal 3 ks' (splitField a b c X L r U) c j = 0 := by
  have key : ∀ p, ∀ j < 3, internal 3 ks' (splitField a b c X L r U) p j = internal 3 ks U p j := by
    intro p j hj
    rw [internal_unit ks' _ p hj, internal_unit ks _ p hj]
    refine sum_split hk hk' (fun e he x y g g' => ?_) fun x y y' g g1 g2 => h.springs hs hr hr' g g1 g2 _ U
    obtain ⟨a', b', X', L', EI', EA', γ', ν', h1, h2, n1, n2⟩ := h.rest e he
    exact (h1.local hs h2 (fun j => ⟨rfl, rfl⟩) fun j => ⟨split_away n1 j, split_away n2 j⟩).1 x y g g'
  exact ⟨key, fun j hj => (key c j hj).trans (h.away hs hk U j)⟩

/-- The table of codes of the divided frame has one more row, for the node `c`, and a field that moves no held component is not made to
do so at the new node. -/
structure Spec.Inserts (cons cons' : Table K) (c : ℕ) (T : (ℕ → ℕ → K) → ℕ → ℕ → K) : Prop where
  codes : ∃ row, cons' = cons ++ [row]
  last : c = cons.length
  supports : ∀ u, Admissible cons 3 u → Admissible cons' 3 (T u)

theorem Spec.Inserts.free {T : (ℕ → ℕ → K) → ℕ → ℕ → K} (h : Inserts cons cons' c T) {p j : ℕ} (hp : p < cons.length) :
    Free cons' 3 p j ↔ Free cons 3 p j := by
  obtain ⟨row, rfl⟩ := h.codes
  unfold Free entry
  rw [List.getElem?_append_left hp]

theorem Spec.Inserts.size {T : (ℕ → ℕ → K) → ℕ → ℕ → K} (h : Inserts cons cons' c T) : cons'.length = cons.length + 1 := by
  obtain ⟨row, rfl⟩ := h.codes
  simp

/-- A new node none of whose components is held. -/
theorem inserts_free : Inserts cons (cons ++ [[0, 0, 0]]) cons.length (splitField a b cons.length X L r) where
  codes := ⟨_, rfl⟩
  last := rfl
  supports u hu p j hp hj hf := by
    by_cases hpc : p = cons.length
    · refine absurd ⟨hj, 0, ?_, by norm_num, by norm_num⟩ hf
      subst hpc
      unfold entry
      rw [List.getElem?_append_right le_rfl]
      rcases (by omega : j = 0 ∨ j = 1 ∨ j = 2) with rfl | rfl | rfl <;> simp
    · have hlt : p < cons.length := by
        rw [List.length_append, List.length_singleton] at hp
        omega
      rw [split_away hpc]
      refine hu p j hlt hj fun hf' => hf ?_
      unfold Free entry at hf' ⊢
      rwa [List.getElem?_append_left hlt]

theorem isLoad_inserted {n : ℕ} (hl : ∀ l ∈ loads, ∀ p, Names (n + 1) l p ↔ Names n l p) {p j : ℕ} {x : K} :
    IsLoad (n + 1) loads p j x ↔ IsLoad n loads p j x := by
  unfold IsLoad
  constructor
  · rintro (⟨h1, h2⟩ | ⟨pr, l, po, rfl, h2, h3, h4⟩)
    · exact .inl ⟨fun l hl' hn => h1 l hl' ((hl l hl' p).2 hn), h2⟩
    · exact .inr ⟨pr, l, po, rfl, (hl l (by simp) p).1 h2, fun l' hl' hn => h3 l' hl' ((hl l' (by simp [hl']) p).2 hn), h4⟩
  · rintro (⟨h1, h2⟩ | ⟨pr, l, po, rfl, h2, h3, h4⟩)
    · exact .inl ⟨fun l hl' hn => h1 l hl' ((hl l hl' p).1 hn), h2⟩
    · exact .inr ⟨pr, l, po, rfl, (hl l (by simp) p).2 h2, fun l' hl' hn => h3 l' hl' ((hl l' (by simp [hl']) p).1 hn), h4⟩

/-- C124.  Equilibrium of the frame is equilibrium of the divided frame, under loads that do not count nodes from the end. -/
theorem C124_equilibrium (hs : SqrtFn sq) (h : Splits mats nodes nodes' pre post el el1 el2 a b c X L EI EA γ ν r) (hr : 0 < r) (hr' : r < 1)
    (hk : List.Forall₂ (IsMember (Routine sq) mats nodes) (pre ++ el :: post) ks)
    (hk' : List.Forall₂ (IsMember (Routine sq) mats nodes') (pre ++ el1 :: el2 :: post) ks')
    (hi : Inserts cons cons' c (splitField a b c X L r)) (hl : ∀ l ∈ loads, ∀ p, Names (cons.length + 1) l p ↔ Names cons.length l p)
    (hU : Equilibrium cons 3 loads ks U) : Equilibrium cons' 3 loads ks' (splitField a b c X L r U) := by
  obtain ⟨e1, e2⟩ := C124_balance hs h hr hr' hk hk' U
  refine ⟨hi.supports U hU.1, fun p j hf => ?_⟩
  rw [hi.size, isLoad_inserted hl]
  have hp := free_lt hf
  rw [hi.size] at hp
  by_cases hpc : p = c
  · rw [hpc, e2 j hf.1, hi.last]
    refine .inl ⟨fun l hl' ⟨x, z, _, hz, _⟩ => ?_, rfl⟩
    exact absurd hz.1 (lt_irrefl _)
  · have hlt : p < cons.length := by
      have := hi.last
      omega
    rw [e1 p j hf.1]
    exact hU.2 p j ((hi.free hlt).1 hf)

/-- A field that is zero at all nodes but `c`. -/
theorem split_zero {T : (ℕ → ℕ → K) → ℕ → ℕ → K} (hi : Inserts cons cons' c T) (hac : a < cons.length ∧ b < cons.length)
    (h0 : ∀ p j, p < cons.length → j < 3 → U p j = 0) : ∀ p j, p < cons'.length → j < 3 → splitField a b c X L r U p j = 0 := by
  intro p j hp hj
  by_cases hpc : p = c
  · subst hpc
    have z1 : ∀ j < 3, U a j = 0 := fun j hj => h0 a j hac.1 hj
    have z2 : ∀ j < 3, U b j = 0 := fun j hj => h0 b j hac.2 hj
    have x0 : ∀ i, across X L (endsOf a b U) i = 0 ∧ along X L (endsOf a b U) i = 0 := by
      intro i
      revert i
      refine Fin.forall_fin_two.2 ⟨?_, ?_⟩
      · rw [(across_left U).1, (across_left U).2, z1 0 (by omega), z1 1 (by omega)]
        simp
      · rw [(across_right U).1, (across_right U).2, z2 0 (by omega), z2 1 (by omega)]
        simp
    unfold splitField
    rw [if_pos rfl, (x0 0).1, (x0 1).1, (x0 0).2, (x0 1).2, z1 2 (by omega), z2 2 (by omega)]
    simp
  · rw [split_away hpc]
    refine h0 p j ?_ hj
    have := hi.size
    have := hi.last
    omega

/-- C124.  A divided frame that is stable was so before. -/
theorem C124_stable (hs : SqrtFn sq) (h : Splits mats nodes nodes' pre post el el1 el2 a b c X L EI EA γ ν r) (hr : 0 < r) (hr' : r < 1)
    (hk : List.Forall₂ (IsMember (Routine sq) mats nodes) (pre ++ el :: post) ks)
    (hk' : List.Forall₂ (IsMember (Routine sq) mats nodes') (pre ++ el1 :: el2 :: post) ks')
    (hi : Inserts cons cons' c (splitField a b c X L r)) (hst : Stable cons' 3 ks') : Stable cons 3 ks := by
  intro U hU h0 p j hp hj
  obtain ⟨e1, e2⟩ := C124_balance hs h hr hr' hk hk' U
  have hpc : p ≠ c := by
    have := hi.last
    omega
  rw [← split_away (a := a) (b := b) (X := X) (L := L) (r := r) (U := U) hpc j]
  refine hst _ (hi.supports U hU) (fun q i hf => ?_) p j (by rw [hi.size]; omega) hj
  by_cases hqc : q = c
  · rw [hqc]
    exact e2 i hf.1
  · rw [e1 q i hf.1]
    have hq := free_lt hf
    rw [hi.size] at hq
    have := hi.last
    exact h0 q i ((hi.free (by omega)).1 hf)

theorem forms_sub_right {nd : ℕ} (ms : List (Member K)) (v w u : ℕ → ℕ → K) : (ms.map fun m => m.form nd v (fun p j => w p j - u p j)).sum =
    (ms.map fun m => m.form nd v w).sum - (ms.map fun m => m.form nd v u).sum := by
  induction ms with
  | nil => simp
  | cons m t ih =>
    rw [List.map_cons, List.map_cons, List.map_cons, List.sum_cons, List.sum_cons, List.sum_cons, ih]
    simp only [Member.form, Member.force, mul_sub, Finset.sum_sub_distrib]
    ring

theorem forms_at {ms : List (Member K)} {n : ℕ} (hn : ∀ m ∈ ms, ∀ p ∈ m.nodes, p < n) {d : ℕ → ℕ → K} (hd : ∀ p j, p ≠ c → d p j = 0)
    (h0 : ∀ j < 3, internal 3 ms U c j = 0) : (ms.map fun m => m.form 3 d U).sum = 0 := by
  rw [← virtual_work hn]
  refine Finset.sum_eq_zero fun p _ => Finset.sum_eq_zero fun j hj => ?_
  by_cases hp : p = c
  · rw [hp, h0 j (Finset.mem_range.1 hj), mul_zero]
  · rw [hd p j hp, zero_mul]

theorem members_lt {fn : ℤ → Uel K → Prop} {els : List (List ℤ)} (h : List.Forall₂ (IsMember fn mats nodes) els ks) :
    ∀ m ∈ ks, ∀ p ∈ m.nodes, p < nodes.length := by
  intro m hm p hp
  obtain ⟨e, -, ty, mi, params, rows, f, kl, ml, -, -, -, a5, -⟩ := forall₂_mem h hm
  obtain ⟨id, -, hid⟩ := forall₂_mem a5 hp
  exact hid.1

/-- A beam with one end held that stores no energy is at rest. -/
theorem rigid_end (hL : IsLength X L) (hEI : 0 < EI) (hEA : 0 < EA) (h : EI * bendInt L (deflection a b X L U) (deflection a b X L U) +
    EA * ((extension a b X L U).coeff 1 * (extension a b X L U).coeff 1 * L) = 0) (h0 : ∀ j < 3, U a j = 0) : ∀ j < 3, U b j = 0 := by
  have hne := hL.1.ne'
  have hb := deflection_bends (a := a) (b := b) (X := X) hne U
  have hs := extension_stretches (a := a) (b := b) (X := X) hne U
  generalize hP : deflection a b X L U = P at h hb
  generalize hA : extension a b X L U = A at h hs
  have n1 := mul_nonneg hEI.le (bendInt_nonneg hL.1 P)
  have n2 : 0 ≤ EA * (A.coeff 1 * A.coeff 1 * L) := mul_nonneg hEA.le (mul_nonneg (mul_self_nonneg _) hL.1.le)
  have z1 := (mul_eq_zero.1 (by linarith : EI * bendInt L P P = 0)).resolve_left hEI.ne'
  have z2 := (mul_eq_zero.1 (by linarith : EA * (A.coeff 1 * A.coeff 1 * L) = 0)).resolve_left hEA.ne'
  have a1 : A.coeff 1 = 0 := mul_self_eq_zero.1 ((mul_eq_zero.1 z2).resolve_right hne)
  have e : bendInt L P P = 4 * L * ((P.coeff 2 + 3 / 2 * P.coeff 3 * L) ^ 2 + 3 / 4 * (P.coeff 3 * L) ^ 2) := by
    unfold bendInt
    ring
  rw [e] at z1
  have z1 := (mul_eq_zero.1 z1).resolve_left (mul_ne_zero (by norm_num) hne)
  have s1 := sq_nonneg (P.coeff 2 + 3 / 2 * P.coeff 3 * L)
  have s2 := sq_nonneg (P.coeff 3 * L)
  have t2 : (P.coeff 3 * L) ^ 2 = 0 := by linarith
  have t1 : (P.coeff 2 + 3 / 2 * P.coeff 3 * L) ^ 2 = 0 := by linarith
  have p3 : P.coeff 3 = 0 := (mul_eq_zero.1 (pow_eq_zero_iff (by omega) |>.1 t2)).resolve_right hne
  have p2 : P.coeff 2 = 0 := by
    have := pow_eq_zero_iff (by omega) |>.1 t1
    rw [p3] at this
    simpa using this
  have c0 := hb.start
  have c1 := hb.slope
  have c2 := hs.start
  rw [(across_left U).1, h0 0 (by omega), h0 1 (by omega), (eval_cubic hb.cubic 0).1] at c0
  rw [(eval_cubic hb.cubic 0).2.1, show endsOf a b U (0, 2) = U a 2 from rfl, h0 2 (by omega)] at c1
  rw [(across_left U).2, h0 0 (by omega), h0 1 (by omega), (eval_cubic (hs.linear.trans (by norm_num)) 0).1] at c2
  have p0 : P.coeff 0 = 0 := by simpa using c0.symm
  have p1 : P.coeff 1 = 0 := by simpa using c1.symm
  have a0 : A.coeff 0 = 0 := by simpa using c2.symm
  have a2 : A.coeff 2 = 0 := Polynomial.coeff_eq_zero_of_natDegree_lt (by have := hs.linear; omega)
  have a3 : A.coeff 3 = 0 := Polynomial.coeff_eq_zero_of_natDegree_lt (by have := hs.linear; omega)
  have P0 : P = 0 := by
    rw [cubic_form hb.cubic, p0, p1, p2, p3]
    simp
  have A0 : A = 0 := by
    rw [cubic_form (hs.linear.trans (by norm_num : 1 ≤ 3)), a0, a1, a2, a3]
    simp
  intro j hj
  exact (still_ends hL (hP.trans P0) (hA.trans A0) j hj).2

/-- C124.  A stable frame remains so when a beam of positive stiffnesses is divided by a free node. -/
theorem C124_stays_stable (hs : SqrtFn sq) (h : Splits mats nodes nodes' pre post el el1 el2 a b c X L EI EA γ ν r) (hr : 0 < r) (hr' : r < 1)
    (hk : List.Forall₂ (IsMember (Routine sq) mats nodes) (pre ++ el :: post) ks)
    (hk' : List.Forall₂ (IsMember (Routine sq) mats nodes') (pre ++ el1 :: el2 :: post) ks') (hsize : cons.length = nodes.length)
    (hi : Inserts cons cons' c (splitField a b c X L r)) (hEI : 0 < EI) (hEA : 0 < EA) (hfree : ∀ j < 3, Free cons' 3 c j)
    (hst : Stable cons 3 ks) : Stable cons' 3 ks' := by
  intro u hu h0
  have hab : a < cons.length ∧ b < cons.length := by
    rw [hsize]
    obtain ⟨_, -, g1⟩ := forall₂_mem h.whole.ends (y := a) (by simp)
    obtain ⟨_, -, g2⟩ := forall₂_mem h.whole.ends (y := b) (by simp)
    exact ⟨g1.1, g2.1⟩
  have hlast := hi.last
  have hadm : Admissible cons 3 u := fun p j hp hj hf => hu p j (by rw [hi.size]; omega) hj fun hf' => hf ((hi.free hp).1 hf')
  have hd : ∀ p j, p ≠ c → u p j - splitField a b c X L r u p j = 0 := fun p j hp => by rw [split_away hp, sub_self]
  have e1 := forms_at (members_lt hk') (d := fun p j => u p j - splitField a b c X L r u p j) hd (U := u) fun j hj => h0 c j (hfree j hj)
  have e2 := forms_at (members_lt hk') (d := fun p j => u p j - splitField a b c X L r u p j) hd (U := splitField a b c X L r u)
    (C124_balance hs h hr hr' hk hk' u).2
  have e3 := forms_sub_right (nd := 3) ks' (fun p j => u p j - splitField a b c X L r u p j) u (splitField a b c X L r u)
  rw [e1, e2, sub_zero] at e3
  generalize hD : (fun p j => u p j - splitField a b c X L r u p j) = D at e3
  have hD0 : ∀ p j, p ≠ c → D p j = 0 := by
    rw [← hD]
    exact hd
  have hDc : ∀ j < 3, D c j = 0 := by
    obtain ⟨y1, y2, rfl, b1, b2⟩ := forall₂_append_left hk'
    cases b2 with
    | @cons _ m1 _ _ d1 d2 =>
      cases d2 with
      | @cons _ m2 _ l d2 d3 =>
        have hz : ∀ m, (∃ e ∈ pre ++ post, IsMember (Routine sq) mats nodes' e m) → m.form 3 D D = 0 := by
          rintro m ⟨e, he, g⟩
          obtain ⟨a', b', X', L', EI', EA', γ', ν', -, h2, n1, n2⟩ := h.rest e he
          have hn := (h2.spring hs g).1
          unfold Member.form
          rw [hn]
          simp [Finset.sum_range_succ, hD0 _ _ n1, hD0 _ _ n2]
        rw [List.map_append, List.sum_append, List.map_cons, List.map_cons, List.sum_cons, List.sum_cons,
          List.sum_eq_zero (l := y1.map _) (by
            intro y hy
            obtain ⟨m, hm, rfl⟩ := List.mem_map.1 hy
            obtain ⟨e, he, g⟩ := forall₂_mem b1 hm
            exact hz m ⟨e, by simp [he], g⟩),
          List.sum_eq_zero (l := l.map _) (by
            intro y hy
            obtain ⟨m, hm, rfl⟩ := List.mem_map.1 hy
            obtain ⟨e, he, g⟩ := forall₂_mem d3 hm
            exact hz m ⟨e, by simp [he], g⟩), (h.first.spring hs d1).2, (h.second.spring hs d2).2] at e3
        have n1 := mul_nonneg hEI.le (bendInt_nonneg h.second.length.1 (deflection c b (secondPart X r) ((1 - r) * L) D))
        have n2 : 0 ≤ EA * ((extension c b (secondPart X r) ((1 - r) * L) D).coeff 1 *
            (extension c b (secondPart X r) ((1 - r) * L) D).coeff 1 * ((1 - r) * L)) :=
          mul_nonneg hEA.le (mul_nonneg (mul_self_nonneg _) h.second.length.1.le)
        have n3 := mul_nonneg hEI.le (bendInt_nonneg h.first.length.1 (deflection a c (firstPart X r) (r * L) D))
        have n4 : 0 ≤ EA * ((extension a c (firstPart X r) (r * L) D).coeff 1 * (extension a c (firstPart X r) (r * L) D).coeff 1 * (r * L)) :=
          mul_nonneg hEA.le (mul_nonneg (mul_self_nonneg _) h.first.length.1.le)
        exact rigid_end h.first.length hEI hEA (by linarith) fun j _ => hD0 a j h.apart.1
  have hint : ∀ p j, j < 3 → internal 3 ks' u p j = internal 3 ks' (splitField a b c X L r u) p j := by
    intro p j hj
    rw [internal_unit ks' _ p hj, internal_unit ks' _ p hj]
    have := forms_sub_right (nd := 3) ks' (fun q i => if q = p ∧ i = j then 1 else 0) u (splitField a b c X L r u)
    rw [hD] at this
    have z : (ks'.map fun m => m.form 3 (fun q i => if q = p ∧ i = j then 1 else 0) D).sum = 0 := by
      refine List.sum_eq_zero fun y hy => ?_
      obtain ⟨m, hm, rfl⟩ := List.mem_map.1 hy
      refine Finset.sum_eq_zero fun i _ => Finset.sum_eq_zero fun k _ => ?_
      unfold Member.force
      rw [Finset.sum_eq_zero fun i' _ => Finset.sum_eq_zero fun k' hk' => ?_, mul_zero]
      by_cases hq : m.nodes.getD i' 0 = c
      · rw [hq, hDc k' (Finset.mem_range.1 hk'), mul_zero]
      · rw [hD0 _ _ hq, mul_zero]
    rw [z] at this
    exact (sub_eq_zero.1 this.symm)
  have hz := hst u hadm fun p j hf => by
    have hp := free_lt hf
    rw [← (C124_balance hs h hr hr' hk hk' u).1 p j hf.1, ← hint p j hf.1]
    exact h0 p j ((hi.free hp).2 hf)
  intro p j hp hj
  have := split_zero (X := X) (L := L) (r := r) hi hab hz p j hp hj
  rw [← this]
  by_cases hpc : p = c
  · have h1 := hDc j hj
    rw [← hD] at h1
    rw [hpc]
    exact sub_eq_zero.1 h1
  · exact sub_eq_zero.1 (hd p j hpc)

theorem frameRun_equilibrium (hf : Frame cons nodes els) (hms : List.Forall₂ (IsMember (Routine sq) mats nodes) els ks)
    (hst : Stable cons 3 ks) {sp de : Sol.Solver K} (hsp : SolverOk sp) (hde : SolverOk de) {sparse : Bool} {full : Table K}
    (h : frameRun sq sp de sparse cons els mats nodes loads = .ok full) : Equilibrium cons 3 loads ks (fieldOf full) := by
  obtain ⟨op, bc, neq, Kg, Mg, rhs, x, h1, h2, h3, h4, h6⟩ := frameRun_ok.1 h
  obtain ⟨ms', s⟩ := frame_setup hf h1 h2
  obtain rfl := frame_members_unique hms s.mem
  have hso : SolverOk (if sparse then sp else de) := by cases sparse <;> simpa
  obtain ⟨x', h4', h5⟩ := hso neq Kg rhs (det_ne_zero_of_stable s hst)
  rw [h4, Except.ok.injEq] at h4'
  subst h4'
  rw [← hf.size] at h6
  exact (equilibrium_iff s h3 (completes_of_completeDisp h6)).2 h5

/-- C124.  The analysis of the divided frame returns the displacements and rotations of the undivided one at its nodes, and those of the curve
of the undivided beam at the new node. -/
theorem C124_run (hs : SqrtFn sq) (h : Splits mats nodes nodes' pre post el el1 el2 a b c X L EI EA γ ν r) (hr : 0 < r) (hr' : r < 1)
    (hf : Frame cons nodes (pre ++ el :: post)) (hf' : Frame cons' nodes' (pre ++ el1 :: el2 :: post))
    (hk : List.Forall₂ (IsMember (Routine sq) mats nodes) (pre ++ el :: post) ks)
    (hk' : List.Forall₂ (IsMember (Routine sq) mats nodes') (pre ++ el1 :: el2 :: post) ks')
    (hi : Inserts cons cons' c (splitField a b c X L r)) (hl : ∀ l ∈ loads, ∀ p, Names (cons.length + 1) l p ↔ Names cons.length l p)
    (hst : Stable cons' 3 ks') {sp de : Sol.Solver K} (hsp : SolverOk sp) (hde : SolverOk de) {sparse sparse' : Bool} {full full' : Table K}
    (hrun : frameRun sq sp de sparse cons (pre ++ el :: post) mats nodes loads = .ok full)
    (hrun' : frameRun sq sp de sparse' cons' (pre ++ el1 :: el2 :: post) mats nodes' loads = .ok full') :
    (∀ p < nodes.length, ∀ j < 3, entry full' p j = entry full p j) ∧
      ∀ j < 3, entry full' c j = some (splitField a b c X L r (fieldOf full) c j) := by
  have hst0 := C124_stable hs h hr hr' hk hk' hi hst
  have q0 := frameRun_equilibrium hf hk hst0 hsp hde hrun
  have q1 := C124_equilibrium hs h hr hr' hk hk' hi hl q0
  have u0 := C117_unique hf hk hst0 hsp hde hrun q0
  have u1 := C117_unique hf' hk' hst hsp hde hrun' q1
  have hsz := hf.size
  have hsz' := hf'.size
  have hsi := hi.size
  have hla := hi.last
  refine ⟨fun p hp j hj => ?_, fun j hj => u1 c j (by omega) hj⟩
  rw [u1 p j (by omega) hj, u0 p j hp hj, split_away (by omega)]

/-- The values at the new node are linear in the field. -/
theorem split_sum {n : ℕ} (x : Fin n → K) (u : Fin n → ℕ → ℕ → K) :
    splitField a b c X L r (fun p j => ∑ i, x i * u i p j) = fun p j => ∑ i, x i * splitField a b c X L r (u i) p j := by
  have hadd : ∀ {f g : Fin n → K}, (∑ i, x i * f i) + ∑ i, x i * g i = ∑ i, x i * (f i + g i) := by
    intro f g
    rw [← Finset.sum_add_distrib]
    exact Finset.sum_congr rfl fun i _ => by ring
  have hsub : ∀ {f g : Fin n → K}, (∑ i, x i * f i) - ∑ i, x i * g i = ∑ i, x i * (f i - g i) := by
    intro f g
    rw [← Finset.sum_sub_distrib]
    exact Finset.sum_congr rfl fun i _ => by ring
  have hmul : ∀ {f : Fin n → K} (y : K), y * ∑ i, x i * f i = ∑ i, x i * (y * f i) := by
    intro f y
    rw [Finset.mul_sum]
    exact Finset.sum_congr rfl fun i _ => by ring
  have hdiv : ∀ {f : Fin n → K} (y : K), (∑ i, x i * f i) / y = ∑ i, x i * (f i / y) := by
    intro f y
    rw [Finset.sum_div]
    exact Finset.sum_congr rfl fun i _ => by ring
  funext p j
  unfold splitField
  by_cases hp : p = c
  · simp only [if_pos hp, (across_left _).1, (across_left _).2, (across_right _).1, (across_right _).2, hmul, hadd, hsub, hdiv]
    by_cases h0 : j = 0
    · simp only [if_pos h0]
    · by_cases h1 : j = 1
      · simp only [if_neg h0, if_pos h1]
      · by_cases h2 : j = 2
        · simp only [if_neg h0, if_neg h1, if_pos h2]
        · simp only [if_neg h0, if_neg h1, if_neg h2, mul_zero, Finset.sum_const_zero]
  · simp only [if_neg hp]

end

section
variable {sq : ℝ → ℝ} {cons mats nodes cons' nodes' : Table ℝ} {pre post : List (List ℤ)} {el el1 el2 : List ℤ}
  {a b c : ℕ} {X : Matrix (Fin 2) (Fin 2) ℝ} {L EI EA γ ν r : ℝ} {ks ks' ms ms' : List (Member ℝ)} {neq neq' : ℕ}
  {Kg Mg : Matrix (Fin neq) (Fin neq) ℝ} {Kg' Mg' : Matrix (Fin neq') (Fin neq') ℝ} {w : Fin neq → ℝ} {φ : Fin neq → Fin neq → ℝ}
  {w' : Fin neq' → ℝ} {φ' : Fin neq' → Fin neq' → ℝ}

/-- C124.  Dividing a beam raises no natural frequency. -/
theorem C124_frequencies (hs : SqrtFn sq) (h : Splits mats nodes nodes' pre post el el1 el2 a b c X L EI EA γ ν r) (hr : 0 < r) (hr' : r < 1)
    (hi : Inserts cons cons' c (splitField a b c X L r)) (hb : BeamModel sq cons mats nodes (pre ++ el :: post) ks ms Kg Mg)
    (hb' : BeamModel sq cons' mats nodes' (pre ++ el1 :: el2 :: post) ks' ms' Kg' Mg') (hm : Modes Kg Mg w φ) (hm' : Modes Kg' Mg' w' φ')
    (k : Fin neq) (k' : Fin neq') (hkk : (k : ℕ) = k') : w' k' ≤ w k := by
  rw [C122_minmax hs hb' hm', ← hkk]
  obtain ⟨u, h1, h2, h3⟩ := (C122_minmax hs hb hm k _).1 le_rfl
  refine ⟨fun i => splitField a b c X L r (u i), fun i => hi.supports _ (h1 i), fun x hx => h2 x fun p hp j hj => ?_, fun x => ?_⟩
  · have hla := hi.last
    have hsz := hi.size
    have := hx p (by omega) j hj
    dsimp only at this
    rw [← this]
    exact Finset.sum_congr rfl fun i _ => by rw [split_away (by omega)]
  · rw [← split_sum]
    have := C124_forms hs h hr hr' hb.springs hb'.springs hb.masses hb'.masses
    unfold energyOf
    rw [(this _ _).1, (this _ _).2]
    have e : (ks.map fun m => m.form 3 (splitField a b c X L r (fun p j => ∑ i, x i * u i p j)) (fun p j => ∑ i, x i * u i p j)).sum =
        (ks.map fun m => m.form 3 (fun p j => ∑ i, x i * u i p j) (fun p j => ∑ i, x i * u i p j)).sum := by
      refine sum_pairs hb.springs hb.springs fun e he m m' g g' => ?_
      obtain rfl := isMember_unique g g'
      have he' : e = el ∨ e ∈ pre ++ post := by
        simp only [List.mem_append, List.mem_cons] at he ⊢
        tauto
      rcases he' with rfl | he'
      · exact (h.whole.local hs h.whole (fun j => ⟨split_away h.apart.1 j, split_away h.apart.2 j⟩) fun j => ⟨rfl, rfl⟩).1 m m g g
      · obtain ⟨a', b', X', L', EI', EA', γ', ν', q1, -, n1, n2⟩ := h.rest e he'
        exact (q1.local hs q1 (fun j => ⟨split_away n1 j, split_away n2 j⟩) fun j => ⟨rfl, rfl⟩).1 m m g g
    rw [e]
    exact h3 x

end

/-- The frame of `/repo/tests/test_integration.py:106-120` with its column divided in the middle by a fourth node. -/
noncomputable def splitFrame : Table ℝ × List (List ℤ) × Table ℝ :=
  ([[-1, -1, -1], [0, 0, 0], [-1, -1, -1], [0, 0, 0]],
    [[0, 8, 0, 0, 3], [2, 8, 0, 3, 1], [1, 8, 0, 1, 2]],
    [[0, 0, 0], [1, 0, 6], [2, 4, 6], [3, 0, 3]])

theorem splitFrame_splits : Splits testFrame.2.2.1 testFrame.2.2.2.1 splitFrame.2.2 [] [[1, 8, 0, 1, 2]] [0, 8, 0, 0, 1] [0, 8, 0, 0, 3]
    [2, 8, 0, 3, 1] 0 1 3 !![0, 0; 0, 6] 6 26600000 8000000000 (1 / 25) (1 / 25) (1 / 2) := by
  have hp : BeamParams [(200000000000 : ℝ), 133 / 1000000, 1 / 25] 200000000000 (133 / 1000000) (1 / 25) (1 / 25) :=
    ⟨by norm_num, Or.inl ⟨rfl, rfl⟩⟩
  have hmat : ∀ id a b : ℤ, ∃ mi, ∃ q : ℕ, ∃ params, [id, 8, 0, a, b][2]? = some mi ∧ Resolves testFrame.2.2.1.length mi q ∧
      testFrame.2.2.1[q]? = some params ∧
      (([id, 8, 0, a, b][1]? = some 7 ∧ (8000000000 : ℝ) = 0 ∧ (1 / 25 : ℝ) = 0 ∧ ∃ E I, BeamUParams params E I (1 / 25) ∧ 26600000 = E * I) ∨
      ([id, 8, 0, a, b][1]? = some 8 ∧ (1 / 25 : ℝ) = 1 / 25 ∧ ∃ E I A, BeamParams params E I A (1 / 25) ∧ 26600000 = E * I ∧ 8000000000 = E * A)) :=
    fun id a b => ⟨0, 0, _, rfl, ⟨by simp [testFrame], .inl rfl⟩, rfl, .inr ⟨rfl, rfl, _, _, _, hp, by norm_num, by norm_num⟩⟩
  refine ⟨?_, ?_, ?_, by omega, ?_⟩
  · exact ⟨.cons ⟨by simp [testFrame], .inl rfl⟩ (.cons ⟨by simp [testFrame], .inl rfl⟩ .nil), ⟨0, rfl⟩, ⟨1, rfl⟩,
      ⟨by norm_num, by norm_num⟩, hmat 0 0 1⟩
  · refine ⟨.cons ⟨by simp [splitFrame], .inl rfl⟩ (.cons ⟨by simp [splitFrame], .inl rfl⟩ .nil), ⟨0, ?_⟩, ⟨3, ?_⟩,
      ⟨by norm_num, by norm_num [firstPart]⟩, hmat 0 0 3⟩ <;> norm_num [firstPart, splitFrame]
  · refine ⟨.cons ⟨by simp [splitFrame], .inl rfl⟩ (.cons ⟨by simp [splitFrame], .inl rfl⟩ .nil), ⟨3, ?_⟩, ⟨1, ?_⟩,
      ⟨by norm_num, by norm_num [secondPart]⟩, hmat 2 3 1⟩ <;> norm_num [secondPart, splitFrame]
  · intro e he
    simp only [List.nil_append, List.mem_singleton] at he
    subst he
    exact ⟨1, 2, !![0, 6; 4, 6], 4, _, _, _, _, ⟨.cons ⟨by simp [testFrame], .inl rfl⟩ (.cons ⟨by simp [testFrame], .inl rfl⟩ .nil),
      ⟨1, rfl⟩, ⟨2, rfl⟩, ⟨by norm_num, by norm_num⟩, hmat 1 1 2⟩,
      ⟨.cons ⟨by simp [splitFrame], .inl rfl⟩ (.cons ⟨by simp [splitFrame], .inl rfl⟩ .nil),
      ⟨1, rfl⟩, ⟨2, rfl⟩, ⟨by norm_num, by norm_num⟩, hmat 1 1 2⟩, by omega, by omega⟩

theorem testFrame_stable {ks : List (Member ℝ)}
    (hk : List.Forall₂ (IsMember (Routine Real.sqrt) testFrame.2.2.1 testFrame.2.2.2.1) testFrame.2.1 ks) : Stable testFrame.1 3 ks := by
  intro u hu h0
  have hz : ∀ j < 3, u 0 j = 0 ∧ u 2 j = 0 := fun j hj =>
    ⟨hu 0 j (by simp [testFrame]) hj (by rw [testFrame_free]; omega), hu 2 j (by simp [testFrame]) hj (by rw [testFrame_free]; omega)⟩
  have e : (ks.map fun m => m.form 3 u u).sum = 0 := by
    rw [← virtual_work (members_lt hk)]
    refine Finset.sum_eq_zero fun p hp => Finset.sum_eq_zero fun j hj => ?_
    have hp : p < 3 := Finset.mem_range.1 hp
    rw [Finset.mem_range] at hj
    rcases (by omega : p = 0 ∨ p = 1 ∨ p = 2) with rfl | rfl | rfl
    · rw [(hz j hj).1, zero_mul]
    · rw [h0 1 j ((testFrame_free 1 j).2 ⟨rfl, hj⟩), mul_zero]
    · rw [(hz j hj).2, zero_mul]
  have hB := splitFrame_splits.whole
  have hpos : ∀ m ∈ ks, 0 ≤ m.form 3 u u := by
    intro m hm
    obtain ⟨el, hel, g⟩ := forall₂_mem hk hm
    obtain ⟨a, b, X, L, hb⟩ := testFrame_beams el hel
    rw [(hb.spring sqrtFn_real g).2]
    exact add_nonneg (mul_nonneg (by norm_num) (bendInt_nonneg hb.length.1 _))
      (mul_nonneg (by norm_num) (mul_nonneg (mul_self_nonneg _) hb.length.1.le))
  obtain ⟨m, hm, g⟩ := forall₂_mem' hk (x := [0, 8, 0, 0, 1]) (by simp [testFrame])
  have h1 := (sum_pos_zero hpos).1 e m hm
  rw [(hB.spring sqrtFn_real g).2] at h1
  have h2 := rigid_end hB.length (by norm_num) (by norm_num) h1 fun j hj => (hz j hj).1
  intro p j hp hj
  have hp : p < 3 := hp
  rcases (by omega : p = 0 ∨ p = 1 ∨ p = 2) with rfl | rfl | rfl
  · exact (hz j hj).1
  · exact h2 j hj
  · exact (hz j hj).2

theorem splitFrame_frame : Frame splitFrame.1 splitFrame.2.2 splitFrame.2.1 where
  codes := by
    intro i j v hj hv
    obtain ⟨row, h1, h2⟩ := entry_some.1 hv
    have hlt : i < 4 := (List.getElem?_eq_some_iff.1 h1).1
    rcases (by omega : i = 0 ∨ i = 1 ∨ i = 2 ∨ i = 3) with rfl | rfl | rfl | rfl <;>
      rcases (by omega : j = 0 ∨ j = 1 ∨ j = 2) with rfl | rfl | rfl <;>
      simp [splitFrame] at h1 <;> subst h1 <;> simp at h2 <;> simp [← h2]
  width := by simp [splitFrame]
  size := by simp [splitFrame]
  beams := by simp [splitFrame]

/-- The analysis of the divided frame returns the displacements and the rotation of the corner of the test. -/
theorem splitFrame_solved (sparse : Bool) : ∃ full, frameRun Real.sqrt cramerR cramerR sparse splitFrame.1 splitFrame.2.1 testFrame.2.2.1
      splitFrame.2.2 testFrame.2.2.2.2 = .ok full ∧
    entry full 1 0 = some (-181569276 / 28874167400125) ∧ entry full 1 1 = some (-489357306 / 28874167400125) ∧
    entry full 1 2 = some (-507505867191 / 3840264264216625) := by
  obtain ⟨full, hrun, e0, e1, e2⟩ := testFrame_solved sparse
  have h := splitFrame_splits
  obtain ⟨m0, g0⟩ := h.whole.exists_member sqrtFn_real
  obtain ⟨m1, g1⟩ := h.first.exists_member sqrtFn_real
  obtain ⟨m2, g2⟩ := h.second.exists_member sqrtFn_real
  obtain ⟨_, _, _, _, _, _, _, _, hr, hr', _⟩ := h.rest [1, 8, 0, 1, 2] (by simp)
  obtain ⟨m3, g3⟩ := hr.exists_member sqrtFn_real
  obtain ⟨m4, g4⟩ := hr'.exists_member sqrtFn_real
  have hk : List.Forall₂ (IsMember (Routine Real.sqrt) testFrame.2.2.1 testFrame.2.2.2.1) ([] ++ [0, 8, 0, 0, 1] :: [[1, 8, 0, 1, 2]]) [m0, m3] :=
    .cons g0 (.cons g3 .nil)
  have hk' : List.Forall₂ (IsMember (Routine Real.sqrt) testFrame.2.2.1 splitFrame.2.2)
      ([] ++ [0, 8, 0, 0, 3] :: [2, 8, 0, 3, 1] :: [[1, 8, 0, 1, 2]]) [m1, m2, m4] := .cons g1 (.cons g2 (.cons g4 .nil))
  have hi : Inserts testFrame.1 splitFrame.1 3 (splitField 0 1 3 !![0, 0; 0, 6] 6 (1 / 2)) := inserts_free (cons := testFrame.1)
  have hst : Stable testFrame.1 3 [m0, m3] := testFrame_stable hk
  have hst' := C124_stays_stable (cons := testFrame.1) sqrtFn_real h (by norm_num) (by norm_num) hk hk' rfl hi (by norm_num) (by norm_num) (by
    intro j hj
    refine ⟨hj, 0, ?_, by norm_num, by norm_num⟩
    rcases (by omega : j = 0 ∨ j = 1 ∨ j = 2) with rfl | rfl | rfl <;> rfl) hst
  have hn : ∀ n, 2 ≤ n → ∀ p, Names (K := ℝ) n [1, -12000, -24000, -6000] p ↔ p = 1 := by
    intro n hn p
    constructor
    · rintro ⟨x, z, hx, hz, hc⟩
      simp only [List.getElem?_cons_zero, Option.some.injEq] at hx
      subst hx
      rcases hc with ⟨-, c1, c2⟩ | ⟨c1, -⟩
      · have c1 : z ≤ 1 := by exact_mod_cast c1
        have c2 : 1 < z + 1 := by exact_mod_cast c2
        obtain ⟨h1, h2⟩ := hz
        omega
      · norm_num at c1
    · rintro rfl
      exact ⟨1, 1, rfl, ⟨by omega, .inl rfl⟩, .inl ⟨by norm_num, by norm_num, by norm_num⟩⟩
  obtain ⟨full', hrun', -⟩ := C117_solved (loads := testFrame.2.2.2.2) splitFrame_frame hk' hst' cramerR_ok cramerR_ok sparse (by
    intro l hl
    simp only [testFrame, List.mem_singleton] at hl
    subst hl
    exact ⟨by simp, 1, (hn _ (by simp [splitFrame]) 1).2 rfl⟩)
  have := (C124_run sqrtFn_real h (by norm_num) (by norm_num) testFrame_frame splitFrame_frame hk hk' hi (by
    intro l hl p
    simp only [testFrame, List.mem_singleton] at hl
    subst hl
    rw [hn _ (by simp [testFrame]), hn _ (by simp [testFrame])]) hst' cramerR_ok cramerR_ok hrun hrun').1 1 (by simp [testFrame])
  exact ⟨full', hrun', (this 0 (by omega)).trans e0, (this 1 (by omega)).trans e1, (this 2 (by omega)).trans e2⟩

end SolidsPy
