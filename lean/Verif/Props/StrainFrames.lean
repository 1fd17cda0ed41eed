import Verif.Props.Magnified
import Verif.Props.PlateStrains
import Verif.Props.Principal

/-! # Nodal strains and stresses of a model seen in another frame or at another size (C127) -/

set_option linter.unusedSectionVars false

namespace SolidsPy
open Spec Assem Matrix Fem Uel Gauss

section
variable {K : Type} [Field K] [LinearOrder K] [IsStrictOrderedRing K] [FloorRing K]
variable {sq : K → K} {sp de : Sol.Solver K} {d d' : Gui.Data K} {ms ms' : List (Member K)}
variable {Q : Matrix (Fin 2) (Fin 2) K} {s c : K} {t : Fin 2 → K} {nodes nodes' mats sol sol' : Table K} {els : List (List ℤ)}

/-- The strain tensor of a row `(exx, eyy, gxy)`. -/
def Spec.planeStrain (e : Fin 3 → K) : Matrix (Fin 2) (Fin 2) K := !![e 0, e 2 / 2; e 2 / 2, e 1]

/-- The stress tensor of a row `(sxx, syy, sxy)`. -/
def Spec.planeStress (s : Fin 3 → K) : Matrix (Fin 2) (Fin 2) K := !![s 0, s 2; s 2, s 1]

/-- The nodes are turned by `Q`, moved apart by the factor `s` and shifted by `t`; the displacements are turned and multiplied by `c`. -/
structure Spec.Similar (Q : Matrix (Fin 2) (Fin 2) K) (s c : K) (t : Fin 2 → K) (nodes nodes' sol sol' : Table K) : Prop where
  size : nodes'.length = nodes.length
  sols : sol.length = nodes.length
  sols' : sol'.length = nodes.length
  coord : ∀ p < nodes.length, ∀ i : Fin 2,
    coordOf nodes' p i = s * (Q i 0 * coordOf nodes p 0 + Q i 1 * coordOf nodes p 1) + t i
  disp : ∀ p < nodes.length, ∀ i : Fin 2, fieldOf sol' p i = c * (Q i 0 * fieldOf sol p 0 + Q i 1 * fieldOf sol p 1)

/-- What the element loop reads. -/
theorem coordsOf_read {nodes : Table K} {el : List ℤ} {xs : Table K} (hx : coordsOf nodes el = .ok xs) {n : ℕ}
    {X : Matrix (Fin n) (Fin 2) K} (hX : toMat n 2 xs = .ok X) {a : Fin n} {z : ℤ} (hz : (el.drop 3)[(a : ℕ)]? = some z) {p : ℕ}
    (hp : Resolves nodes.length z p) (i : Fin 2) : X a i = coordOf nodes p i := by
  have hxa : xs[(a : ℕ)]? = some [X a 0, X a 1] := by
    rw [toMat_ok hX, matRows]
    simp
  obtain ⟨row, h1, h2⟩ := mapM_getElem? hx hz
  rw [hxa, Option.some.injEq] at h1
  subst h1
  obtain ⟨nd, h5, h2⟩ := bind_ok.1 h2
  obtain ⟨x, h6, h2⟩ := bind_ok.1 h2
  obtain ⟨y, h7, h2⟩ := bind_ok.1 h2
  have h2 := pure_ok.1 h2
  simp only [List.cons.injEq, and_true] at h2
  obtain ⟨k, hk, hnd⟩ := pyGet_resolves.1 h5
  obtain rfl := resolves_unique hp hk
  have h6 := pyGet_one.1 h6
  have h7 := pyGet_two.1 h7
  unfold coordOf fieldOf
  have : entry nodes p (i + 1) = some (X a i) := by
    rw [entry_some]
    refine ⟨nd, hnd, ?_⟩
    rw [h2.1] at h6
    rw [h2.2] at h7
    fin_cases i
    · exact h6
    · exact h7
  rw [this]
  rfl

theorem dispOf_read {sol : Table K} {el : List ℤ} {us : Table K} (hu : dispOf sol el = .ok us) {a : ℕ} {z : ℤ}
    (hz : (el.drop 3)[a]? = some z) {p : ℕ} (hp : Resolves sol.length z p) (i : Fin 2) :
    (us.getD a []).getD i 0 = fieldOf sol p i := by
  obtain ⟨row, h1, h2⟩ := mapM_getElem? hu hz
  obtain ⟨u, h5, h2⟩ := bind_ok.1 h2
  obtain ⟨x, h6, h2⟩ := bind_ok.1 h2
  obtain ⟨y, h7, h2⟩ := bind_ok.1 h2
  have h2 := pure_ok.1 h2
  subst h2
  obtain ⟨k, hk, hnd⟩ := pyGet_resolves.1 h5
  obtain rfl := resolves_unique hp hk
  have h6 := pyGet_zero.1 h6
  have h7 := pyGet_one.1 h7
  have hg : us.getD a [] = [x, y] := by rw [List.getD_eq_getElem?_getD, h1, Option.getD_some]
  rw [hg]
  unfold fieldOf
  fin_cases i
  · have : entry sol p 0 = some x := entry_some.2 ⟨u, hnd, h6⟩
    simp [this]
  · have : entry sol p 1 = some y := entry_some.2 ⟨u, hnd, h7⟩
    simp [this]

/-- Strain rows in the turned frame. -/
def strainTurn (Q : Matrix (Fin 2) (Fin 2) K) : Matrix (Fin 3) (Fin 3) K :=
  !![Q 0 0 * Q 0 0, Q 0 1 * Q 0 1, Q 0 0 * Q 0 1;
     Q 1 0 * Q 1 0, Q 1 1 * Q 1 1, Q 1 0 * Q 1 1;
     2 * Q 0 0 * Q 1 0, 2 * Q 0 1 * Q 1 1, Q 0 0 * Q 1 1 + Q 0 1 * Q 1 0]

/-- Stress rows in the turned frame. -/
def stressTurn (Q : Matrix (Fin 2) (Fin 2) K) : Matrix (Fin 3) (Fin 3) K :=
  !![Q 0 0 * Q 0 0, Q 0 1 * Q 0 1, 2 * Q 0 0 * Q 0 1;
     Q 1 0 * Q 1 0, Q 1 1 * Q 1 1, 2 * Q 1 0 * Q 1 1;
     Q 0 0 * Q 1 0, Q 0 1 * Q 1 1, Q 0 0 * Q 1 1 + Q 0 1 * Q 1 0]

theorem mulVec3 (M : Matrix (Fin 3) (Fin 3) K) (e : Fin 3 → K) (i : Fin 3) : M.mulVec e i = M i 0 * e 0 + M i 1 * e 1 + M i 2 * e 2 := by
  rw [Matrix.mulVec, dotProduct, Fin.sum_univ_three]

theorem planeStrain_turn (k : K) (e : Fin 3 → K) :
    planeStrain (k • (strainTurn Q).mulVec e) = k • (Q * planeStrain e * Q.transpose) := by
  have e0 : (strainTurn Q).mulVec e 0 = Q 0 0 * Q 0 0 * e 0 + Q 0 1 * Q 0 1 * e 1 + Q 0 0 * Q 0 1 * e 2 := mulVec3 _ _ _
  have e1 : (strainTurn Q).mulVec e 1 = Q 1 0 * Q 1 0 * e 0 + Q 1 1 * Q 1 1 * e 1 + Q 1 0 * Q 1 1 * e 2 := mulVec3 _ _ _
  have e2 : (strainTurn Q).mulVec e 2 = 2 * Q 0 0 * Q 1 0 * e 0 + 2 * Q 0 1 * Q 1 1 * e 1 + (Q 0 0 * Q 1 1 + Q 0 1 * Q 1 0) * e 2 :=
    mulVec3 _ _ _
  ext i j
  fin_cases i <;> fin_cases j <;>
    simp [planeStrain, Matrix.mul_apply, Fin.sum_univ_two, e0, e1, e2] <;> first | ring1 | (left; ring1)

theorem planeStress_turn (k : K) (e : Fin 3 → K) :
    planeStress (k • (stressTurn Q).mulVec e) = k • (Q * planeStress e * Q.transpose) := by
  have e0 : (stressTurn Q).mulVec e 0 = Q 0 0 * Q 0 0 * e 0 + Q 0 1 * Q 0 1 * e 1 + 2 * Q 0 0 * Q 0 1 * e 2 := mulVec3 _ _ _
  have e1 : (stressTurn Q).mulVec e 1 = Q 1 0 * Q 1 0 * e 0 + Q 1 1 * Q 1 1 * e 1 + 2 * Q 1 0 * Q 1 1 * e 2 := mulVec3 _ _ _
  have e2 : (stressTurn Q).mulVec e 2 = Q 0 0 * Q 1 0 * e 0 + Q 0 1 * Q 1 1 * e 1 + (Q 0 0 * Q 1 1 + Q 0 1 * Q 1 0) * e 2 :=
    mulVec3 _ _ _
  ext i j
  fin_cases i <;> fin_cases j <;>
    simp [planeStress, Matrix.mul_apply, Fin.sum_univ_two, e0, e1, e2] <;> first | ring1 | (left; ring1)

theorem bMat2_strainOf {n : ℕ} (g : Matrix (Fin 2) (Fin n) K) (u : Fin n × Fin 2 → K) :
    (bMat2 g).mulVec u = strainOf (dgrad g u) := by
  rw [bMat2_mulVec]
  unfold strainOf dgrad
  simp only [Matrix.of_apply]

theorem strainOf_turn (k : K) (G : Matrix (Fin 2) (Fin 2) K) :
    strainOf (k • (Q * G * Q.transpose)) = k • (strainTurn Q).mulVec (strainOf G) := by
  funext i
  rw [Pi.smul_apply, mulVec3]
  fin_cases i <;>
    simp [strainOf, strainTurn, Matrix.mul_apply, Fin.sum_univ_two] <;> first | ring1 | (left; ring1)

/-- The law of an isotropic material is the same in every frame. -/
theorem umat_turn {params : List K} {C : Matrix (Fin 3) (Fin 3) K} (h : umat params = .ok C) (hQ : Q.transpose * Q = 1) (e : Fin 3 → K) :
    C.mulVec ((strainTurn Q).mulVec e) = (stressTurn Q).mulVec (C.mulVec e) := by
  obtain ⟨E, nu, -, -, rfl⟩ := umat_ok.1 h
  obtain ⟨h1, h2, h3⟩ := rot_cells hQ
  have hQ' : Q * Q.transpose = 1 := mul_eq_one_comm.1 hQ
  have g1 : Q 0 0 * Q 0 0 + Q 0 1 * Q 0 1 = 1 := by
    simpa [Matrix.mul_apply, Fin.sum_univ_two] using congrFun₂ hQ' 0 0
  have g2 : Q 0 0 * Q 1 0 + Q 0 1 * Q 1 1 = 0 := by
    simpa [Matrix.mul_apply, Fin.sum_univ_two] using congrFun₂ hQ' 0 1
  have g3 : Q 1 0 * Q 1 0 + Q 1 1 * Q 1 1 = 1 := by
    simpa [Matrix.mul_apply, Fin.sum_univ_two] using congrFun₂ hQ' 1 1
  rw [umat_mulVec, umat_mulVec]
  generalize E / (1 - nu ^ 2) = w
  have e0 : (strainTurn Q).mulVec e 0 = Q 0 0 * Q 0 0 * e 0 + Q 0 1 * Q 0 1 * e 1 + Q 0 0 * Q 0 1 * e 2 := mulVec3 _ _ _
  have e1 : (strainTurn Q).mulVec e 1 = Q 1 0 * Q 1 0 * e 0 + Q 1 1 * Q 1 1 * e 1 + Q 1 0 * Q 1 1 * e 2 := mulVec3 _ _ _
  have e2 : (strainTurn Q).mulVec e 2 = 2 * Q 0 0 * Q 1 0 * e 0 + 2 * Q 0 1 * Q 1 1 * e 1 + (Q 0 0 * Q 1 1 + Q 0 1 * Q 1 0) * e 2 :=
    mulVec3 _ _ _
  generalize (strainTurn Q).mulVec e = v at *
  funext i
  rw [mulVec3]
  fin_cases i
  · simp [e0, e1, e2, stressTurn]
    linear_combination w * nu * (e 0 * h1 + e 1 * h3 + e 2 * h2) - w * nu * (e 0 + e 1) * g1
  · simp [e0, e1, e2, stressTurn]
    linear_combination w * nu * (e 0 * h1 + e 1 * h3 + e 2 * h2) - w * nu * (e 0 + e 1) * g3
  · simp [e0, e1, e2, stressTurn]
    linear_combination - w * nu * (e 0 + e 1) * g2

/-- The strains of one element at a point. -/
theorem point_turn {n : ℕ} {f : K → K → Shape K 2 n} (hf : PlaneShape n f) {r r' : K} {X X' : Matrix (Fin n) (Fin 2) K}
    {u u' : Fin n × Fin 2 → K} (hs : s ≠ 0) (hQ : Q.transpose * Q = 1) (hd : Q.det = 1)
    (hX : X' = shifted (s • (X * Q.transpose)) t) (hu : u' = c • (turn n Q).mulVec u) :
    jdet (f r r') X' = s ^ 2 * jdet (f r r') X ∧ (jdet (f r r') X ≠ 0 →
    (bMat2 (grad (f r r').2 X')).mulVec u' = (c / s) • (strainTurn Q).mulVec ((bMat2 (grad (f r r').2 X)).mulVec u)) := by
  subst hX hu
  have hz := (planeShape_unity hf r r').2
  constructor
  · unfold jdet
    rw [mul_shifted hz]
    change jdet (f r r') (s • (X * Q.transpose)) = _
    rw [jdet_scaled, jdet_rotated _ _ hd]
    rfl
  · intro hj
    have hg : grad (f r r').2 (shifted (s • (X * Q.transpose)) t) = s⁻¹ • (Q * grad (f r r').2 X) := by
      rw [← grad_rotated hQ hd, ← grad_scaled _ hs]
      · unfold grad
        rw [mul_shifted hz]
      · have := jdet_rotated (f r r') X (Q := Q) hd
        unfold jdet at this hj
        rw [this]
        exact hj
    rw [bMat2_strainOf, bMat2_strainOf, hg, ← strainOf_turn]
    congr 1
    have h1 : dgrad (s⁻¹ • (Q * grad (f r r').2 X)) (c • (turn n Q).mulVec u) =
        (c / s) • dgrad (Q * grad (f r r').2 X) ((turn n Q).mulVec u) := by
      ext k i
      simp only [dgrad, Matrix.of_apply, Matrix.smul_apply, smul_eq_mul, Pi.smul_apply, Finset.mul_sum]
      exact Finset.sum_congr rfl fun a _ => by ring
    rw [h1, dgrad_rotated hQ, turn_mul, hQ, turn_one']

/-- The strains of one element. -/
theorem StrainRoutine.turn {n : ℕ} {st f pts m} (h : StrainRoutine (K := K) n st f pts m) {X X' : Matrix (Fin n) (Fin 2) K}
    {u u' : Fin n × Fin 2 → K} (hs : s ≠ 0) (hQ : Q.transpose * Q = 1) (hd : Q.det = 1)
    (hX : X' = shifted (s • (X * Q.transpose)) t) (hu : u' = c • (SolidsPy.turn n Q).mulVec u) {r : List (Fin 3 → K) × List (Fin 2 → K)}
    (hr : st X u = .ok r) :
    (1 ≤ s → ∃ r', st X' u' = .ok r') ∧
    ∀ r', st X' u' = .ok r' → r'.1 = r.1.map fun e => (c / s) • (strainTurn Q).mulVec e := by
  obtain ⟨e, xl⟩ := r
  obtain ⟨h1, rfl, -⟩ := h.ok.1 hr
  constructor
  · intro h1s
    refine ⟨_, h.ok.2 ⟨fun p hp => ?_, rfl, rfl⟩⟩
    rw [(point_turn h.shape hs hQ hd hX hu).1]
    have := h1 p hp
    have hs2 : 1 ≤ s ^ 2 := by nlinarith
    have hpos := tol_pos (K := K)
    nlinarith
  · rintro ⟨e', xl'⟩ hr'
    obtain ⟨-, rfl, -⟩ := h.ok.1 hr'
    dsimp only
    rw [List.map_append, List.map_map, List.map_replicate, mulVec_zero, smul_zero]
    congr 1
    refine List.map_congr_left fun p hp => ?_
    exact (point_turn h.shape hs hQ hd hX hu).2 (tol_pos.trans (h1 p hp)).ne'

theorem Spec.Similar.read (h : Similar Q s c t nodes nodes' sol sol') {el : List ℤ} {xs xs' us us' : Table K} {n : ℕ}
    (hres : ∀ z ∈ el.drop 3, ∃ k, Resolves nodes.length z k) (hx : coordsOf nodes el = .ok xs) (hx' : coordsOf nodes' el = .ok xs')
    (hu : dispOf sol el = .ok us) (hu' : dispOf sol' el = .ok us') {X X' : Matrix (Fin n) (Fin 2) K} (hX : toMat n 2 xs = .ok X)
    (hX' : toMat n 2 xs' = .ok X') :
    X' = shifted (s • (X * Q.transpose)) t ∧ (fun a : Fin n × Fin 2 => (us'.getD a.1 []).getD a.2 0) =
      c • (turn n Q).mulVec fun a : Fin n × Fin 2 => (us.getD a.1 []).getD a.2 0 := by
  have hlen : (el.drop 3).length = n := by
    have := congrArg List.length (toMat_ok hX)
    rw [← mapM_length hx] at *
    simpa [matRows] using this
  have key : ∀ a : Fin n, ∃ z p, (el.drop 3)[(a : ℕ)]? = some z ∧ Resolves nodes.length z p ∧ p < nodes.length := by
    intro a
    have ha : (a : ℕ) < (el.drop 3).length := by rw [hlen]; exact a.2
    obtain ⟨p, hp⟩ := hres _ (List.getElem_mem ha)
    exact ⟨_, p, List.getElem?_eq_getElem ha, hp, hp.1⟩
  constructor
  · ext a i
    obtain ⟨z, p, hz, hp, hlt⟩ := key a
    rw [coordsOf_read hx' hX' hz (by rw [h.size]; exact hp), h.coord p hlt]
    simp only [shifted, Matrix.of_apply, Matrix.smul_apply, Matrix.mul_apply, Fin.sum_univ_two, transpose_apply, smul_eq_mul]
    rw [coordsOf_read hx hX hz hp, coordsOf_read hx hX hz hp]
    simp only [Fin.val_zero, Fin.val_one]
    ring
  · funext ⟨a, i⟩
    obtain ⟨z, p, hz, hp, hlt⟩ := key a
    rw [Pi.smul_apply, turn_mulVec, Fin.sum_univ_two, smul_eq_mul]
    dsimp only
    rw [dispOf_read hu' hz (by rw [h.sols']; exact hp), h.disp p hlt, dispOf_read hu hz (by rw [h.sols]; exact hp),
      dispOf_read hu hz (by rw [h.sols]; exact hp)]
    rfl

theorem elemStrains_turn {iet : ℤ} {xs xs' us us' : Table K} {eps : List (Fin 3 → K)}
    (hread : ∀ {n : ℕ} {X X' : Matrix (Fin n) (Fin 2) K}, toMat n 2 xs = .ok X → toMat n 2 xs' = .ok X' →
      X' = shifted (s • (X * Q.transpose)) t ∧ (fun a : Fin n × Fin 2 => (us'.getD a.1 []).getD a.2 0) =
      c • (turn n Q).mulVec fun a : Fin n × Fin 2 => (us.getD a.1 []).getD a.2 0)
    (hs : s ≠ 0) (hQ : Q.transpose * Q = 1) (hd : Q.det = 1) (h : Post.elemStrains iet xs us = .ok eps)
    (hmat : ∀ {n : ℕ} {X : Matrix (Fin n) (Fin 2) K}, toMat n 2 xs = .ok X → ∃ X', toMat n 2 xs' = .ok X') :
    (1 ≤ s → ∃ eps', Post.elemStrains iet xs' us' = .ok eps') ∧
    ∀ eps', Post.elemStrains iet xs' us' = .ok eps' → eps' = eps.map fun e => (c / s) • (strainTurn Q).mulVec e := by
  have key : ∀ {n : ℕ} {st f pts m} (hst : StrainRoutine (K := K) n st f pts m) {X : Matrix (Fin n) (Fin 2) K}
      (hX : toMat n 2 xs = .ok X) {r} (hr : st X (fun a => (us.getD a.1 []).getD a.2 0) = .ok r),
      (1 ≤ s → ∃ X' r', toMat n 2 xs' = .ok X' ∧ st X' (fun a => (us'.getD a.1 []).getD a.2 0) = .ok r') ∧
      ∀ X' r', toMat n 2 xs' = .ok X' → st X' (fun a => (us'.getD a.1 []).getD a.2 0) = .ok r' →
        r'.1 = r.1.map fun e => (c / s) • (strainTurn Q).mulVec e := by
    intro n st f pts m hst X hX r hr
    constructor
    · intro h1
      obtain ⟨X', hX'⟩ := hmat hX
      obtain ⟨e1, e2⟩ := hread hX hX'
      obtain ⟨r', hr'⟩ := (hst.turn hs hQ hd e1 e2 hr).1 h1
      exact ⟨X', r', hX', hr'⟩
    · intro X' r' hX' hr'
      obtain ⟨e1, e2⟩ := hread hX hX'
      exact (hst.turn hs hQ hd e1 e2 hr).2 r' hr'
  unfold Post.elemStrains at h ⊢
  dsimp only at h ⊢
  split at h
  · obtain ⟨X, hX, h⟩ := bind_ok.1 h
    obtain ⟨r, hr, h⟩ := bind_ok.1 h
    have h := pure_ok.1 h
    subst h
    obtain ⟨k1, k2⟩ := key .el4 hX hr
    constructor
    · intro h1
      obtain ⟨X', r', e1, e2⟩ := k1 h1
      exact ⟨r'.1, by rw [e1, ok_bind, e2, ok_bind]; rfl⟩
    · intro eps' h'
      obtain ⟨X', hX', h'⟩ := bind_ok.1 h'
      obtain ⟨r', hr', h'⟩ := bind_ok.1 h'
      have h' := pure_ok.1 h'
      subst h'
      exact k2 _ _ hX' hr'
  · obtain ⟨X, hX, h⟩ := bind_ok.1 h
    obtain ⟨r, hr, h⟩ := bind_ok.1 h
    have h := pure_ok.1 h
    subst h
    obtain ⟨k1, k2⟩ := key .el6 hX hr
    constructor
    · intro h1
      obtain ⟨X', r', e1, e2⟩ := k1 h1
      exact ⟨r'.1, by rw [e1, ok_bind, e2, ok_bind]; rfl⟩
    · intro eps' h'
      obtain ⟨X', hX', h'⟩ := bind_ok.1 h'
      obtain ⟨r', hr', h'⟩ := bind_ok.1 h'
      have h' := pure_ok.1 h'
      subst h'
      exact k2 _ _ hX' hr'
  · obtain ⟨X, hX, h⟩ := bind_ok.1 h
    obtain ⟨r, hr, h⟩ := bind_ok.1 h
    have h := pure_ok.1 h
    subst h
    obtain ⟨k1, k2⟩ := key .el3 hX hr
    constructor
    · intro h1
      obtain ⟨X', r', e1, e2⟩ := k1 h1
      exact ⟨r'.1, by rw [e1, ok_bind, e2, ok_bind]; rfl⟩
    · intro eps' h'
      obtain ⟨X', hX', h'⟩ := bind_ok.1 h'
      obtain ⟨r', hr', h'⟩ := bind_ok.1 h'
      have h' := pure_ok.1 h'
      subst h'
      exact k2 _ _ hX' hr'
  · cases h

theorem toMat_of_length {n : ℕ} {xs : Table K} (hl : xs.length = n) (hw : ∀ r ∈ xs, r.length = 2) :
    ∃ X : Matrix (Fin n) (Fin 2) K, toMat n 2 xs = .ok X := by
  unfold toMat
  rw [if_neg (by simpa using hl), if_pos]
  · exact ⟨_, rfl⟩
  · simpa using hw

theorem coordsOf_width {nodes : Table K} {el : List ℤ} {xs : Table K} (hx : coordsOf nodes el = .ok xs) : ∀ r ∈ xs, r.length = 2 := by
  intro r hr
  obtain ⟨i, hi, rfl⟩ := List.mem_iff_getElem.1 hr
  have hl := (mapM_ok.1 hx).length_eq
  have h := (mapM_ok.1 hx).get (i := i) (by omega) hi
  simp only [List.get_eq_getElem] at h
  obtain ⟨_, -, h⟩ := bind_ok.1 h
  obtain ⟨_, -, h⟩ := bind_ok.1 h
  obtain ⟨_, -, h⟩ := bind_ok.1 h
  rw [← pure_ok.1 h]
  rfl

/-- The part of one element. -/
theorem ElemPart.turn {iet : ℤ} {ndof nne : ℕ} {el : List ℤ} {eps eps' : List (Fin 3 → K)} {C C' : Matrix (Fin 3) (Fin 3) K}
    (hsim : Similar Q s c t nodes nodes' sol sol') (hs : s ≠ 0) (hQ : Q.transpose * Q = 1) (hd : Q.det = 1)
    (hres : ∀ z ∈ el.drop 3, ∃ k, Resolves nodes.length z k) (h : ElemPart iet ndof nne nodes mats sol el eps C)
    (h' : ElemPart iet ndof nne nodes' mats sol' el eps' C') :
    C' = C ∧ eps' = eps.map fun e => (c / s) • (strainTurn Q).mulVec e := by
  obtain ⟨mi, row, xs, us, h1, h2, h3, -, -, h4, h5, h6⟩ := h
  obtain ⟨mi', row', xs', us', h1', h2', h3', -, -, h4', h5', h6'⟩ := h'
  rw [h1, Except.ok.injEq] at h1'
  subst h1'
  rw [h2, Except.ok.injEq] at h2'
  subst h2'
  rw [h3, Except.ok.injEq] at h3'
  refine ⟨h3'.symm, (elemStrains_turn (fun hX hX' => hsim.read hres h4 h4' h5 h5' hX hX') hs hQ hd h6 ?_).2 _ h6'⟩
  intro n X hX
  have hn : xs.length = n := by
    have := congrArg List.length (toMat_ok hX)
    simpa [matRows] using this
  exact toMat_of_length (by rw [← hn, mapM_length h4, mapM_length h4']) (coordsOf_width h4')

theorem ElemPart.exists_turn {iet : ℤ} {ndof nne : ℕ} {el : List ℤ} {eps : List (Fin 3 → K)} {C : Matrix (Fin 3) (Fin 3) K}
    (hsim : Similar Q s c t nodes nodes' sol sol') (hs : 1 ≤ s) (hQ : Q.transpose * Q = 1) (hd : Q.det = 1)
    (hw : ∀ r ∈ nodes', 3 ≤ r.length) (hw' : ∀ r ∈ sol', 2 ≤ r.length)
    (hres : ∀ z ∈ el.drop 3, ∃ k, Resolves nodes.length z k) (h : ElemPart iet ndof nne nodes mats sol el eps C) :
    ∃ eps' C', ElemPart iet ndof nne nodes' mats sol' el eps' C' := by
  obtain ⟨mi, row, xs, us, h1, h2, h3, h9, h10, h4, h5, h6⟩ := h
  obtain ⟨xs', h4'⟩ : ∃ xs', coordsOf nodes' el = .ok xs' := by
    unfold coordsOf
    rw [mapM_exists]
    intro z hz
    obtain ⟨k, hk⟩ := hres z hz
    rw [← hsim.size] at hk
    have hg := pyGet_resolves.2 ⟨k, hk, List.getElem?_eq_getElem hk.1⟩
    have hl := hw _ (List.getElem_mem hk.1)
    rw [hg, ok_bind, pyGet_one.2 (List.getElem?_eq_getElem (by omega)), ok_bind, pyGet_two.2 (List.getElem?_eq_getElem (by omega)), ok_bind]
    exact ⟨_, rfl⟩
  obtain ⟨us', h5'⟩ : ∃ us', dispOf sol' el = .ok us' := by
    unfold dispOf
    rw [mapM_exists]
    intro z hz
    obtain ⟨k, hk⟩ := hres z hz
    rw [← hsim.sols'] at hk
    have hg := pyGet_resolves.2 ⟨k, hk, List.getElem?_eq_getElem hk.1⟩
    have hl := hw' _ (List.getElem_mem hk.1)
    rw [hg, ok_bind, pyGet_zero.2 (List.getElem?_eq_getElem (by omega)), ok_bind, pyGet_one.2 (List.getElem?_eq_getElem (by omega)), ok_bind]
    exact ⟨_, rfl⟩
  have hs0 : s ≠ 0 := by linarith
  obtain ⟨eps', h6'⟩ := (elemStrains_turn (fun hX hX' => hsim.read hres h4 h4' h5 h5' hX hX') hs0 hQ hd h6 (by
    intro n X hX
    have hn : xs.length = n := by
      have := congrArg List.length (toMat_ok hX)
      simpa [matRows] using this
    exact toMat_of_length (by rw [← hn, mapM_length h4, mapM_length h4']) (coordsOf_width h4'))).1 hs
  exact ⟨eps', C, mi, row, xs', us', h1, h2, h3, h9, h10, h4', h5', h6'⟩

theorem mean_linear {α : Type} {l : List α} (hl : l ≠ []) (M : Matrix (Fin 3) (Fin 3) K) (k : K) (f : α → Fin 3 → K) {e : Fin 3 → K}
    (he : ∀ i, mean l (fun x => f x i) = some (e i)) (i : Fin 3) :
    mean l (fun x => (k • M.mulVec (f x)) i) = some ((k • M.mulVec e) i) := by
  unfold mean at he ⊢
  rw [if_neg hl]
  have he' : e = fun i => (l.map fun x => f x i).sum / (l.length : K) := by
    funext i
    have := he i
    rw [if_neg hl, Option.some.injEq] at this
    exact this.symm
  rw [he']
  congr 1
  have hlin : (l.map fun x => (k • M.mulVec (f x)) i).sum = (k • M.mulVec (fun i => (l.map fun x => f x i).sum)) i := by
    clear hl he he'
    induction l with
    | nil => simp [mulVec3]
    | cons a l ih =>
      simp only [List.map_cons, List.sum_cons]
      rw [ih]
      simp only [Pi.smul_apply, mulVec3, smul_eq_mul]
      ring
  rw [hlin]
  simp only [Pi.smul_apply, mulVec3, smul_eq_mul]
  ring

/-- C127.  Nodal strains and stresses of a mesh whose nodes have been turned, enlarged and shifted and whose displacements have been
turned and multiplied: the tensors are turned with the nodes and multiplied by the ratio of the factors. -/
theorem C127_tensors (hsim : Similar Q s c t nodes nodes' sol sol') (hs : s ≠ 0) (hQ : Q.transpose * Q = 1) (hd : Q.det = 1) {E S E' S'}
    (h : Post.strainNodes nodes els mats sol = .ok (E, S)) (h' : Post.strainNodes nodes' els mats sol' = .ok (E', S'))
    (k : Fin nodes.length) (k' : Fin nodes'.length) (hk : (k : ℕ) = k') :
    (∀ i, E k i = none ∧ S k i = none ∧ E' k' i = none ∧ S' k' i = none) ∨
    ∃ e σ e' σ' : Fin 3 → K, (∀ i, E k i = some (e i) ∧ S k i = some (σ i) ∧ E' k' i = some (e' i) ∧ S' k' i = some (σ' i)) ∧
      planeStrain e' = (c / s) • (Q * planeStrain e * Q.transpose) ∧
      planeStress σ' = (c / s) • (Q * planeStress σ * Q.transpose) := by
  obtain ⟨el0, iet, ndof, nne, ng, a1, a2, a3, eps, C, a4, a5⟩ := strainNodes_ok h
  obtain ⟨el0', iet', ndof', nne', ng', a1', a2', a3', eps', C', a4', a5'⟩ := strainNodes_ok h'
  rw [a1, Option.some.injEq] at a1'
  subst a1'
  rw [a2, Option.some.injEq] at a2'
  subst a2'
  rw [a3, Except.ok.injEq] at a3'
  simp only [Prod.mk.injEq] at a3'
  obtain ⟨rfl, rfl, -⟩ := a3'
  have ho : occurrences nodes'.length els k' = occurrences nodes.length els k := by
    rw [← hk]
    exact congrArg (fun n => occurrences n els k) hsim.size
  have hpart : ∀ el ∈ els, C' el = C el ∧ eps' el = (eps el).map fun e => (c / s) • (strainTurn Q).mulVec e := fun el hel =>
    (a4 el hel).1.turn hsim hs hQ hd (a4 el hel).2.1 (a4' el hel).1
  have hget : ∀ x ∈ occurrences nodes.length els k, x.1 ∈ els ∧
      (eps' x.1).getD x.2 0 = (c / s) • (strainTurn Q).mulVec ((eps x.1).getD x.2 0) := by
    intro x hx
    obtain ⟨h3, h4⟩ := mem_occurrences.1 hx
    refine ⟨h3, ?_⟩
    rw [(hpart _ h3).2, List.getD_eq_getElem?_getD, List.getD_eq_getElem?_getD, List.getElem?_map]
    cases (eps x.1)[x.2]? with
    | none => simp
    | some e => rfl
  by_cases hn : occurrences nodes.length els k = []
  · left
    intro i
    rw [(a5 k i).1, (a5 k i).2, (a5' k' i).1, (a5' k' i).2, ho, hn]
    exact ⟨rfl, rfl, rfl, rfl⟩
  · right
    have hE : ∀ i, mean (occurrences nodes.length els k) (fun x => (eps x.1).getD x.2 0 i) =
        some (((occurrences nodes.length els k).map fun x => (eps x.1).getD x.2 0 i).sum / ((occurrences nodes.length els k).length : K)) :=
      fun i => if_neg hn
    have hS : ∀ i, mean (occurrences nodes.length els k) (fun x => (C x.1).mulVec ((eps x.1).getD x.2 0) i) =
        some (((occurrences nodes.length els k).map fun x => (C x.1).mulVec ((eps x.1).getD x.2 0) i).sum /
          ((occurrences nodes.length els k).length : K)) := fun i => if_neg hn
    refine ⟨_, _, _, _, fun i => ⟨by rw [(a5 k i).1, hE i], by rw [(a5 k i).2, hS i], ?_, ?_⟩,
      planeStrain_turn (c / s) _, planeStress_turn (c / s) _⟩
    · rw [(a5' k' i).1, ho, ← mean_linear hn _ _ _ hE i]
      unfold mean
      rw [if_neg hn, if_neg hn]
      congr 3
      exact List.map_congr_left fun x hx => congrFun (hget x hx).2 i
    · rw [(a5' k' i).2, ho, ← mean_linear hn _ _ _ hS i]
      unfold mean
      rw [if_neg hn, if_neg hn]
      congr 3
      refine List.map_congr_left fun x hx => ?_
      obtain ⟨h3, h4⟩ := hget x hx
      obtain ⟨mi, row, _, _, _, _, h5, -⟩ := (a4 _ h3).1
      rw [h4, (hpart _ h3).1, mulVec_smul, umat_turn h5 hQ]

/-- C127.  `strain_nodes` returns on the turned and enlarged mesh if it returned before. -/
theorem C127_returns (hsim : Similar Q s c t nodes nodes' sol sol') (hs : 1 ≤ s) (hQ : Q.transpose * Q = 1) (hd : Q.det = 1)
    (hw : ∀ r ∈ nodes', 3 ≤ r.length) (hw' : ∀ r ∈ sol', 2 ≤ r.length) {r} (h : Post.strainNodes nodes els mats sol = .ok r) :
    ∃ E' S', Post.strainNodes nodes' els mats sol' = .ok (E', S') := by
  obtain ⟨E, S⟩ := r
  obtain ⟨el0, iet, ndof, nne, ng, a1, a2, a3, eps, C, a4, -⟩ := strainNodes_ok h
  have hs0 : s ≠ 0 := by linarith
  have loop : ∀ (l : List (List ℤ)) (acc : Post.NodeAcc K nodes'.length), (∀ el ∈ l, el ∈ els) →
      ∃ acc', l.foldlM (Post.strainElem iet ndof nne nodes' mats sol') acc = .ok acc' := by
    intro l
    induction l with
    | nil => exact fun acc _ => ⟨acc, rfl⟩
    | cons el l ih =>
      intro acc hl
      obtain ⟨b1, b2, b3⟩ := a4 el (hl el List.mem_cons_self)
      obtain ⟨eps', C', h1⟩ := b1.exists_turn hsim hs hQ hd hw hw' b2
      have h2 : (el.drop 3).length ≤ eps'.length := by
        rw [(b1.turn hsim hs0 hQ hd b2 h1).2, List.length_map]
        exact b3
      have h3 : ∀ z ∈ el.drop 3, ∃ k, Resolves nodes'.length z k := by
        rw [hsim.size]
        exact b2
      rw [List.foldlM_cons, strainElem_ok.2 ⟨eps', C', h1, h3, h2, rfl⟩, ok_bind]
      exact ih _ fun e he => hl e (List.mem_cons_of_mem _ he)
  obtain ⟨acc', hacc⟩ := loop els ⟨fun _ _ => 0, fun _ _ => 0, fun _ => 0⟩ fun _ h => h
  unfold Post.strainNodes
  rw [pyGet_zero.2 a1, ok_bind, pyGet_one.2 a2, ok_bind, a3, ok_bind]
  dsimp only
  rw [hacc, ok_bind]
  exact ⟨_, _, rfl⟩

theorem entry_field {t : Table K} {p j : ℕ} {x : K} (h : entry t p j = some x) : fieldOf t p j = x := by
  unfold fieldOf
  rw [h]
  rfl

theorem one_pick (i : Fin 2) (f : ℕ → K) :
    (1 : Matrix (Fin 2) (Fin 2) K) i 0 * f 0 + (1 : Matrix (Fin 2) (Fin 2) K) i 1 * f 1 = f i := by
  rcases i with ⟨i, hi⟩
  rcases (by omega : i = 0 ∨ i = 1) with rfl | rfl
  · simp [Matrix.one_apply]
  · simp [Matrix.one_apply]

/-- C127.  The whole run on a model turned by `Q` and shifted: it returns nodal strains and stresses, and their tensors are the old
ones turned by `Q`. -/
theorem C127_turned (hsq : SqrtFn sq) (hp : PlaneModel d) (hr : Replaced Q t d d') (hQ : Q.transpose * Q = 1) (hd : Q.det = 1)
    (hwf : WellFormed d) (hwf' : WellFormed d') (hsp : SolverOk sp) (hms : Members sq d ms) (hst : Stable d.cons 2 ms)
    {res res' : Gui.Result K} {E S} (h : Gui.solidsAutoStrains sq sp de d false = .ok (res, E, S))
    (h' : Gui.solidsAuto sq sp de d' false = .ok res') :
    ∃ E' S', Gui.solidsAutoStrains sq sp de d' false = .ok (res', E', S') ∧
      ∀ (k : Fin d.nodes.length) (k' : Fin d'.nodes.length), (k : ℕ) = k' →
      (∀ i, E k i = none ∧ S k i = none ∧ E' k' i = none ∧ S' k' i = none) ∨
      ∃ e σ e' σ' : Fin 3 → K, (∀ i, E k i = some (e i) ∧ S k i = some (σ i) ∧ E' k' i = some (e' i) ∧ S' k' i = some (σ' i)) ∧
        planeStrain e' = Q * planeStrain e * Q.transpose ∧ planeStress σ' = Q * planeStress σ * Q.transpose := by
  obtain ⟨h1, h2⟩ := C100_same_run.1 h
  obtain ⟨hl, hw⟩ := disp_shape h1
  obtain ⟨hl', hw'⟩ := disp_shape h'
  have hsim : Similar Q 1 1 t d.nodes d'.nodes res.disp res'.disp := by
    refine ⟨hr.size, hl, by rw [hl', hr.size], fun p hpn i => ?_, fun p hpn i => ?_⟩
    · rw [one_mul]
      exact hr.coord p hpn i
    · obtain ⟨x, y, e1, e2, e3⟩ := C109_displacements hsq hp hr hQ hd hwf hwf' hsp hms hst h1 h' hpn i
      rw [entry_field e1, entry_field e2, entry_field e3, one_mul]
  obtain ⟨E', S', h3⟩ := C127_returns hsim le_rfl hQ hd (fun r hr' => (hr.width r hr').ge) (fun r hr' => (hw' r hr').ge) h2
  refine ⟨E', S', C100_same_run.2 ⟨h', by rw [hr.elements, hr.mats]; exact h3⟩, fun k k' hk => ?_⟩
  have := C127_tensors hsim one_ne_zero hQ hd h2 h3 k k' hk
  simpa only [div_one, one_smul] using this

/-- C127.  The whole run on a model with all lengths multiplied by `s ≥ 1`, under the same nodal forces: strains and stresses are
divided by `s`. -/
theorem C127_magnified (hs : 1 ≤ s) (hc : Continuum d) (h3 : ∀ r ∈ d.nodes, r.length = 3) (hm : Magnified s d d')
    (hwf : WellFormed d) (hwf' : WellFormed d') (hsp : SolverOk sp) (hms : Members sq d ms) (hst : Stable d.cons 2 ms)
    {res res' : Gui.Result K} {E S} (h : Gui.solidsAutoStrains sq sp de d false = .ok (res, E, S))
    (h' : Gui.solidsAuto sq sp de d' false = .ok res') :
    ∃ E' S', Gui.solidsAutoStrains sq sp de d' false = .ok (res', E', S') ∧
      ∀ (k : Fin d.nodes.length) (k' : Fin d'.nodes.length), (k : ℕ) = k' → ∀ i,
        E' k' i = (E k i).map (· / s) ∧ S' k' i = (S k i).map (· / s) := by
  obtain ⟨h1, h2⟩ := C100_same_run.1 h
  obtain ⟨hl, hw⟩ := disp_shape h1
  obtain ⟨hl', hw'⟩ := disp_shape h'
  have hs0 : s ≠ 0 := by linarith
  obtain ⟨ms', hms'⟩ := C110_accepted hs hc h3 hm hms
  have hdisp := C110_displacements hs0 hc h3 hm hwf hwf' hsp hms hms' hst h1 h'
  have hQ : (1 : Matrix (Fin 2) (Fin 2) K).transpose * 1 = 1 := by simp
  have hd : (1 : Matrix (Fin 2) (Fin 2) K).det = 1 := by simp
  have hsim : Similar 1 s 1 0 d.nodes d'.nodes res.disp res'.disp := by
    refine ⟨hm.size, hl, by rw [hl', hm.size], fun p hpn i => ?_, fun p hpn i => ?_⟩
    · rw [hm.coord p hpn i, one_pick i (coordOf d.nodes p), Pi.zero_apply, add_zero]
    · rw [hdisp, one_pick i (fieldOf res.disp p), one_mul]
  obtain ⟨E', S', h4⟩ := C127_returns hsim hs hQ hd (fun r hr' => (hm.width r hr').ge) (fun r hr' => (hw' r hr').ge) h2
  refine ⟨E', S', C100_same_run.2 ⟨h', by rw [hm.elements, hm.mats]; exact h4⟩, fun k k' hk i => ?_⟩
  rcases C127_tensors hsim hs0 hQ hd h2 h4 k k' hk with hn | ⟨e, σ, e', σ', h5, h6, h7⟩
  · obtain ⟨n1, n2, n3, n4⟩ := hn i
    rw [n1, n2, n3, n4]
    exact ⟨rfl, rfl⟩
  · obtain ⟨n1, n2, n3, n4⟩ := h5 i
    rw [n1, n2, n3, n4, Option.map_some, Option.map_some, Option.some.injEq, Option.some.injEq]
    rw [transpose_one, Matrix.mul_one, Matrix.one_mul] at h6 h7
    have a0 := congrFun₂ h6 0 0
    have a1 := congrFun₂ h6 1 1
    have a2 := congrFun₂ h6 0 1
    have b0 := congrFun₂ h7 0 0
    have b1 := congrFun₂ h7 1 1
    have b2 := congrFun₂ h7 0 1
    simp only [planeStrain, planeStress, Matrix.smul_apply, smul_eq_mul, of_apply, cons_val', cons_val_zero, cons_val_one,
      cons_val_fin_one] at a0 a1 a2 b0 b1 b2
    rcases i with ⟨i, hi⟩
    rcases (by omega : i = 0 ∨ i = 1 ∨ i = 2) with rfl | rfl | rfl
    · exact ⟨by rw [div_eq_inv_mul, ← one_div]; exact a0, by rw [div_eq_inv_mul, ← one_div]; exact b0⟩
    · exact ⟨by rw [div_eq_inv_mul, ← one_div]; exact a1, by rw [div_eq_inv_mul, ← one_div]; exact b1⟩
    · refine ⟨?_, by rw [div_eq_inv_mul, ← one_div]; exact b2⟩
      have : e' 2 = e 2 / s := by linear_combination 2 * a2
      exact this

/-- Values of the general branch of `eigvals`, from trace and determinant. -/
theorem eigvals_values {a b d tol : K} (ht : 0 < tol) (h1 : tol ≤ maxAbs a b d) (h2 : tol * maxAbs a b d ≤ |b|) :
    ∃ v w, Post.eigvals sq a b b d tol = Post.eigSwap ⟨0.5 * ((a + d) - sq ((a + d) ^ 2 - 4 * (a * d - b ^ 2))),
      0.5 * ((a + d) + sq ((a + d) ^ 2 - 4 * (a * d - b ^ 2))), v, w⟩ := by
  have hm : 0 < maxAbs a b d := lt_of_lt_of_le ht h1
  unfold Post.eigvals
  dsimp only
  rw [mx_eq, if_neg (not_lt.2 h1), if_neg]
  · split
    · exact ⟨_, _, rfl⟩
    · exact ⟨_, _, rfl⟩
  · rintro ⟨-, h3⟩
    rw [div_lt_iff₀ hm] at h3
    exact absurd h3 (not_lt.2 h2)

/-- C127.  The principal values found by `principal_dirs` are the same in the turned frame, when neither tensor is taken for null or
diagonal. -/
theorem C127_principal {σ σ' : Fin 3 → K} (hQ : Q.transpose * Q = 1) (h : planeStress σ' = Q * planeStress σ * Q.transpose)
    (h1 : 1e-6 ≤ maxAbs (σ 0) (σ 2) (σ 1)) (h2 : 1e-6 * maxAbs (σ 0) (σ 2) (σ 1) ≤ |σ 2|)
    (h1' : 1e-6 ≤ maxAbs (σ' 0) (σ' 2) (σ' 1)) (h2' : 1e-6 * maxAbs (σ' 0) (σ' 2) (σ' 1) ≤ |σ' 2|) {v v' : Post.Eig K}
    (hv : Post.principalRow sq [σ 0, σ 1, σ 2] = .ok v) (hv' : Post.principalRow sq [σ' 0, σ' 1, σ' 2] = .ok v') :
    v'.eig1 = v.eig1 ∧ v'.eig2 = v.eig2 := by
  have e1 : v = Post.eigvals sq (σ 0) (σ 2) (σ 2) (σ 1) 1e-6 := by
    rw [← eigvals_lower]
    exact (pure_ok.1 hv).symm
  have e2 : v' = Post.eigvals sq (σ' 0) (σ' 2) (σ' 2) (σ' 1) 1e-6 := by
    rw [← eigvals_lower]
    exact (pure_ok.1 hv').symm
  have htol : (0 : K) < 1e-6 := by norm_num
  obtain ⟨p, q, f1⟩ := eigvals_values (sq := sq) htol h1 h2
  obtain ⟨p', q', f2⟩ := eigvals_values (sq := sq) htol h1' h2'
  have tr : σ' 0 + σ' 1 = σ 0 + σ 1 := by
    have : (planeStress σ').trace = (planeStress σ).trace := by
      rw [h, trace_mul_comm, ← Matrix.mul_assoc, hQ, Matrix.one_mul]
    simpa [planeStress, trace_fin_two] using this
  have dt : σ' 0 * σ' 1 - σ' 2 ^ 2 = σ 0 * σ 1 - σ 2 ^ 2 := by
    have : (planeStress σ').det = (planeStress σ).det := by
      have hq : Q.transpose.det * Q.det = 1 := by rw [← det_mul, hQ, det_one]
      rw [h, det_mul, det_mul]
      linear_combination (planeStress σ).det * hq
    simp only [planeStress, det_fin_two, of_apply, cons_val', cons_val_zero, cons_val_one, cons_val_fin_one] at this
    linear_combination this
  rw [e1, e2, f1, f2, tr, dt]
  unfold Post.eigSwap
  dsimp only
  split <;> exact ⟨rfl, rfl⟩

/-- The model turned by a quarter: `x` becomes `y` and `y` becomes `-x`. -/
def quarterModel (d : Gui.Data K) : Gui.Data K where
  nodes := d.nodes.map fun r => [r.getD 0 0, -r.getD 2 0, r.getD 1 0]
  cons := d.cons.map fun r => [r.getD 1 0, r.getD 0 0]
  elements := d.elements
  mats := d.mats
  loads := d.loads.map (turnLoad quarter)

theorem quarter_rot : (quarter (K := K)).transpose * quarter = 1 ∧ (quarter (K := K)).det = 1 := by
  constructor
  · ext i j
    fin_cases i <;> fin_cases j <;> simp [quarter, Matrix.mul_apply, Fin.sum_univ_two]
  · simp [quarter, Matrix.det_fin_two]

theorem quarter_free (cons : Table K) (hw : ∀ r ∈ cons, r.length = 2) (p : ℕ) (hp : p < cons.length) :
    (Free (cons.map fun r => [r.getD 1 0, r.getD 0 0]) 2 p 0 ↔ Free cons 2 p 1) ∧
    (Free (cons.map fun r => [r.getD 1 0, r.getD 0 0]) 2 p 1 ↔ Free cons 2 p 0) := by
  have hl := hw _ (List.getElem_mem hp)
  unfold Free entry
  simp only [List.getElem?_map, List.getElem?_eq_getElem hp, Option.map_some]
  generalize cons[p] = r at hl
  match r, hl with
  | [a, b], _ => exact ⟨by simp, by simp⟩

theorem quarter_replaced (h3 : ∀ r ∈ d.nodes, r.length = 3) (h2 : ∀ r ∈ d.cons, r.length = 2) (hl : ∀ L ∈ d.loads, L.length = 3) :
    Replaced quarter 0 d (quarterModel d) where
  elements := rfl
  mats := rfl
  size := by simp [quarterModel]
  width r hr := by
    obtain ⟨r', hr', rfl⟩ := List.mem_map.1 hr
    rfl
  coord p hp i := by
    have hr := h3 _ (List.getElem_mem hp)
    unfold coordOf fieldOf entry quarterModel
    dsimp only
    rw [List.getElem?_map, List.getElem?_eq_getElem hp]
    generalize d.nodes[p] = r at hr
    match r, hr with
    | [_, _, _], _ => fin_cases i <;> simp [quarter]
  rows := hl
  loads := rfl
  supports := supports_quarter (by simp [quarterModel]) fun p hp => quarter_free d.cons h2 p hp

end

/-! ## The plate in tension, turned and enlarged -/

theorem quarter_wf {d : Gui.Data ℝ} (h : WellFormed d) : WellFormed (quarterModel d) where
  codes := by
    intro p j x hj hx
    obtain ⟨row, h1, h2⟩ := entry_some.1 hx
    simp only [quarterModel, List.getElem?_map, Option.map_eq_some_iff] at h1
    obtain ⟨r, hr, rfl⟩ := h1
    have hl := h.width r (List.mem_of_getElem? hr)
    match r, hl with
    | [a, b], _ =>
      rcases (by omega : j = 0 ∨ j = 1) with rfl | rfl
      · exact h.codes p 1 x (by omega) (entry_some.2 ⟨_, hr, by simpa using h2⟩)
      · exact h.codes p 0 x (by omega) (entry_some.2 ⟨_, hr, by simpa using h2⟩)
  width r hr := by
    obtain ⟨r', -, rfl⟩ := List.mem_map.1 hr
    rfl
  size := by simp [quarterModel, h.size]

theorem plate_continuum (L H E nu σ : ℝ) (nx ny : ℕ) : Continuum (tensionPlate L H E nu σ nx ny) := by
  intro el hel ty hty
  obtain ⟨-, -, hl, he⟩ := C65_elements L H nx ny
  obtain ⟨e, hlt, rfl⟩ := List.mem_iff_getElem.1 hel
  obtain ⟨a, b, c, d, h5, -⟩ := he e (by rw [← hl]; exact hlt)
  have h6 : (tensionPlate L H E nu σ nx ny).elements[e]? = some [(e : ℤ), 1, 0, a, b, c, d] := h5
  rw [List.getElem?_eq_getElem hlt, Option.some.injEq] at h6
  rw [h6] at hty
  simp at hty
  simp [← hty]

/-- The plate of C100's case, turned by a quarter: the stress is now along `y`, at every node. -/
example : ∃ res E S, Gui.solidsAutoStrains Real.sqrt cramerR cramerR
    (quarterModel (tensionPlate (4 : ℝ) 2 1000 (1 / 4) 10 2 1)) false = .ok (res, E, S) ∧
    ∀ p, S p 0 = some 0 ∧ S p 1 = some 10 ∧ S p 2 = some 0 := by
  have hg := plate_grid (4 : ℝ) 2 1000 (1 / 4) 10 2 1
  have hwf := plate_wf (4 : ℝ) 2 1000 (1 / 4) 10 2 1
  obtain ⟨ms, h⟩ := C97_mesh (sq := Real.sqrt) hg (by norm_num) (by norm_num) (by norm_num) (by norm_num) (by simp)
  have hst := (C95_stable_iff sqrtFn_real h hwf).2 (plate_supported (by omega) (by norm_num))
  have h3 : ∀ r ∈ (tensionPlate (4 : ℝ) 2 1000 (1 / 4) 10 2 1).nodes, r.length = 3 := by simp [tensionPlate]
  have hp := (plate_continuum 4 2 1000 (1 / 4) 10 2 1).plane h3
  have hr := quarter_replaced h3 hwf.width (by simp [tensionPlate])
  obtain ⟨res, E, S, h1, -, h2⟩ := C100_tension (K := ℝ) (L := 4) (H := 2) (E := 1000) (nu := 1 / 4) (nx := 2)
    (ny := 1) (de := cramerR) (σ := 10) sqrtFn_real cramerR_ok (by norm_num) (by norm_num) (by norm_num) (by norm_num)
  obtain ⟨res', h'⟩ := C109_returns (de := cramerR) sqrtFn_real hp hr quarter_rot.1 quarter_rot.2 hwf (quarter_wf hwf) cramerR_ok
    h.members hst (by
      refine ⟨nodeNo 2 0 2, 0, ?_⟩
      have := plate_free (4 : ℝ) 2 1000 (1 / 4) 10 (nx := 2) (ny := 1) (r := 0) (c := 2) (by omega) (by omega) 0
      simp only [Fin.val_zero] at this
      rw [this]
      simp) (by
      intro l hl
      simp only [tensionPlate, List.mem_map, List.mem_range] at hl
      obtain ⟨i, hi, rfl⟩ := hl
      refine ⟨nodeNo 2 i 2, ?_⟩
      rw [hg.size]
      exact (names_nat (nodeNo_lt (by omega) (le_refl _)) rfl).2 rfl)
  obtain ⟨E', S', h4, h5⟩ := C127_turned sqrtFn_real hp hr quarter_rot.1 quarter_rot.2 hwf (quarter_wf hwf) cramerR_ok h.members hst h1 h'
  refine ⟨res', E', S', h4, fun p => ?_⟩
  rcases h5 ⟨p, by rw [← hr.size]; exact p.2⟩ p rfl with hn | ⟨e, σ, e', σ', h6, -, h7⟩
  · have := (hn 0).2.1
    rw [(h2 _ 0).2] at this
    cases this
  · have g : ∀ i, σ i = (![10, 0, 0] : Fin 3 → ℝ) i := fun i => by
      have := (h6 i).2.1
      rw [(h2 _ i).2, Option.some.injEq] at this
      exact this.symm
    have g0 : σ 0 = 10 := g 0
    have g1 : σ 1 = 0 := g 1
    have g2 : σ 2 = 0 := g 2
    have a0 := congrFun₂ h7 0 0
    have a1 := congrFun₂ h7 1 1
    have a2 := congrFun₂ h7 0 1
    simp [planeStress, quarter, Matrix.mul_apply, Fin.sum_univ_two, g0, g1, g2] at a0 a1 a2
    rw [(h6 0).2.2.2, (h6 1).2.2.2, (h6 2).2.2.2, a0, a1, a2]
    exact ⟨rfl, rfl, rfl⟩

/-- The plate three times as large under the same forces: a third of the stress. -/
example : ∃ res E S, Gui.solidsAutoStrains Real.sqrt cramerR cramerR
    (magnify 3 (tensionPlate (4 : ℝ) 2 1000 (1 / 4) 10 2 1)) false = .ok (res, E, S) ∧ ∀ p, S p 0 = some (10 / 3) ∧ S p 1 = some (0 / 3) := by
  have hg := plate_grid (4 : ℝ) 2 1000 (1 / 4) 10 2 1
  have hwf := plate_wf (4 : ℝ) 2 1000 (1 / 4) 10 2 1
  obtain ⟨ms, h⟩ := C97_mesh (sq := Real.sqrt) hg (by norm_num) (by norm_num) (by norm_num) (by norm_num) (by simp)
  have hst := (C95_stable_iff sqrtFn_real h hwf).2 (plate_supported (by omega) (by norm_num))
  have h3 : ∀ r ∈ (tensionPlate (4 : ℝ) 2 1000 (1 / 4) 10 2 1).nodes, r.length = 3 := by simp [tensionPlate]
  have hc := plate_continuum 4 2 1000 (1 / 4) 10 2 1
  have hm := magnify_ok (3 : ℝ) h3
  have hwf' : WellFormed (magnify 3 (tensionPlate (4 : ℝ) 2 1000 (1 / 4) 10 2 1)) := ⟨hwf.codes, hwf.width, by rw [hm.size]; exact hwf.size⟩
  obtain ⟨res, E, S, h1, -, h2⟩ := C100_tension (K := ℝ) (L := 4) (H := 2) (E := 1000) (nu := 1 / 4) (nx := 2)
    (ny := 1) (de := cramerR) (σ := 10) sqrtFn_real cramerR_ok (by norm_num) (by norm_num) (by norm_num) (by norm_num)
  obtain ⟨res', h'⟩ := C110_returns (de := cramerR) (by norm_num) hc h3 hm hwf hwf' cramerR_ok h.members hst (by
      refine ⟨nodeNo 2 0 2, 0, ?_⟩
      have := plate_free (4 : ℝ) 2 1000 (1 / 4) 10 (nx := 2) (ny := 1) (r := 0) (c := 2) (by omega) (by omega) 0
      simp only [Fin.val_zero] at this
      rw [this]
      simp) (by
      intro l hl
      simp only [tensionPlate, List.mem_map, List.mem_range] at hl
      obtain ⟨i, hi, rfl⟩ := hl
      refine ⟨by simp, nodeNo 2 i 2, ?_⟩
      rw [hg.size]
      exact (names_nat (nodeNo_lt (by omega) (le_refl _)) rfl).2 rfl)
  obtain ⟨E', S', h4, h5⟩ := C127_magnified (by norm_num) hc h3 hm hwf hwf' cramerR_ok h.members hst h1 h'
  refine ⟨res', E', S', h4, fun p => ?_⟩
  rw [(h5 ⟨p, by rw [← hm.size]; exact p.2⟩ p rfl 0).2, (h5 ⟨p, by rw [← hm.size]; exact p.2⟩ p rfl 1).2, (h2 _ 0).2, (h2 _ 1).2]
  exact ⟨rfl, rfl⟩

/-- Principal values of a tensor and of its mirror image. -/
example : ∃ v v', Post.principalRow Real.sqrt [61/25, 89/25, 48/25] = .ok v ∧ Post.principalRow Real.sqrt [61/25, 89/25, -(48/25)] = .ok v' ∧
    v'.eig1 = v.eig1 ∧ v'.eig2 = v.eig2 := by
  refine ⟨_, _, rfl, rfl, C127_principal (Q := !![1, 0; 0, -1]) (σ := ![61/25, 89/25, 48/25]) (σ' := ![61/25, 89/25, -(48/25)])
    ?_ ?_ ?_ ?_ ?_ ?_ rfl rfl⟩
  · ext i j
    fin_cases i <;> fin_cases j <;> simp [Matrix.mul_apply, Fin.sum_univ_two]
  · ext i j
    fin_cases i <;> fin_cases j <;> simp [planeStress, Matrix.mul_apply, Fin.sum_univ_two]
  all_goals simp [maxAbs, abs_of_pos]; norm_num

end SolidsPy
