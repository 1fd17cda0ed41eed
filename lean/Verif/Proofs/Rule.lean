import Verif.Proofs.Kinematics
import Verif.Spec.Rules
import Mathlib.Tactic.IntervalCases

/-! # Element routines as quadrature sums

Every continuum routine is brought to the same form: a list of (shape functions at a point, weight). -/

set_option linter.unusedSectionVars false

namespace SolidsPy
open Spec Fem Uel Gauss

section
variable {K : Type} [Field K] [LinearOrder K] [IsStrictOrderedRing K] {d n q : ℕ}

/-- All points are accepted. -/
def Acc (R : QRule K d n) (X : Matrix (Fin n) (Fin d) K) : Prop := ∀ x ∈ R, 1e-8 < jdet x.1 X

/-- Quadrature of `B^T C B`. -/
def qStiff (B : Shape K d n → Matrix (Fin q) (Fin n × Fin d) K) (R : QRule K d n)
    (X : Matrix (Fin n) (Fin d) K) (C : Matrix (Fin q) (Fin q) K) :
    Matrix (Fin n × Fin d) (Fin n × Fin d) K :=
  (R.map fun x => (x.2 * jdet x.1 X) • ((B x.1).transpose * C * B x.1)).sum

/-- Quadrature of `rho H^T H`. -/
def qMass (H : Shape K d n → Matrix (Fin d) (Fin n × Fin d) K) (R : QRule K d n)
    (X : Matrix (Fin n) (Fin d) K) (ρ : K) : Matrix (Fin n × Fin d) (Fin n × Fin d) K :=
  (R.map fun x => (ρ * (x.2 * jdet x.1 X)) • ((H x.1).transpose * H x.1)).sum

theorem gaussLoop_ok {P : Type} {diff : P → Py (Diff K n d q)} {C : Matrix (Fin q) (Fin q) K}
    {sc mc : K → K → K} {ps : List P} {ws : List ℚ} {sh : P → Shape K d n} {coef : K → K} {ρ : K}
    {X : Matrix (Fin n) (Fin d) K} {V : Shape K d n → Prop}
    {H : Shape K d n → Matrix (Fin d) (Fin n × Fin d) K}
    {B : Shape K d n → Matrix (Fin q) (Fin n × Fin d) K}
    (hd : ∀ p ∈ ps, ∀ r, diff p = .ok r ↔ V (sh p) ∧ r = (H (sh p), B (sh p), jdet (sh p) X))
    (hsc : ∀ det w, sc det w = coef w * det) (hmc : ∀ det w, mc det w = ρ * (coef w * det))
    (hlen : ps.length ≤ ws.length) (K0 M0 : Matrix (Fin n × Fin d) (Fin n × Fin d) K) {r} :
    gaussLoop diff C sc mc ps ws K0 M0 = .ok r ↔
      (∀ x ∈ (ps.zip ws).map (fun x => (sh x.1, coef (x.2 : K))), V x.1) ∧
      r = (K0 + qStiff B ((ps.zip ws).map fun x => (sh x.1, coef (x.2 : K))) X C,
           M0 + qMass H ((ps.zip ws).map fun x => (sh x.1, coef (x.2 : K))) X ρ) := by
  induction ps generalizing ws K0 M0 with
  | nil =>
    simp only [gaussLoop, List.zip_nil_left, List.map_nil, Except.ok.injEq, qStiff, qMass, List.sum_nil,
      add_zero, List.not_mem_nil, IsEmpty.forall_iff, implies_true, true_and]
    exact eq_comm
  | cons p ps ih =>
    cases ws with
    | nil => simp at hlen
    | cons w ws =>
      simp only [List.length_cons, Nat.add_le_add_iff_right] at hlen
      simp only [gaussLoop, List.zip_cons_cons, List.map_cons, List.mem_cons, forall_eq_or_imp]
      rw [bind_ok]
      have hd' : ∀ p ∈ ps, ∀ r, diff p = .ok r ↔ V (sh p) ∧ r = (H (sh p), B (sh p), jdet (sh p) X) :=
        fun p hp => hd p (by simp [hp])
      constructor
      · rintro ⟨D, h1, h2⟩
        rw [hd p (by simp)] at h1
        obtain ⟨hV, rfl⟩ := h1
        dsimp only at h2
        rw [ih hd' hlen] at h2
        refine ⟨⟨hV, h2.1⟩, ?_⟩
        rw [h2.2]
        simp only [qStiff, qMass, List.map_cons, List.sum_cons, hsc, hmc, add_assoc]
      · rintro ⟨⟨hV, h2⟩, h3⟩
        refine ⟨(H (sh p), B (sh p), jdet (sh p) X), (hd p (by simp) _).2 ⟨hV, rfl⟩, ?_⟩
        dsimp only
        rw [ih hd' hlen]
        refine ⟨h2, ?_⟩
        rw [h3]
        simp only [qStiff, qMass, List.map_cons, List.sum_cons, hsc, hmc, add_assoc]

theorem gaussLoop_error {P : Type} {diff : P → Py (Diff K n d q)} {C : Matrix (Fin q) (Fin q) K}
    {sc mc : K → K → K} {ps : List P} {ws : List ℚ} {e₀ : PyErr}
    (hd : ∀ p ∈ ps, ∀ e, diff p = .error e → e = e₀) (hlen : ps.length ≤ ws.length)
    (K0 M0 : Matrix (Fin n × Fin d) (Fin n × Fin d) K) {e}
    (h : gaussLoop diff C sc mc ps ws K0 M0 = .error e) : e = e₀ := by
  induction ps generalizing ws K0 M0 with
  | nil => simp [gaussLoop] at h
  | cons p ps ih =>
    cases ws with
    | nil => simp at hlen
    | cons w ws =>
      simp only [List.length_cons, Nat.add_le_add_iff_right] at hlen
      simp only [gaussLoop] at h
      cases hp : diff p with
      | error e' =>
        rw [hp] at h
        cases h
        exact hd p (by simp) _ hp
      | ok D =>
        rw [hp, ok_bind] at h
        exact ih (fun p hp => hd p (by simp [hp])) hlen _ _ h

theorem mem_prodRepeat_length {α : Type} {l : List α} {k : ℕ} {p : List α} (h : p ∈ prodRepeat l k) :
    p.length = k := by
  induction k generalizing p with
  | zero => simp only [prodRepeat, List.mem_singleton] at h; simp [h]
  | succ k ih =>
    simp only [prodRepeat, List.mem_flatMap, List.mem_map] at h
    obtain ⟨x, _, t, ht, rfl⟩ := h
    simp [ih ht]

theorem length_prodRepeat {α : Type} (l : List α) (k : ℕ) : (prodRepeat l k).length = l.length ^ k := by
  induction k with
  | zero => rfl
  | succ k ih => simp [prodRepeat, List.length_flatMap, ih, pow_succ, mul_comm]

theorem diffQuad_ok {f : K → K → Shape K 2 n} {X : Matrix (Fin n) (Fin 2) K} {p : List ℚ}
    (hp : p.length = 2) {r} : diffQuad f X p = .ok r ↔ 1e-8 < jdet (at2 f p) X ∧
      r = (hMat2 (at2 f p).1, bMat2 (grad (at2 f p).2 X), jdet (at2 f p) X) := by
  match p, hp with
  | [r, s], _ =>
    simp only [diffQuad]
    rw [diff2d_ok]
    rfl

theorem diffQuad_error {f : K → K → Shape K 2 n} {X : Matrix (Fin n) (Fin 2) K} {p : List ℚ} {e}
    (h : diffQuad f X p = .error e) : e = .valueError := by
  unfold diffQuad at h
  split at h
  · rename_i r s
    rcases lt_or_ge (1e-8) ((f (r : K) (s : K)).2 * X).det with h1 | h1
    · rw [diff2d_ok.2 ⟨h1, rfl⟩] at h; cases h
    · rw [diff2d_error h1] at h; cases h; rfl
  · cases h; rfl

theorem diff2d_error' {sh : Shape K 2 n} {X : Matrix (Fin n) (Fin 2) K} {e}
    (h : elastDiff2d sh X = .error e) : e = .valueError := by
  rcases lt_or_ge (1e-8) (sh.2 * X).det with h1 | h1
  · rw [diff2d_ok.2 ⟨h1, rfl⟩] at h; cases h
  · rw [diff2d_error h1] at h; cases h; rfl

theorem diff3d_error' {sh : Shape K 3 n} {X : Matrix (Fin n) (Fin 3) K} {e}
    (h : elastDiff3d sh X = .error e) : e = .valueError := by
  rcases lt_or_ge (1e-8) (sh.2 * X).det with h1 | h1
  · rw [diff3d_ok.2 ⟨h1, rfl⟩] at h; cases h
  · rw [diff3d_error h1] at h; cases h; rfl

theorem diffHex_ok {X : Matrix (Fin 8) (Fin 3) K} {p : List ℚ}
    (hp : p.length = 3) {r} : diffHex X p = .ok r ↔ 1e-8 < jdet (at3 shapeHex8 p) X ∧
      r = (hMat3 (at3 shapeHex8 p).1, bMat3 (grad (at3 shapeHex8 p).2 X), jdet (at3 shapeHex8 p) X) := by
  match p, hp with
  | [r, s, t], _ =>
    simp only [diffHex]
    rw [diff3d_ok]
    rfl

theorem diffHex_error {X : Matrix (Fin 8) (Fin 3) K} {p : List ℚ} {e}
    (h : diffHex X p = .error e) : e = .valueError := by
  unfold diffHex at h
  split at h
  · exact diff3d_error' h
  · cases h; rfl

/-- A plane body has the form of a quadrature sum. -/
structure Body2 (body : Matrix (Fin n) (Fin 2) K → Matrix (Fin 3) (Fin 3) K → K →
    Py (Matrix (Fin n × Fin 2) (Fin n × Fin 2) K × Matrix (Fin n × Fin 2) (Fin n × Fin 2) K))
    (R : QRule K 2 n) : Prop where
  ok : ∀ X C ρ r, body X C ρ = .ok r ↔ Acc R X ∧
    r = (qStiff (fun sh => bMat2 (grad sh.2 X)) R X C, qMass (fun sh => hMat2 sh.1) R X ρ)
  err : ∀ X C ρ e, body X C ρ = .error e → e = .valueError

/-- A solid body has the form of a quadrature sum. -/
structure Body3 (body : Matrix (Fin n) (Fin 3) K → Matrix (Fin 6) (Fin 6) K → K →
    Py (Matrix (Fin n × Fin 3) (Fin n × Fin 3) K × Matrix (Fin n × Fin 3) (Fin n × Fin 3) K))
    (R : QRule K 3 n) : Prop where
  ok : ∀ X C ρ r, body X C ρ = .ok r ↔ Acc R X ∧
    r = (qStiff (fun sh => bMat3 (grad sh.2 X)) R X C, qMass (fun sh => hMat3 sh.1) R X ρ)
  err : ∀ X C ρ e, body X C ρ = .error e → e = .valueError

theorem body_tri3 : Body2 (elastTri3M (K := K)) ruleTri3 where
  ok := by
    intro X C ρ r
    have := gaussLoop_ok (C := C) (sc := fun det w => 0.5 * (det * w))
      (mc := fun det w => 0.5 * ρ * (det * w)) (ps := ptsTri2) (ws := wtsTri2) (X := X) (ρ := ρ)
      (diff := fun p => elastDiff2d (shapeTri3 (p.1 : K) (p.2 : K)) X)
      (sh := fun p : ℚ × ℚ => shapeTri3 (p.1 : K) (p.2 : K)) (coef := fun w => 0.5 * w)
      (V := fun sh => 1e-8 < jdet sh X) (H := fun sh => hMat2 sh.1) (B := fun sh => bMat2 (grad sh.2 X))
      (fun p _ r => diff2d_ok) (fun det w => by ring) (fun det w => by ring) (by decide) 0 0 (r := r)
    rw [zero_add, zero_add] at this
    exact this
  err := fun X C ρ e h => gaussLoop_error (fun p _ e he => diff2d_error' he) (by decide) 0 0 h

theorem body_tri6 : Body2 (elastTri6M (K := K)) ruleTri6 where
  ok := by
    intro X C ρ r
    have := gaussLoop_ok (C := C) (sc := fun det w => 0.5 * (w * det))
      (mc := fun det w => 0.5 * ρ * (w * det)) (ps := ptsTri3) (ws := wtsTri3) (X := X) (ρ := ρ)
      (diff := fun p => elastDiff2d (shapeTri6 (p.1 : K) (p.2 : K)) X)
      (sh := fun p : ℚ × ℚ => shapeTri6 (p.1 : K) (p.2 : K)) (coef := fun w => 0.5 * w)
      (V := fun sh => 1e-8 < jdet sh X) (H := fun sh => hMat2 sh.1) (B := fun sh => bMat2 (grad sh.2 X))
      (fun p _ r => diff2d_ok) (fun det w => by ring) (fun det w => by ring) (by decide) 0 0 (r := r)
    rw [zero_add, zero_add] at this
    exact this
  err := fun X C ρ e h => gaussLoop_error (fun p _ e he => diff2d_error' he) (by decide) 0 0 h

/-- The quadrilateral bodies. -/
theorem body_quad {f : K → K → Shape K 2 n} {pts wts : List ℚ} (hlen : pts.length = wts.length) :
    Body2 (fun X C ρ => gaussLoop (diffQuad f X) C (fun det w => det * w) (fun det w => ρ * (det * w))
      (prodRepeat pts 2) ((prodRepeat wts 2).map List.prod) 0 0) (ruleQuad f pts wts) where
  ok := by
    intro X C ρ r
    have := gaussLoop_ok (C := C) (sc := fun det w => det * w)
      (mc := fun det w => ρ * (det * w)) (ps := prodRepeat pts 2)
      (ws := (prodRepeat wts 2).map List.prod) (X := X) (ρ := ρ)
      (diff := diffQuad f X) (sh := at2 f) (coef := fun w => w)
      (V := fun sh => 1e-8 < jdet sh X) (H := fun sh => hMat2 sh.1) (B := fun sh => bMat2 (grad sh.2 X))
      (fun p hp r => diffQuad_ok (mem_prodRepeat_length hp)) (fun det w => by ring)
      (fun det w => by ring) (by rw [List.length_map, length_prodRepeat, length_prodRepeat, hlen]) 0 0
      (r := r)
    rw [zero_add, zero_add] at this
    exact this
  err := fun X C ρ e h => gaussLoop_error (fun p _ e he => diffQuad_error he)
    (by rw [List.length_map, length_prodRepeat, length_prodRepeat, hlen]) 0 0 h

theorem body_quad4 : Body2 (elastQuad4M (K := K)) (ruleQuad shapeQuad4 pts1d2 wts1d2) := body_quad rfl
theorem body_quad9 : Body2 (elastQuad9M (K := K)) (ruleQuad shapeQuad9 pts1d3 wts1d3) := body_quad rfl
theorem body_quad8 : Body2 (elastQuad8M (K := K)) (ruleQuad shapeQuad8 pts1d3 wts1d3) := body_quad rfl

theorem body_tet4 : Body3 (elastTet4M (K := K)) ruleTet4 where
  ok := by
    intro X C ρ r
    have := gaussLoop_ok (C := C) (sc := fun det w => det * w / 6)
      (mc := fun det w => ρ * (det * w / 6)) (ps := ptsTet3) (ws := wtsTet3) (X := X) (ρ := ρ)
      (diff := fun p => elastDiff3d (shapeTet4 (p.1 : K) (p.2.1 : K) (p.2.2 : K)) X)
      (sh := fun p : ℚ × ℚ × ℚ => shapeTet4 (p.1 : K) (p.2.1 : K) (p.2.2 : K)) (coef := fun w => w / 6)
      (V := fun sh => 1e-8 < jdet sh X) (H := fun sh => hMat3 sh.1) (B := fun sh => bMat3 (grad sh.2 X))
      (fun p _ r => diff3d_ok) (fun det w => by ring) (fun det w => by ring) (by decide) 0 0 (r := r)
    rw [zero_add, zero_add] at this
    exact this
  err := fun X C ρ e h => gaussLoop_error (fun p _ e he => diff3d_error' he) (by decide) 0 0 h

theorem body_hex8 : Body3 (elastHex8M (K := K)) ruleHex8 where
  ok := by
    intro X C ρ r
    have := gaussLoop_ok (C := C) (sc := fun det w => det * w)
      (mc := fun det w => ρ * (det * w)) (ps := prodRepeat pts1d2 3)
      (ws := (prodRepeat wts1d2 3).map List.prod) (X := X) (ρ := ρ)
      (diff := diffHex X) (sh := at3 shapeHex8) (coef := fun w => w)
      (V := fun sh => 1e-8 < jdet sh X) (H := fun sh => hMat3 sh.1) (B := fun sh => bMat3 (grad sh.2 X))
      (fun p hp r => diffHex_ok (mem_prodRepeat_length hp)) (fun det w => by ring)
      (fun det w => by ring) (by rw [List.length_map, length_prodRepeat, length_prodRepeat]; rfl) 0 0
      (r := r)
    rw [zero_add, zero_add] at this
    exact this
  err := fun X C ρ e h => gaussLoop_error (fun p _ e he => diffHex_error he)
    (by rw [List.length_map, length_prodRepeat, length_prodRepeat]; rfl) 0 0 h

/-! ### Coordinates -/

theorem toMat_matRows (X : Matrix (Fin n) (Fin d) K) : toMat n d (matRows X) = .ok X := by
  unfold toMat matRows
  rw [if_neg (by simp), if_pos]
  · congr 1
    ext i j
    simp [List.getD_eq_getElem?_getD]
  · rw [List.all_eq_true]
    intro row hr
    rw [List.mem_ofFn] at hr
    obtain ⟨i, rfl⟩ := hr
    simp

theorem toMat_ok {coord : Table K} {X : Matrix (Fin n) (Fin d) K} (h : toMat n d coord = .ok X) :
    coord = matRows X := by
  unfold toMat at h
  split_ifs at h with h1 h2
  rw [not_not] at h1
  rw [Except.ok.injEq] at h
  subst h
  rw [List.all_eq_true] at h2
  unfold matRows
  apply List.ext_getElem (by simp [h1])
  intro i hi hi'
  have hw : coord[i].length = d := by
    have := h2 _ (List.getElem_mem hi)
    simpa using this
  rw [List.getElem_ofFn]
  apply List.ext_getElem (by simp [hw])
  intro j hj hj'
  rw [List.getElem_ofFn, Matrix.of_apply]
  simp [List.getD_eq_getElem?_getD, hi, hj]

/-- Material data accepted by a routine: the constitutive matrix and the density. -/
def Mat2 (strict : Bool) (params : List K) (C : Matrix (Fin 3) (Fin 3) K) (ρ : K) : Prop :=
  (strict = true → params.length = 3) ∧ umat (params.take 2) = .ok C ∧ densOf params = .ok ρ

/-- Material data of the solid routines. -/
def Mat3 (params : List K) (C : Matrix (Fin 6) (Fin 6) K) (ρ : K) : Prop :=
  params.length = 3 ∧ elastMat (params.take 2) = .ok C ∧ densOf params = .ok ρ

/-- Full description of a plane routine. -/
structure Rep2 (n : ℕ) (f : Uel K) (R : QRule K 2 n) (strict : Bool) : Prop where
  coord : ∀ coord params r, f coord params = .ok r → ∃ X : Matrix (Fin n) (Fin 2) K, coord = matRows X
  ok : ∀ X params r, f (matRows X) params = .ok r ↔ ∃ C ρ, Mat2 strict params C ρ ∧ Acc R X ∧
    r = (NdArr.ofBlocks (qStiff (fun sh => bMat2 (grad sh.2 X)) R X C),
         NdArr.ofBlocks (qMass (fun sh => hMat2 sh.1) R X ρ))
  err : ∀ X params C ρ, Mat2 strict params C ρ → ¬ Acc R X → f (matRows X) params = .error .valueError

/-- Full description of a solid routine. -/
structure Rep3 (n : ℕ) (f : Uel K) (R : QRule K 3 n) : Prop where
  coord : ∀ coord params r, f coord params = .ok r → ∃ X : Matrix (Fin n) (Fin 3) K, coord = matRows X
  ok : ∀ X params r, f (matRows X) params = .ok r ↔ ∃ C ρ, Mat3 params C ρ ∧ Acc R X ∧
    r = (NdArr.ofBlocks (qStiff (fun sh => bMat3 (grad sh.2 X)) R X C),
         NdArr.ofBlocks (qMass (fun sh => hMat3 sh.1) R X ρ))
  err : ∀ X params C ρ, Mat3 params C ρ → ¬ Acc R X → f (matRows X) params = .error .valueError

theorem planeUel_ok {body : Matrix (Fin n) (Fin 2) K → Matrix (Fin 3) (Fin 3) K → K →
    Py (Matrix (Fin n × Fin 2) (Fin n × Fin 2) K × Matrix (Fin n × Fin 2) (Fin n × Fin 2) K)}
    {coord params r} : planeUel body coord params = .ok r ↔ ∃ C ρ X b, umat (params.take 2) = .ok C ∧
      densOf params = .ok ρ ∧ toMat n 2 coord = .ok X ∧ body X C ρ = .ok b ∧
      r = (NdArr.ofBlocks b.1, NdArr.ofBlocks b.2) := by
  unfold planeUel
  simp only [bind_ok, pure_ok]
  constructor
  · rintro ⟨C, h1, ρ, h2, X, h3, b, h4, rfl⟩
    exact ⟨C, ρ, X, b, h1, h2, h3, h4, rfl⟩
  · rintro ⟨C, ρ, X, b, h1, h2, h3, h4, rfl⟩
    exact ⟨C, h1, ρ, h2, X, h3, b, h4, rfl⟩

theorem rep_plane {body : Matrix (Fin n) (Fin 2) K → Matrix (Fin 3) (Fin 3) K → K →
    Py (Matrix (Fin n × Fin 2) (Fin n × Fin 2) K × Matrix (Fin n × Fin 2) (Fin n × Fin 2) K)}
    {R : QRule K 2 n} (hb : Body2 body R) : Rep2 n (planeUel body) R false where
  coord := by
    intro coord params r h
    obtain ⟨C, ρ, X, b, h1, h2, h3, h4, rfl⟩ := planeUel_ok.1 h
    exact ⟨X, toMat_ok h3⟩
  ok := by
    intro X params r
    rw [planeUel_ok]
    constructor
    · rintro ⟨C, ρ, X', b, h1, h2, h3, h4, rfl⟩
      rw [toMat_matRows, Except.ok.injEq] at h3
      subst h3
      rw [hb.ok] at h4
      exact ⟨C, ρ, ⟨by simp, h1, h2⟩, h4.1, by rw [h4.2]⟩
    · rintro ⟨C, ρ, ⟨_, h1, h2⟩, h3, rfl⟩
      exact ⟨C, ρ, X, _, h1, h2, toMat_matRows X, (hb.ok _ _ _ _).2 ⟨h3, rfl⟩, rfl⟩
  err := by
    rintro X params C ρ ⟨_, h1, h2⟩ h3
    cases h : body X C ρ with
    | ok r => exact absurd ((hb.ok _ _ _ _).1 h).1 h3
    | error e =>
      have := hb.err _ _ _ _ h
      subst this
      simp only [planeUel, h1, h2, ok_bind, toMat_matRows, h, error_bind]

theorem strictUel_ok {mat : List K → Py (Matrix (Fin q) (Fin q) K)}
    {body : Matrix (Fin n) (Fin d) K → Matrix (Fin q) (Fin q) K → K →
    Py (Matrix (Fin n × Fin d) (Fin n × Fin d) K × Matrix (Fin n × Fin d) (Fin n × Fin d) K)}
    {coord params r} : strictUel mat body coord params = .ok r ↔ ∃ C ρ X b, params.length = 3 ∧
      mat (params.take 2) = .ok C ∧ densOf params = .ok ρ ∧ toMat n d coord = .ok X ∧
      body X C ρ = .ok b ∧ r = (NdArr.ofBlocks b.1, NdArr.ofBlocks b.2) := by
  have hlen : ∀ params : List K, params.length = 3 → ∃ E nu rho, params = [E, nu, rho] := by
    intro params h
    match params, h with
    | [E, nu, rho], _ => exact ⟨E, nu, rho, rfl⟩
  have hd : ∀ E nu rho : K, densOf [E, nu, rho] = .ok rho := fun E nu rho => rfl
  constructor
  · intro h
    unfold strictUel at h
    split at h
    · rename_i E nu rho
      simp only [bind_ok, pure_ok] at h
      obtain ⟨C, h1, X, h2, b, h3, rfl⟩ := h
      exact ⟨C, rho, X, b, rfl, h1, hd _ _ _, h2, h3, rfl⟩
    · cases h
  · rintro ⟨C, ρ, X, b, h0, h1, h2, h3, h4, rfl⟩
    obtain ⟨E, nu, rho, rfl⟩ := hlen params h0
    rw [hd, Except.ok.injEq] at h2
    subst h2
    have h1' : mat [E, nu] = .ok C := h1
    simp only [strictUel, h1', h3, h4, ok_bind, pure_ok]

theorem strictUel_error {mat : List K → Py (Matrix (Fin q) (Fin q) K)}
    {body : Matrix (Fin n) (Fin d) K → Matrix (Fin q) (Fin q) K → K →
    Py (Matrix (Fin n × Fin d) (Fin n × Fin d) K × Matrix (Fin n × Fin d) (Fin n × Fin d) K)}
    {params C ρ e} {X : Matrix (Fin n) (Fin d) K} (h0 : params.length = 3)
    (h1 : mat (params.take 2) = .ok C) (h2 : densOf params = .ok ρ) (h3 : body X C ρ = .error e) :
    strictUel mat body (matRows X) params = .error e := by
  match params, h0 with
  | [E, nu, rho], _ =>
    have h1' : mat [E, nu] = .ok C := h1
    have h2' : rho = ρ := by
      have : densOf [E, nu, rho] = .ok rho := rfl
      rw [this, Except.ok.injEq] at h2
      exact h2
    subst h2'
    simp only [strictUel, h1', h3, toMat_matRows, ok_bind, error_bind]

theorem rep_quad8 : Rep2 8 (elastQuad8 (K := K)) (ruleQuad shapeQuad8 pts1d3 wts1d3) true where
  coord := by
    intro coord params r h
    obtain ⟨C, ρ, X, b, h0, h1, h2, h3, h4, rfl⟩ := strictUel_ok.1 h
    exact ⟨X, toMat_ok h3⟩
  ok := by
    intro X params r
    unfold elastQuad8
    rw [strictUel_ok]
    constructor
    · rintro ⟨C, ρ, X', b, h0, h1, h2, h3, h4, rfl⟩
      rw [toMat_matRows, Except.ok.injEq] at h3
      subst h3
      rw [body_quad8.ok] at h4
      exact ⟨C, ρ, ⟨fun _ => h0, h1, h2⟩, h4.1, by rw [h4.2]⟩
    · rintro ⟨C, ρ, ⟨h0, h1, h2⟩, h3, rfl⟩
      exact ⟨C, ρ, X, _, h0 rfl, h1, h2, toMat_matRows X, (body_quad8.ok _ _ _ _).2 ⟨h3, rfl⟩, rfl⟩
  err := by
    rintro X params C ρ ⟨h0, h1, h2⟩ h3
    cases h : elastQuad8M X C ρ with
    | ok r => exact absurd ((body_quad8.ok _ _ _ _).1 h).1 h3
    | error e =>
      have := body_quad8.err _ _ _ _ h
      subst this
      exact strictUel_error (h0 rfl) h1 h2 h

theorem rep_solid {body : Matrix (Fin n) (Fin 3) K → Matrix (Fin 6) (Fin 6) K → K →
    Py (Matrix (Fin n × Fin 3) (Fin n × Fin 3) K × Matrix (Fin n × Fin 3) (Fin n × Fin 3) K)}
    {R : QRule K 3 n} (hb : Body3 body R) : Rep3 n (strictUel elastMat body) R where
  coord := by
    intro coord params r h
    obtain ⟨C, ρ, X, b, h0, h1, h2, h3, h4, rfl⟩ := strictUel_ok.1 h
    exact ⟨X, toMat_ok h3⟩
  ok := by
    intro X params r
    rw [strictUel_ok]
    constructor
    · rintro ⟨C, ρ, X', b, h0, h1, h2, h3, h4, rfl⟩
      rw [toMat_matRows, Except.ok.injEq] at h3
      subst h3
      rw [hb.ok] at h4
      exact ⟨C, ρ, ⟨h0, h1, h2⟩, h4.1, by rw [h4.2]⟩
    · rintro ⟨C, ρ, ⟨h0, h1, h2⟩, h3, rfl⟩
      exact ⟨C, ρ, X, _, h0, h1, h2, toMat_matRows X, (hb.ok _ _ _ _).2 ⟨h3, rfl⟩, rfl⟩
  err := by
    rintro X params C ρ ⟨h0, h1, h2⟩ h3
    cases h : body X C ρ with
    | ok r => exact absurd ((hb.ok _ _ _ _).1 h).1 h3
    | error e =>
      have := hb.err _ _ _ _ h
      subst this
      exact strictUel_error h0 h1 h2 h

/-- What all rules of the plane routines share. -/
structure GoodRule (R : QRule K d n) : Prop where
  ne : R ≠ []
  pos : ∀ x ∈ R, 0 < x.2
  unity : ∀ x ∈ R, ∑ a, x.1.1 a = 1
  rows : ∀ x ∈ R, ∀ i, ∑ a, x.1.2 i a = 0

theorem mem_prod_pos {l : List ℚ} (hl : ∀ w ∈ l, 0 < w) {k : ℕ} {p : List ℚ} (hp : p ∈ prodRepeat l k) :
    0 < p.prod := by
  induction k generalizing p with
  | zero => simp only [prodRepeat, List.mem_singleton] at hp; simp [hp]
  | succ k ih =>
    simp only [prodRepeat, List.mem_flatMap, List.mem_map] at hp
    obtain ⟨x, hx, t, ht, rfl⟩ := hp
    rw [List.prod_cons]
    exact mul_pos (hl x hx) (ih ht)

theorem good_quad {f : K → K → Shape K 2 n} (hf : PlaneShape n f) {pts wts : List ℚ} (hne : pts ≠ [])
    (hlen : pts.length = wts.length) (hw : ∀ w ∈ wts, 0 < w) : GoodRule (ruleQuad f pts wts) where
  ne := by
    intro h
    have h1 := congrArg List.length h
    unfold ruleQuad at h1
    rw [List.length_map, List.length_zip, List.length_map, length_prodRepeat, length_prodRepeat, hlen,
      min_self, List.length_nil] at h1
    have h2 : wts.length ≠ 0 := by rw [← hlen]; simpa using hne
    exact h2 (by simpa using h1)
  pos := by
    intro x hx
    obtain ⟨y, hy, rfl⟩ := List.mem_map.1 hx
    obtain ⟨p, hp, h2⟩ := List.mem_map.1 (List.of_mem_zip (a := y.1) (b := y.2) hy).2
    have := mem_prod_pos hw hp
    rw [h2] at this
    show (0 : K) < (y.2 : K)
    exact_mod_cast this
  unity := by
    intro x hx
    obtain ⟨y, hy, rfl⟩ := List.mem_map.1 hx
    exact (planeShape_unity hf _ _).1
  rows := by
    intro x hx
    obtain ⟨y, hy, rfl⟩ := List.mem_map.1 hx
    exact (planeShape_unity hf _ _).2

theorem good_tri3 : GoodRule (ruleTri3 (K := K)) where
  ne := by simp [ruleTri3, ptsTri2, wtsTri2]
  pos := by
    intro x hx
    obtain ⟨y, hy, rfl⟩ := List.mem_map.1 hx
    have h : ∀ w ∈ wtsTri2, 0 < w := by decide +kernel
    have h2 := h y.2 (List.of_mem_zip (a := y.1) (b := y.2) hy).2
    have h3 : (0 : K) < (y.2 : K) := by exact_mod_cast h2
    exact mul_pos (by norm_num) h3
  unity := by
    intro x hx
    obtain ⟨y, hy, rfl⟩ := List.mem_map.1 hx
    exact (C26_tri3 _ _).1
  rows := by
    intro x hx
    obtain ⟨y, hy, rfl⟩ := List.mem_map.1 hx
    exact (C26_tri3 _ _).2

theorem good_tri6 : GoodRule (ruleTri6 (K := K)) where
  ne := by simp [ruleTri6, ptsTri3, wtsTri3]
  pos := by
    intro x hx
    obtain ⟨y, hy, rfl⟩ := List.mem_map.1 hx
    have h : ∀ w ∈ wtsTri3, 0 < w := by decide +kernel
    have h2 := h y.2 (List.of_mem_zip (a := y.1) (b := y.2) hy).2
    have h3 : (0 : K) < (y.2 : K) := by exact_mod_cast h2
    exact mul_pos (by norm_num) h3
  unity := by
    intro x hx
    obtain ⟨y, hy, rfl⟩ := List.mem_map.1 hx
    exact (C26_tri6 _ _).1
  rows := by
    intro x hx
    obtain ⟨y, hy, rfl⟩ := List.mem_map.1 hx
    exact (C26_tri6 _ _).2

theorem good_tet4 : GoodRule (ruleTet4 (K := K)) where
  ne := by simp [ruleTet4, ptsTet3, wtsTet3]
  pos := by
    intro x hx
    obtain ⟨y, hy, rfl⟩ := List.mem_map.1 hx
    have h : ∀ w ∈ wtsTet3, 0 < w := by decide +kernel
    have h2 := h y.2 (List.of_mem_zip (a := y.1) (b := y.2) hy).2
    have h3 : (0 : K) < (y.2 : K) := by exact_mod_cast h2
    exact div_pos h3 (by norm_num)
  unity := by
    intro x hx
    obtain ⟨y, hy, rfl⟩ := List.mem_map.1 hx
    exact (C26_tet4 _ _ _).1
  rows := by
    intro x hx
    obtain ⟨y, hy, rfl⟩ := List.mem_map.1 hx
    exact (C26_tet4 _ _ _).2

theorem good_hex8 : GoodRule (ruleHex8 (K := K)) where
  ne := by simp [ruleHex8, pts1d2, wts1d2, prodRepeat]
  pos := by
    intro x hx
    obtain ⟨y, hy, rfl⟩ := List.mem_map.1 hx
    obtain ⟨p, hp, h2⟩ := List.mem_map.1 (List.of_mem_zip (a := y.1) (b := y.2) hy).2
    have := mem_prod_pos (by decide +kernel) hp
    rw [h2] at this
    show (0 : K) < (y.2 : K)
    exact_mod_cast this
  unity := by
    intro x hx
    obtain ⟨y, hy, rfl⟩ := List.mem_map.1 hx
    exact (C26_hex8 _ _ _).1
  rows := by
    intro x hx
    obtain ⟨y, hy, rfl⟩ := List.mem_map.1 hx
    exact (C26_hex8 _ _ _).2

/-- Every plane routine is a quadrature sum with a good rule. -/
theorem plane_rep' {f : Uel K} {R : QRule K 2 n} (h : PlaneRule n f R) :
    (∃ strict, Rep2 n f R strict) ∧ GoodRule R := by
  cases h
  · exact ⟨⟨_, rep_plane body_tri3⟩, good_tri3⟩
  · exact ⟨⟨_, rep_plane body_tri6⟩, good_tri6⟩
  · exact ⟨⟨_, rep_plane body_quad4⟩, good_quad .quad4 (by simp [pts1d2]) rfl (by decide +kernel)⟩
  · exact ⟨⟨_, rep_plane body_quad9⟩, good_quad .quad9 (by simp [pts1d3]) rfl (by decide +kernel)⟩
  · exact ⟨⟨_, rep_quad8⟩, good_quad .quad8 (by simp [pts1d3]) rfl (by decide +kernel)⟩

theorem plane_rule {f : Uel K} (h : PlaneElement n f) : ∃ R, PlaneRule n f R := by
  cases h
  · exact ⟨_, .tri3⟩
  · exact ⟨_, .tri6⟩
  · exact ⟨_, .quad4⟩
  · exact ⟨_, .quad9⟩
  · exact ⟨_, .quad8⟩

theorem plane_rep {f : Uel K} (h : PlaneElement n f) :
    ∃ R strict, Rep2 n f R strict ∧ GoodRule R := by
  obtain ⟨R, hR⟩ := plane_rule h
  obtain ⟨⟨st, h1⟩, h2⟩ := plane_rep' hR
  exact ⟨R, st, h1, h2⟩

/-- Every solid routine is a quadrature sum with a good rule. -/
theorem solid_rep' {f : Uel K} {R : QRule K 3 n} (h : SolidRule n f R) : Rep3 n f R ∧ GoodRule R := by
  cases h
  · exact ⟨rep_solid body_tet4, good_tet4⟩
  · exact ⟨rep_solid body_hex8, good_hex8⟩

theorem solid_rule {f : Uel K} (h : SolidElement n f) : ∃ R, SolidRule n f R := by
  cases h
  · exact ⟨_, .tet4⟩
  · exact ⟨_, .hex8⟩

theorem solid_rep {f : Uel K} (h : SolidElement n f) : ∃ R, Rep3 n f R ∧ GoodRule R := by
  obtain ⟨R, hR⟩ := solid_rule h
  exact ⟨R, solid_rep' hR⟩

/-! ### The axisymmetric routine -/

/-- All points are accepted: right orientation and positive radius. -/
def AccAxi (R : QRule K 2 n) (X : Matrix (Fin n) (Fin 2) K) : Prop :=
  ∀ x ∈ R, 0 < place x.1.1 X 0 ∧ 1e-8 < jdet x.1 X

theorem diffAxi_ok {sh : Shape K 2 n} {X : Matrix (Fin n) (Fin 2) K} {r} :
    elastDiffAxi sh X = .ok r ↔ (0 < place sh.1 X 0 ∧ 1e-8 < jdet sh X) ∧
      r = (hMat2 sh.1, bMatAxi sh.1 (place sh.1 X 0) (grad sh.2 X), jdet sh X) := by
  unfold elastDiffAxi grad jdet place
  dsimp only
  rcases lt_trichotomy (∑ a, sh.1 a * X a 0) 0 with hx | hx | hx
  · rw [if_pos hx]
    exact ⟨fun e => (by cases e), fun e => absurd e.1.1 (not_lt.2 hx.le)⟩
  · rw [if_neg (by rw [hx]; exact lt_irrefl _)]
    refine ⟨fun e => ?_, fun e => absurd e.1.1 (by rw [hx]; exact lt_irrefl _)⟩
    rw [bind_ok] at e
    obtain ⟨a, _, h2⟩ := e
    rw [if_pos hx] at h2
    cases h2
  · rw [if_neg (not_lt.2 hx.le)]
    rcases lt_or_ge (1e-8) (sh.2 * X).det with h | h
    · rw [jacoper_of_gt h]
      simp only [ok_bind, if_neg hx.ne', pure_ok]
      exact ⟨fun e => ⟨⟨hx, h⟩, e.symm⟩, fun e => e.2.symm⟩
    · rw [jacoper_of_le h]
      exact ⟨fun e => (by cases e), fun e => absurd e.1.2 (not_lt.2 h)⟩

theorem diffAxi_error {sh : Shape K 2 n} {X : Matrix (Fin n) (Fin 2) K} (h : jdet sh X ≤ 1e-8) :
    elastDiffAxi sh X = .error .valueError := by
  unfold elastDiffAxi
  dsimp only
  split_ifs
  · rfl
  all_goals
    rw [jacoper_of_le h]
    rfl

theorem diffAxiP_ok {f : K → K → Shape K 2 n} {X : Matrix (Fin n) (Fin 2) K} {p : List ℚ}
    (hp : p.length = 2) {r} : diffAxi f X p = .ok r ↔
      (0 < place (at2 f p).1 X 0 ∧ 1e-8 < jdet (at2 f p) X) ∧ r = (hMat2 (at2 f p).1,
        bMatAxi (at2 f p).1 (place (at2 f p).1 X 0) (grad (at2 f p).2 X), jdet (at2 f p) X) := by
  match p, hp with
  | [r, s], _ =>
    simp only [diffAxi]
    rw [diffAxi_ok]
    rfl

theorem good_axi : GoodRule (ruleAxi (K := K)) :=
  good_quad .quad9 (by simp [pts1d3]) rfl (by decide +kernel)

theorem bodyAxi_ok {X : Matrix (Fin 9) (Fin 2) K} {C ρ r} : elastAxiQuad9M X C ρ = .ok r ↔
    AccAxi ruleAxi X ∧
    r = (qStiff (fun sh => bMatAxi sh.1 (place sh.1 X 0) (grad sh.2 X)) ruleAxi X C,
         qMass (fun sh => hMat2 sh.1) ruleAxi X ρ) := by
  have := gaussLoop_ok (C := C) (sc := fun det w => det * w)
    (mc := fun det w => ρ * (det * w)) (ps := prodRepeat pts1d3 2)
    (ws := (prodRepeat wts1d3 2).map List.prod) (X := X) (ρ := ρ)
    (diff := diffAxi shapeQuad9 X) (sh := at2 shapeQuad9) (coef := fun w => w)
    (V := fun sh => 0 < place sh.1 X 0 ∧ 1e-8 < jdet sh X) (H := fun sh => hMat2 sh.1)
    (B := fun sh => bMatAxi sh.1 (place sh.1 X 0) (grad sh.2 X))
    (fun p hp r => diffAxiP_ok (mem_prodRepeat_length hp)) (fun det w => by ring)
    (fun det w => by ring) (by rw [List.length_map, length_prodRepeat, length_prodRepeat]; rfl) 0 0
    (r := r)
  rw [zero_add, zero_add] at this
  exact this

theorem repAxi_coord {coord : Table K} {params r} (h : elastAxiQuad9 coord params = .ok r) :
    ∃ X : Matrix (Fin 9) (Fin 2) K, coord = matRows X := by
  obtain ⟨C, ρ, X, b, h0, h1, h2, h3, h4, rfl⟩ := strictUel_ok.1 h
  exact ⟨X, toMat_ok h3⟩

theorem repAxi_ok {X : Matrix (Fin 9) (Fin 2) K} {params r} :
    elastAxiQuad9 (matRows X) params = .ok r ↔ ∃ C ρ, (params.length = 3 ∧
      elastMatAxi (params.take 2) = .ok C ∧ densOf params = .ok ρ) ∧ AccAxi ruleAxi X ∧
      r = (NdArr.ofBlocks (qStiff (fun sh => bMatAxi sh.1 (place sh.1 X 0) (grad sh.2 X)) ruleAxi X C),
           NdArr.ofBlocks (qMass (fun sh => hMat2 sh.1) ruleAxi X ρ)) := by
  unfold elastAxiQuad9
  rw [strictUel_ok]
  constructor
  · rintro ⟨C, ρ, X', b, h0, h1, h2, h3, h4, rfl⟩
    rw [toMat_matRows, Except.ok.injEq] at h3
    subst h3
    rw [bodyAxi_ok] at h4
    exact ⟨C, ρ, ⟨h0, h1, h2⟩, h4.1, by rw [h4.2]⟩
  · rintro ⟨C, ρ, ⟨h0, h1, h2⟩, h3, rfl⟩
    exact ⟨C, ρ, X, _, h0, h1, h2, toMat_matRows X, bodyAxi_ok.2 ⟨h3, rfl⟩, rfl⟩

end

end SolidsPy
