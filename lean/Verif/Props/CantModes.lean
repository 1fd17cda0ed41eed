import Verif.Props.FrameModes
import Mathlib.Analysis.Real.Pi.Bounds

/-! # C123: bounds for the frequencies of a cantilever -/

set_option linter.unusedSectionVars false

namespace SolidsPy
open Spec Assem Matrix

/-- The cubic pieces of a curve with continuous slope, clamped at the start: `c i e` is the coefficient `i` of piece `e`, whose length
is `h e`. -/
structure Pieces (n : ℕ) (h : ℕ → ℝ) (c : Fin 4 → ℕ → ℝ) : Prop where
  long : ∀ e < n, 0 < h e
  start : c 0 0 = 0
  slope : c 1 0 = 0
  value : ∀ e < n, c 0 (e + 1) = c 0 e + c 1 e * h e + c 2 e * h e ^ 2 + c 3 e * h e ^ 3
  value' : ∀ e < n, c 1 (e + 1) = c 1 e + 2 * c 2 e * h e + 3 * c 3 e * h e ^ 2

/-- Bending energy of a piece. -/
def bendPiece (h : ℝ) (c2 c3 : ℝ) : ℝ := 4 * (c2 * c2) * h + 6 * (c2 * c3 + c3 * c2) * h ^ 2 + 12 * (c3 * c3) * h ^ 3

theorem bendPiece_nonneg {h : ℝ} (hh : 0 ≤ h) (c2 c3 : ℝ) : 0 ≤ bendPiece h c2 c3 := by
  have : bendPiece h c2 c3 = 4 * h * ((c2 + 3 / 2 * c3 * h) ^ 2 + 3 / 4 * (c3 * h) ^ 2) := by
    unfold bendPiece
    ring
  rw [this]
  positivity

theorem bendPiece_mono {s h : ℝ} (hh : s ≤ h) (c2 c3 : ℝ) : bendPiece s c2 c3 ≤ bendPiece h c2 c3 := by
  have : bendPiece h c2 c3 - bendPiece s c2 c3 = bendPiece (h - s) (c2 + 3 * c3 * s) c3 := by
    unfold bendPiece
    ring
  have := bendPiece_nonneg (sub_nonneg.2 hh) (c2 + 3 * c3 * s) c3
  linarith

/-- Integral over `0 ≤ s ≤ l` of `(a (l - s) + b)²`. -/
noncomputable def reach (a b l : ℝ) : ℝ := a ^ 2 * l ^ 3 / 3 + a * b * l ^ 2 + b ^ 2 * l

theorem reach_nonneg {l : ℝ} (hl : 0 ≤ l) (a b : ℝ) : 0 ≤ reach a b l := by
  have : reach a b l = l * ((b + a * l / 2) ^ 2 + (a * l) ^ 2 / 12) := by
    unfold reach
    ring
  rw [this]
  positivity

theorem reach_add (a b l s : ℝ) : reach a (b + a * s) l + reach a b s = reach a b (l + s) := by
  unfold reach
  ring

theorem add_sq_le {α β S T A B : ℝ} (hS : 0 ≤ S) (hT : 0 ≤ T) (hA : 0 ≤ A) (hB : 0 ≤ B) (h1 : α ^ 2 ≤ S * A) (h2 : β ^ 2 ≤ T * B) :
    (α + β) ^ 2 ≤ (S + T) * (A + B) := by
  have h3 : (α * β) ^ 2 ≤ (S * B) * (T * A) := by
    calc (α * β) ^ 2 = α ^ 2 * β ^ 2 := by ring
      _ ≤ (S * A) * (T * B) := mul_le_mul h1 h2 (sq_nonneg _) (mul_nonneg hS hA)
      _ = _ := by ring
  have h4 : 2 * (α * β) ≤ S * B + T * A := by
    have hp := mul_nonneg hS hB
    have hq := mul_nonneg hT hA
    refine abs_le_of_sq_le_sq' (a := 2 * (α * β)) ?_ (by positivity) |>.2
    nlinarith [sq_nonneg (S * B - T * A)]
  nlinarith

theorem piece_reach (h a b c2 c3 : ℝ) :
    (a * (c2 * h ^ 2 + c3 * h ^ 3) + b * (2 * c2 * h + 3 * c3 * h ^ 2)) ^ 2 ≤ bendPiece h c2 c3 * reach a b h := by
  have : bendPiece h c2 c3 * reach a b h - (a * (c2 * h ^ 2 + c3 * h ^ 3) + b * (2 * c2 * h + 3 * c3 * h ^ 2)) ^ 2 =
      ((b + a * h) * (6 * c3) + a * (2 * c2)) ^ 2 * h ^ 4 / 12 := by
    unfold bendPiece reach
    ring
  have h0 : 0 ≤ ((b + a * h) * (6 * c3) + a * (2 * c2)) ^ 2 * h ^ 4 / 12 := by positivity
  linarith

section
variable {n : ℕ} {h : ℕ → ℝ} {c : Fin 4 → ℕ → ℝ}

/-- Bending energy of the first `e` pieces. -/
def bendSum (h : ℕ → ℝ) (c : Fin 4 → ℕ → ℝ) (e : ℕ) : ℝ := ∑ i ∈ Finset.range e, bendPiece (h i) (c 2 i) (c 3 i)

theorem bendSum_mono (hp : Pieces n h c) {e : ℕ} (he : e ≤ n) : bendSum h c e ≤ bendSum h c n := by
  refine Finset.sum_le_sum_of_subset_of_nonneg (by simpa using he) fun i hi _ => ?_
  exact bendPiece_nonneg (hp.long i (Finset.mem_range.1 hi)).le _ _

theorem bendSum_nonneg (hp : Pieces n h c) {e : ℕ} (he : e ≤ n) : 0 ≤ bendSum h c e :=
  Finset.sum_nonneg fun i hi => bendPiece_nonneg (hp.long i (by have := Finset.mem_range.1 hi; omega)).le _ _

theorem length_nonneg (hp : Pieces n h c) {e : ℕ} (he : e ≤ n) : 0 ≤ ∑ i ∈ Finset.range e, h i :=
  Finset.sum_nonneg fun i hi => (hp.long i (by have := Finset.mem_range.1 hi; omega)).le

theorem pieces_reach (hp : Pieces n h c) {e : ℕ} (he : e ≤ n) (a b : ℝ) :
    (a * c 0 e + b * c 1 e) ^ 2 ≤ bendSum h c e * reach a b (∑ i ∈ Finset.range e, h i) := by
  induction e generalizing a b with
  | zero => simp [hp.start, hp.slope, bendSum]
  | succ e ih =>
    have hl := (hp.long e he).le
    have h1 := ih (by omega) a (b + a * h e)
    have h2 := piece_reach (h e) a b (c 2 e) (c 3 e)
    have := add_sq_le (bendSum_nonneg hp (by omega)) (bendPiece_nonneg hl _ _) (reach_nonneg (length_nonneg hp (by omega)) _ _)
      (reach_nonneg hl _ _) h1 h2
    rw [reach_add] at this
    rw [hp.value e he, hp.value' e he, bendSum, Finset.sum_range_succ, Finset.sum_range_succ]
    refine le_trans (le_of_eq ?_) this
    ring

/-- Anywhere on piece `e`. -/
theorem pieces_inside (hp : Pieces n h c) {e : ℕ} (he : e < n) {s : ℝ} (hs : 0 ≤ s) (hsh : s ≤ h e) :
    (c 0 e + c 1 e * s + c 2 e * s ^ 2 + c 3 e * s ^ 3) ^ 2 ≤ bendSum h c n * ((∑ i ∈ Finset.range e, h i + s) ^ 3 / 3) := by
  have h1 := pieces_reach hp he.le 1 (0 + 1 * s)
  have h2 := piece_reach s 1 0 (c 2 e) (c 3 e)
  have := add_sq_le (bendSum_nonneg hp he.le) (bendPiece_nonneg hs _ _) (reach_nonneg (length_nonneg hp he.le) _ _)
    (reach_nonneg hs _ _) h1 h2
  rw [reach_add] at this
  have hm : bendSum h c e + bendPiece s (c 2 e) (c 3 e) ≤ bendSum h c n := by
    refine le_trans ?_ (bendSum_mono hp (e := e + 1) he)
    rw [bendSum, bendSum, Finset.sum_range_succ]
    have := bendPiece_mono hsh (c 2 e) (c 3 e)
    linarith
  have hr : reach 1 0 (∑ i ∈ Finset.range e, h i + s) = (∑ i ∈ Finset.range e, h i + s) ^ 3 / 3 := by
    unfold reach
    ring
  have h0 : 0 ≤ (∑ i ∈ Finset.range e, h i + s) ^ 3 / 3 := by
    have := length_nonneg hp he.le
    positivity
  rw [hr] at this
  calc _ = (1 * c 0 e + (0 + 1 * s) * c 1 e + (1 * (c 2 e * s ^ 2 + c 3 e * s ^ 3) + 0 * (2 * c 2 e * s + 3 * c 3 e * s ^ 2))) ^ 2 := by ring
    _ ≤ _ := this
    _ ≤ _ := mul_le_mul_of_nonneg_right hm h0

end

/-- Integral of the square of a cubic, through its coefficients. -/
theorem square_integral (c0 c1 c2 c3 L : ℝ) : ∫ s in (0 : ℝ)..L, (c0 + c1 * s + c2 * s ^ 2 + c3 * s ^ 3) ^ 2 =
    c0 * c0 * L + (c0 * c1 + c1 * c0) * (L ^ 2 / 2) + (c0 * c2 + c1 * c1 + c2 * c0) * (L ^ 3 / 3) +
      (c0 * c3 + c1 * c2 + c2 * c1 + c3 * c0) * (L ^ 4 / 4) + (c1 * c3 + c2 * c2 + c3 * c1) * (L ^ 5 / 5) +
      (c2 * c3 + c3 * c2) * (L ^ 6 / 6) + c3 * c3 * (L ^ 7 / 7) := by
  rw [← integral_seven]
  refine intervalIntegral.integral_congr fun s _ => ?_
  ring

section
variable {n : ℕ} {h : ℕ → ℝ} {c : Fin 4 → ℕ → ℝ}

theorem piece_mass (hp : Pieces n h c) {e : ℕ} (he : e < n) :
    ∫ s in (0 : ℝ)..h e, (c 0 e + c 1 e * s + c 2 e * s ^ 2 + c 3 e * s ^ 3) ^ 2 ≤
      bendSum h c n / 12 * ((∑ i ∈ Finset.range (e + 1), h i) ^ 4 - (∑ i ∈ Finset.range e, h i) ^ 4) := by
  have key := intervalIntegral.integral_mono_on (a := 0) (b := h e) (μ := MeasureTheory.volume)
    (f := fun s => (c 0 e + c 1 e * s + c 2 e * s ^ 2 + c 3 e * s ^ 3) ^ 2)
    (g := fun s => bendSum h c n * ((∑ i ∈ Finset.range e, h i + s) ^ 3 / 3)) (hp.long e he).le
    (Continuous.intervalIntegrable (by fun_prop) _ _) (Continuous.intervalIntegrable (by fun_prop) _ _)
    fun s hs => pieces_inside hp he hs.1 hs.2
  refine key.trans (le_of_eq ?_)
  have d : ∀ s, HasDerivAt (fun s => bendSum h c n / 12 * (∑ i ∈ Finset.range e, h i + s) ^ 4)
      (bendSum h c n * ((∑ i ∈ Finset.range e, h i + s) ^ 3 / 3)) s := by
    intro s
    refine ((((hasDerivAt_id s).const_add (∑ i ∈ Finset.range e, h i)).pow 4).const_mul _).congr_deriv ?_
    simp
    ring
  rw [intervalIntegral.integral_eq_sub_of_hasDerivAt (fun s _ => d s) (Continuous.intervalIntegrable (by fun_prop) _ _),
    Finset.sum_range_succ]
  simp
  ring

/-- The inequality of a clamped curve: the integral of its square is at most `L⁴ / 12` times that of its squared curvature. -/
theorem pieces_mass (hp : Pieces n h c) :
    ∑ e ∈ Finset.range n, ∫ s in (0 : ℝ)..h e, (c 0 e + c 1 e * s + c 2 e * s ^ 2 + c 3 e * s ^ 3) ^ 2 ≤
      bendSum h c n / 12 * (∑ i ∈ Finset.range n, h i) ^ 4 := by
  refine (Finset.sum_le_sum fun e he => piece_mass hp (Finset.mem_range.1 he)).trans (le_of_eq ?_)
  rw [← Finset.mul_sum, Finset.sum_range_sub (fun e => (∑ i ∈ Finset.range e, h i) ^ 4)]
  simp

end

/-- The same along the bar: a piecewise linear function that vanishes at the start. -/
theorem linear_mass {n : ℕ} {h a g : ℕ → ℝ} (hh : ∀ e < n, 0 < h e) (h0 : a 0 = 0) (hs : ∀ e < n, a (e + 1) = a e + g e * h e) :
    ∑ e ∈ Finset.range n, (a e * a e * h e + (a e * g e + g e * a e) * (h e ^ 2 / 2) + g e * g e * (h e ^ 3 / 3)) ≤
      (∑ e ∈ Finset.range n, g e * g e * h e) / 2 * (∑ e ∈ Finset.range n, h e) ^ 2 := by
  have hl : ∀ e ≤ n, 0 ≤ ∑ i ∈ Finset.range e, h i :=
    fun e he => Finset.sum_nonneg fun i hi => (hh i (by have := Finset.mem_range.1 hi; omega)).le
  have hg : ∀ e ≤ n, 0 ≤ ∑ i ∈ Finset.range e, g i * g i * h i :=
    fun e he => Finset.sum_nonneg fun i hi => mul_nonneg (mul_self_nonneg _) (hh i (by have := Finset.mem_range.1 hi; omega)).le
  have hr : ∀ e ≤ n, a e ^ 2 ≤ (∑ i ∈ Finset.range e, g i * g i * h i) * ∑ i ∈ Finset.range e, h i := by
    intro e he
    induction e with
    | zero => simp [h0]
    | succ e ih =>
      rw [hs e he, Finset.sum_range_succ, Finset.sum_range_succ]
      have := hh e he
      refine add_sq_le (hg e (by omega)) (by have := mul_self_nonneg (g e); positivity) (hl e (by omega)) this.le (ih (by omega)) ?_
      exact le_of_eq (by ring)
  have key : ∀ e < n, a e * a e * h e + (a e * g e + g e * a e) * (h e ^ 2 / 2) + g e * g e * (h e ^ 3 / 3) ≤
      (∑ e ∈ Finset.range n, g e * g e * h e) / 2 * ((∑ i ∈ Finset.range (e + 1), h i) ^ 2 - (∑ i ∈ Finset.range e, h i) ^ 2) := by
    intro e he
    have h1 := hr e he.le
    have h2 : ∑ i ∈ Finset.range (e + 1), g i * g i * h i ≤ ∑ i ∈ Finset.range n, g i * g i * h i :=
      Finset.sum_le_sum_of_subset_of_nonneg (by simpa using he) fun i hi _ =>
        mul_nonneg (mul_self_nonneg _) (hh i (Finset.mem_range.1 hi)).le
    rw [Finset.sum_range_succ] at h2
    rw [Finset.sum_range_succ]
    have hpos := hh e he
    have hl' := hl e he.le
    have hg' := hg e he.le
    generalize ∑ i ∈ Finset.range n, g i * g i * h i = G at *
    generalize ∑ i ∈ Finset.range e, g i * g i * h i = S at *
    generalize ∑ i ∈ Finset.range e, h i = l at *
    have e1 : G / 2 * ((l + h e) ^ 2 - l ^ 2) = G * (l * h e + h e ^ 2 / 2) := by ring
    rw [e1]
    have e2 : (S + g e * g e * h e) * (l * h e + h e ^ 2 / 2) ≤ G * (l * h e + h e ^ 2 / 2) :=
      mul_le_mul_of_nonneg_right h2 (by positivity)
    refine le_trans ?_ e2
    have e3 : a e * g e * h e ≤ (S * h e + l * (g e * g e * h e)) / 2 := by
      have hq : (a e * (g e * h e)) ^ 2 ≤ (S * h e) * (l * (g e * g e * h e)) := by
        calc (a e * (g e * h e)) ^ 2 = a e ^ 2 * (g e * g e * h e * h e) := by ring
          _ ≤ S * l * (g e * g e * h e * h e) := mul_le_mul_of_nonneg_right h1 (by have := mul_self_nonneg (g e); positivity)
          _ = _ := by ring
      have hp1 : 0 ≤ S * h e := by positivity
      have hp2 : 0 ≤ l * (g e * g e * h e) := by have := mul_self_nonneg (g e); positivity
      refine abs_le_of_sq_le_sq' (a := a e * g e * h e) ?_ (by positivity) |>.2
      nlinarith [sq_nonneg (S * h e - l * (g e * g e * h e))]
    have e4 : a e * g e * h e * h e ≤ (S * h e + l * (g e * g e * h e)) / 2 * h e := mul_le_mul_of_nonneg_right e3 hpos.le
    have e5 : a e ^ 2 * h e ≤ S * l * h e := mul_le_mul_of_nonneg_right h1 hpos.le
    have e6 : 0 ≤ g e * g e * h e ^ 3 := by have := mul_self_nonneg (g e); positivity
    nlinarith
  refine (Finset.sum_le_sum fun e he => key e (Finset.mem_range.1 he)).trans (le_of_eq ?_)
  rw [← Finset.mul_sum, Finset.sum_range_sub (fun e => (∑ i ∈ Finset.range e, h i) ^ 2)]
  simp

section
variable {sq : ℝ → ℝ} {cons mats nodes : Table ℝ} {elements : List (List ℤ)} {ty : ℤ} {n neq : ℕ}
  {x : ℕ → ℝ} {EI EA γ ν : ℝ} {U V : ℕ → ℕ → ℝ} {ks ms : List (Member ℝ)} {Kg Mg : Matrix (Fin neq) (Fin neq) ℝ}
  {w : Fin neq → ℝ} {φ : Fin neq → Fin neq → ℝ}

/-- Mass per length of the cantilever. -/
def Spec.LineMass (mats : Table ℝ) (ty : ℤ) (γ : ℝ) : Prop :=
  ∃ params, mats[0]? = some params ∧ ((ty = 7 ∧ ∃ E I, BeamUParams params E I γ) ∨ (ty = 8 ∧ ∃ E I A, BeamParams params E I A γ))

theorem beamUParams_unique {params : List ℝ} {E I μ E' I' μ' : ℝ} (h : BeamUParams params E I μ) (h' : BeamUParams params E' I' μ') :
    E = E' ∧ I = I' ∧ μ = μ' := by
  rcases h with ⟨rfl, rfl⟩ | ⟨ρ, A, rfl, rfl⟩ <;> rcases h' with ⟨h, rfl⟩ | ⟨ρ', A', h, rfl⟩ <;> simp at h
  · exact ⟨h.1, h.2, rfl⟩
  · obtain ⟨rfl, rfl, rfl, rfl⟩ := h
    exact ⟨rfl, rfl, rfl⟩

theorem beamParams_unique {params : List ℝ} {E I A μ E' I' A' μ' : ℝ} (h : BeamParams params E I A μ) (h' : BeamParams params E' I' A' μ') :
    E = E' ∧ I = I' ∧ A = A' ∧ μ = μ' := by
  obtain ⟨-, h⟩ := h
  obtain ⟨-, h'⟩ := h'
  rcases h with ⟨rfl, rfl⟩ | ⟨ρ, rfl, rfl⟩ <;> rcases h' with ⟨h, rfl⟩ | ⟨ρ', h, rfl⟩ <;> simp at h
  · obtain ⟨rfl, rfl, rfl⟩ := h
    exact ⟨rfl, rfl, rfl, rfl⟩
  · obtain ⟨rfl, rfl, rfl, rfl⟩ := h
    exact ⟨rfl, rfl, rfl, rfl⟩

theorem Spec.Cantilever.isBeam (hc : Cantilever cons mats nodes elements ty n x EI EA) (hγ : LineMass mats ty γ) :
    ∃ y, ∀ e (he : e < n), IsBeam mats nodes (elements[e]'(by rw [hc.number]; exact he)) e (e + 1) (ends' (x e) (x (e + 1)) y)
      (x (e + 1) - x e) EI EA γ (if ty = 7 then 0 else γ) := by
  obtain ⟨y, hpl⟩ := hc.place
  refine ⟨y, fun e he => ?_⟩
  obtain ⟨id, hid⟩ := hc.beam e he
  rw [List.getElem?_eq_getElem (by rw [hc.number]; exact he), Option.some.injEq] at hid
  rw [hid]
  obtain ⟨i0, r0⟩ := hpl e (by omega)
  obtain ⟨i1, r1⟩ := hpl (e + 1) (by omega)
  refine ⟨?_, ⟨i0, by rw [r0]; rfl⟩, ⟨i1, by rw [r1]; rfl⟩, ends'_length y (hc.order e he), ?_⟩
  · exact .cons ⟨by rw [hc.count]; omega, .inl rfl⟩ (.cons ⟨by rw [hc.count]; omega, .inl (by push_cast; rfl)⟩ .nil)
  · obtain ⟨params, b1, hb⟩ := hγ
    have hmats : 0 < mats.length := (List.getElem?_eq_some_iff.1 b1).1
    refine ⟨0, 0, params, rfl, ⟨hmats, .inl rfl⟩, b1, ?_⟩
    rcases hc.material with ⟨rfl, h0, params', E, I, μ, c1, c2, c3⟩ | ⟨rfl, -, params', E, I, A, μ, c1, c2, c3, c4⟩
    · rw [b1, Option.some.injEq] at c1
      subst c1
      rcases hb with ⟨-, E', I', hb⟩ | ⟨h, -⟩
      · obtain ⟨rfl, rfl, rfl⟩ := beamUParams_unique c2 hb
        exact .inl ⟨rfl, h0, by simp, _, _, hb, c3⟩
      · simp at h
    · rw [b1, Option.some.injEq] at c1
      subst c1
      rcases hb with ⟨h, -⟩ | ⟨-, E', I', A', hb⟩
      · simp at h
      · obtain ⟨rfl, rfl, rfl, rfl⟩ := beamParams_unique c2 hb
        exact .inr ⟨rfl, by simp, _, _, _, hb, c3, c4⟩

/-- Coefficient `i` of the deflection of beam `e`. -/
noncomputable def lineCoeff (x : ℕ → ℝ) (U : ℕ → ℕ → ℝ) (i : Fin 4) (e : ℕ) : ℝ :=
  (hermite (x (e + 1) - x e) (U e 1) (U e 2) (U (e + 1) 1) (U (e + 1) 2)).coeff i

/-- Axial strain of beam `e`. -/
noncomputable def lineStrain (x : ℕ → ℝ) (U : ℕ → ℕ → ℝ) (e : ℕ) : ℝ := (U (e + 1) 0 - U e 0) / (x (e + 1) - x e)

theorem hermite_coeff (L v0 t0 v1 t1 : ℝ) : (hermite L v0 t0 v1 t1).coeff 0 = v0 ∧ (hermite L v0 t0 v1 t1).coeff 1 = t0 ∧
    (hermite L v0 t0 v1 t1).coeff 2 = (3 * (v1 - v0) - L * (2 * t0 + t1)) / L ^ 2 ∧
    (hermite L v0 t0 v1 t1).coeff 3 = (2 * (v0 - v1) + L * (t0 + t1)) / L ^ 3 := by
  unfold hermite
  refine ⟨?_, ?_, ?_, ?_⟩ <;> simp [Polynomial.coeff_X, Polynomial.coeff_C, Polynomial.coeff_X_pow]

theorem deflection_line (y : ℝ) {e : ℕ} (he : x e < x (e + 1)) :
    deflection e (e + 1) (ends' (x e) (x (e + 1)) y) (x (e + 1) - x e) U =
      hermite (x (e + 1) - x e) (U e 1) (U e 2) (U (e + 1) 1) (U (e + 1) 2) := by
  have hne : x (e + 1) - x e ≠ 0 := by
    have := sub_pos.2 he
    exact this.ne'
  unfold deflection across endsOf ends'
  congr 1 <;> simp <;> field_simp

theorem extension_line (y : ℝ) {e : ℕ} (he : x e < x (e + 1)) :
    (extension e (e + 1) (ends' (x e) (x (e + 1)) y) (x (e + 1) - x e) U).coeff 0 = U e 0 ∧
    (extension e (e + 1) (ends' (x e) (x (e + 1)) y) (x (e + 1) - x e) U).coeff 1 = lineStrain x U e ∧
    (extension e (e + 1) (ends' (x e) (x (e + 1)) y) (x (e + 1) - x e) U).coeff 2 = 0 ∧
    (extension e (e + 1) (ends' (x e) (x (e + 1)) y) (x (e + 1) - x e) U).coeff 3 = 0 := by
  have hne : x (e + 1) - x e ≠ 0 := by
    have := sub_pos.2 he
    exact this.ne'
  unfold extension along endsOf ends' lineStrain
  refine ⟨?_, ?_, ?_, ?_⟩ <;> simp [Polynomial.coeff_X, Polynomial.coeff_C] <;> field_simp

/-- The energies of a field in the springs and masses of the cantilever. -/
theorem Spec.Cantilever.energies (hs : SqrtFn sq) (hc : Cantilever cons mats nodes elements ty n x EI EA) (hγ : LineMass mats ty γ)
    (hk : List.Forall₂ (IsMember (Routine sq) mats nodes) elements ks) (hm : List.Forall₂ (IsMember (MassRoutine sq) mats nodes) elements ms)
    (U : ℕ → ℕ → ℝ) :
    energyOf 3 ks U = EI * bendSum (fun e => x (e + 1) - x e) (lineCoeff x U) n +
      EA * ∑ e ∈ Finset.range n, lineStrain x U e * lineStrain x U e * (x (e + 1) - x e) ∧
    energyOf 3 ms U = γ * (∑ e ∈ Finset.range n, ∫ s in (0 : ℝ)..(x (e + 1) - x e),
      (lineCoeff x U 0 e + lineCoeff x U 1 e * s + lineCoeff x U 2 e * s ^ 2 + lineCoeff x U 3 e * s ^ 3) ^ 2) +
      (if ty = 7 then 0 else γ) * ∑ e ∈ Finset.range n, (U e 0 * U e 0 * (x (e + 1) - x e) +
        (U e 0 * lineStrain x U e + lineStrain x U e * U e 0) * ((x (e + 1) - x e) ^ 2 / 2) +
        lineStrain x U e * lineStrain x U e * ((x (e + 1) - x e) ^ 3 / 3)) := by
  obtain ⟨y, hb⟩ := hc.isBeam hγ
  have sumEq : ∀ (l : List (Member ℝ)) (hl : l.length = n) (g : ℕ → ℝ),
      (∀ e (he : e < n), (l[e]'(by omega)).form 3 U U = g e) → energyOf 3 l U = ∑ e ∈ Finset.range n, g e := by
    intro l hl g hg
    unfold energyOf
    subst hl
    rw [Finset.sum_range, ← List.sum_ofFn]
    congr 1
    refine List.ext_getElem (by simp) fun i h1 h2 => ?_
    simp only [List.getElem_map, List.getElem_ofFn]
    exact hg i (by simpa using h1)
  constructor
  · rw [sumEq ks (by rw [← hk.length_eq, hc.number]) (fun e => EI * bendPiece (x (e + 1) - x e) (lineCoeff x U 2 e) (lineCoeff x U 3 e) +
      EA * (lineStrain x U e * lineStrain x U e * (x (e + 1) - x e))), Finset.sum_add_distrib, ← Finset.mul_sum, ← Finset.mul_sum]
    · rfl
    · intro e he
      have hr := hk.get (i := e) (by rw [hc.number]; exact he) (by rw [← hk.length_eq, hc.number]; exact he)
      rw [List.get_eq_getElem, List.get_eq_getElem] at hr
      rw [((hb e he).spring hs hr).2, deflection_line y (hc.order e he), (extension_line y (hc.order e he)).2.1]
      rfl
  · rw [sumEq ms (by rw [← hm.length_eq, hc.number]) (fun e => γ * (∫ s in (0 : ℝ)..(x (e + 1) - x e),
      (lineCoeff x U 0 e + lineCoeff x U 1 e * s + lineCoeff x U 2 e * s ^ 2 + lineCoeff x U 3 e * s ^ 3) ^ 2) +
      (if ty = 7 then 0 else γ) * (U e 0 * U e 0 * (x (e + 1) - x e) +
        (U e 0 * lineStrain x U e + lineStrain x U e * U e 0) * ((x (e + 1) - x e) ^ 2 / 2) +
        lineStrain x U e * lineStrain x U e * ((x (e + 1) - x e) ^ 3 / 3))), Finset.sum_add_distrib, ← Finset.mul_sum, ← Finset.mul_sum]
    intro e he
    have hr := hm.get (i := e) (by rw [hc.number]; exact he) (by rw [← hm.length_eq, hc.number]; exact he)
    rw [List.get_eq_getElem, List.get_eq_getElem] at hr
    obtain ⟨x0, x1, x2, x3⟩ := extension_line (U := U) y (hc.order e he)
    rw [((hb e he).mass hs hr).2, deflection_line y (hc.order e he), square_integral]
    congr 1
    unfold prodInt
    rw [x0, x1, x2, x3]
    ring

/-- The deflections of the beams form one clamped curve. -/
theorem Spec.Cantilever.pieces (hc : Cantilever cons mats nodes elements ty n x EI EA) (hU : Admissible cons 3 U) :
    Pieces n (fun e => x (e + 1) - x e) (lineCoeff x U) := by
  have z : ∀ j < 3, U 0 j = 0 := fun j hj => hU 0 j (by rw [hc.rows]; omega) hj (by
    rw [hc.free_iff]
    rintro ⟨h, -⟩
    omega)
  refine ⟨fun e he => sub_pos.2 (hc.order e he), ?_, ?_, fun e he => ?_, fun e he => ?_⟩
  · exact (hermite_coeff _ _ _ _ _).1.trans (z 1 (by omega))
  · exact (hermite_coeff _ _ _ _ _).2.1.trans (z 2 (by omega))
  · obtain ⟨h0, h1, h2, h3⟩ := hermite_coeff (x (e + 1) - x e) (U e 1) (U e 2) (U (e + 1) 1) (U (e + 1) 2)
    have hne : x (e + 1) - x e ≠ 0 := (sub_pos.2 (hc.order e he)).ne'
    have e0 : lineCoeff x U 0 (e + 1) = U (e + 1) 1 := (hermite_coeff _ _ _ _ _).1
    rw [e0, show lineCoeff x U 0 e = _ from h0, show lineCoeff x U 1 e = _ from h1, show lineCoeff x U 2 e = _ from h2,
      show lineCoeff x U 3 e = _ from h3]
    field_simp
    ring
  · obtain ⟨h0, h1, h2, h3⟩ := hermite_coeff (x (e + 1) - x e) (U e 1) (U e 2) (U (e + 1) 1) (U (e + 1) 2)
    have hne : x (e + 1) - x e ≠ 0 := (sub_pos.2 (hc.order e he)).ne'
    have e0 : lineCoeff x U 1 (e + 1) = U (e + 1) 2 := (hermite_coeff _ _ _ _ _).2.1
    rw [e0, show lineCoeff x U 1 e = _ from h1, show lineCoeff x U 2 e = _ from h2,
      show lineCoeff x U 3 e = _ from h3]
    field_simp
    ring

theorem Spec.Cantilever.heavy (hc : Cantilever cons mats nodes elements ty n x EI EA) (hγ : LineMass mats ty γ) (h0 : 0 < γ) :
    ∀ el ∈ elements, HeavyBeam mats nodes el := by
  obtain ⟨y, hb⟩ := hc.isBeam hγ
  intro el hel
  obtain ⟨e, he, rfl⟩ := List.mem_iff_getElem.1 hel
  exact ⟨_, _, _, _, _, _, _, _, hb e (by rw [← hc.number]; exact he), h0⟩

theorem Spec.Cantilever.exists_masses (hc : Cantilever cons mats nodes elements ty n x EI EA) (hs : SqrtFn sq) :
    ∃ ms, List.Forall₂ (IsMember (MassRoutine sq) mats nodes) elements ms := by
  obtain ⟨ks, hk⟩ := hc.exists_members hs
  obtain ⟨op, bc, neq, Kg, Mg, h1, h2⟩ := C117_assembled hc.frame hk true
  obtain ⟨ms, s⟩ := frame_mass_setup hc.frame h1 h2
  exact ⟨ms, s.mem⟩

/-- Numbering and assembly of a heavy cantilever give a frame as in C122. -/
theorem Spec.Cantilever.model (hc : Cantilever cons mats nodes elements ty n x EI EA) (hs : SqrtFn sq) (hγ : LineMass mats ty γ) (h0 : 0 < γ)
    {op bc : List (List ℤ)} {sparse : Bool} (h1 : dme cons elements 3 = .ok (op, bc, neq))
    (h2 : assembler (Uel.eleFun sq) elements mats nodes neq op sparse = .ok (Kg, Mg)) :
    ∃ ks ms, BeamModel sq cons mats nodes elements ks ms Kg Mg := by
  obtain ⟨ks, hk⟩ := hc.exists_members hs
  obtain ⟨ms, hm⟩ := hc.exists_masses hs
  exact ⟨ks, ms, hc.frame, hc.heavy hγ h0, hk, hm, op, bc, sparse, h1, h2⟩

/-- No admissible motion of the cantilever is without kinetic energy. -/
theorem Spec.Cantilever.laden (hc : Cantilever cons mats nodes elements ty n x EI EA) (hs : SqrtFn sq) (hγ : LineMass mats ty γ) (h0 : 0 < γ)
    (hm : List.Forall₂ (IsMember (MassRoutine sq) mats nodes) elements ms) : Laden cons 3 ms := by
  obtain ⟨y, hb⟩ := hc.isBeam hγ
  intro u hu hz p hp j hj
  by_cases hf : Free cons 3 p j
  · obtain ⟨p0, pn, -, h7⟩ := hc.free_iff.1 hf
    obtain ⟨e, rfl⟩ : ∃ e, p = e + 1 := ⟨p - 1, by omega⟩
    have he : e < n := by omega
    have hr := hm.get (i := e) (by rw [hc.number]; exact he) (by rw [← hm.length_eq, hc.number]; exact he)
    rw [List.get_eq_getElem, List.get_eq_getElem] at hr
    have hB := hb e he
    have hz := (sum_pos_zero fun m hm' => by
      obtain ⟨el, hel, hr⟩ := forall₂_mem hm hm'
      obtain ⟨a, b, X, L, EI, EA, γ, ν, hb, hγ⟩ := hc.heavy hγ h0 el hel
      exact beam_mass_nonneg hs hb hγ.le hr u).1 hz _ (List.getElem_mem (by rw [← hm.length_eq, hc.number]; exact he))
    rw [(hB.mass hs hr).2] at hz
    have hL := hB.length.1
    have n1 := prodInt_nonneg hL (deflection e (e + 1) (ends' (x e) (x (e + 1)) y) (x (e + 1) - x e) u)
    have n2 := prodInt_nonneg hL (extension e (e + 1) (ends' (x e) (x (e + 1)) y) (x (e + 1) - x e) u)
    have bends := deflection_bends (a := e) (b := e + 1) (X := ends' (x e) (x (e + 1)) y) hL.ne' u
    have stretches := extension_stretches (a := e) (b := e + 1) (X := ends' (x e) (x (e + 1)) y) hL.ne' u
    have q1 : 0 ≤ γ * prodInt (x (e + 1) - x e) (deflection e (e + 1) (ends' (x e) (x (e + 1)) y) (x (e + 1) - x e) u)
      (deflection e (e + 1) (ends' (x e) (x (e + 1)) y) (x (e + 1) - x e) u) := mul_nonneg h0.le n1
    have hν : (0 : ℝ) ≤ if ty = 7 then 0 else γ := by split <;> [exact le_rfl; exact h0.le]
    have q2 := mul_nonneg hν n2
    have z1 := prodInt_zero hL ((mul_eq_zero.1 (by linarith : γ * prodInt (x (e + 1) - x e)
      (deflection e (e + 1) (ends' (x e) (x (e + 1)) y) (x (e + 1) - x e) u)
      (deflection e (e + 1) (ends' (x e) (x (e + 1)) y) (x (e + 1) - x e) u) = 0)).resolve_left h0.ne') bends.cubic
    rcases (by omega : j = 0 ∨ 0 < j) with rfl | hj0
    · rw [if_neg (h7 rfl)] at hz q2
      have z2 := prodInt_zero hL ((mul_eq_zero.1 (by linarith : γ * prodInt (x (e + 1) - x e)
        (extension e (e + 1) (ends' (x e) (x (e + 1)) y) (x (e + 1) - x e) u)
        (extension e (e + 1) (ends' (x e) (x (e + 1)) y) (x (e + 1) - x e) u) = 0)).resolve_left h0.ne')
        (stretches.linear.trans (by norm_num))
      exact (still_ends hB.length z1 z2 0 hj).2
    · rw [deflection_line y (hc.order e he)] at z1
      obtain ⟨-, -, -, g1, g2⟩ := hermite_spec hL.ne' (u e 1) (u e 2) (u (e + 1) 1) (u (e + 1) 2)
      rw [z1] at g1 g2
      simp at g1 g2
      rcases (by omega : j = 1 ∨ j = 2) with rfl | rfl
      · exact g1.symm
      · exact g2.symm
  · exact hu p j hp hj hf

/-- C123.  A heavy cantilever of any division has real modes. -/
theorem C123_modes (hc : Cantilever cons mats nodes elements ty n x EI EA) (hs : SqrtFn sq) (hγ : LineMass mats ty γ) (h0 : 0 < γ)
    {op bc : List (List ℤ)} {sparse : Bool} (h1 : dme cons elements 3 = .ok (op, bc, neq))
    (h2 : assembler (Uel.eleFun sq) elements mats nodes neq op sparse = .ok (Kg, Mg)) :
    ∃ w φ, Modes Kg Mg w φ ∧ ∀ t, (∃ v, v ≠ 0 ∧ Kg.mulVec v = t • Mg.mulVec v) ↔ ∃ k, w k = t := by
  obtain ⟨ks, ms, hB⟩ := hc.model hs hγ h0 h1 h2
  obtain ⟨w, φ, hm, -, hi⟩ := C122_modes hs hB (hc.laden hs hγ h0 hB.masses)
  exact ⟨w, φ, hm, hi⟩

theorem mode_ge {fn fn' : ℤ → Uel ℝ → Prop} {bc : List (List ℤ)} {nd : ℕ} {t : ℝ} (s : Setup fn cons elements mats nodes nd neq bc Kg ks)
    (s' : Setup fn' cons elements mats nodes nd neq bc Mg ms) (hm : Modes Kg Mg w φ)
    (H : ∀ u, Admissible cons nd u → t * energyOf nd ms u ≤ energyOf nd ks u) (k : Fin neq) : t ≤ w k := by
  obtain ⟨V, hV⟩ := exists_completes (cons := cons) bc nd (φ k)
  have h1 := H V (completes_admissible s.eq s.valid hV)
  unfold energyOf at h1
  rw [← reduced_form s hV hV, ← reduced_form s' hV hV] at h1
  have e1 := Modes.quotient hm k
  have e2 := hm.normal k k
  rw [if_pos rfl] at e2
  unfold dotProduct at e1 e2
  rwa [e1, e2, mul_one] at h1

theorem line_length (n : ℕ) (x : ℕ → ℝ) : ∑ e ∈ Finset.range n, (x (e + 1) - x e) = x n - x 0 := Finset.sum_range_sub x n

/-- C123.  Lower bounds for all squared frequencies of the cantilever: `t` is one if `t γ L⁴ ≤ 12 EI` and, for the beam with axial
deformation, also `t γ L² ≤ 2 EA`. -/
theorem C123_lower (hc : Cantilever cons mats nodes elements ty n x EI EA) (hs : SqrtFn sq) (hγ : LineMass mats ty γ) (h0 : 0 < γ)
    {op bc : List (List ℤ)} {sparse : Bool} (h1 : dme cons elements 3 = .ok (op, bc, neq))
    (h2 : assembler (Uel.eleFun sq) elements mats nodes neq op sparse = .ok (Kg, Mg)) (hm : Modes Kg Mg w φ) {t : ℝ}
    (hb : t * γ * (x n - x 0) ^ 4 ≤ 12 * EI) (ha : ty = 8 → t * γ * (x n - x 0) ^ 2 ≤ 2 * EA) (k : Fin neq) : t ≤ w k := by
  obtain ⟨ks, ms, hB⟩ := hc.model hs hγ h0 h1 h2
  obtain ⟨bc, s, s'⟩ := hB.setups
  refine mode_ge s s' hm (fun u hu => ?_) k
  obtain ⟨e1, e2⟩ := hc.energies hs hγ hB.springs hB.masses u
  have hp := hc.pieces hu
  have hpos := bendSum_nonneg hp le_rfl
  have hmass := pieces_mass hp
  rw [line_length] at hmass
  have hstrain : 0 ≤ ∑ e ∈ Finset.range n, lineStrain x u e * lineStrain x u e * (x (e + 1) - x e) :=
    Finset.sum_nonneg fun e he => mul_nonneg (mul_self_nonneg _) (sub_pos.2 (hc.order e (Finset.mem_range.1 he))).le
  have hax := linear_mass (n := n) (h := fun e => x (e + 1) - x e) (a := fun e => u e 0) (g := lineStrain x u)
    (fun e he => sub_pos.2 (hc.order e he)) (hu 0 0 (by rw [hc.rows]; omega) (by omega) (by
      rw [hc.free_iff]
      rintro ⟨h, -⟩
      omega)) (fun e he => by
      have hne : x (e + 1) - x e ≠ 0 := (sub_pos.2 (hc.order e he)).ne'
      unfold lineStrain
      field_simp
      ring)
  rw [line_length] at hax
  by_cases ht : t < 0
  · have hn : 0 ≤ energyOf 3 ms u := List.sum_nonneg fun y hy => by
      obtain ⟨m, hm, rfl⟩ := List.mem_map.1 hy
      exact hB.mass_nonneg hs hm u
    have hEA : 0 ≤ EA := by rcases hc.material with ⟨-, h, -⟩ | ⟨-, h, -⟩ <;> [exact h.ge; exact h.le]
    have := hc.stiff
    have q : 0 ≤ energyOf 3 ks u := by
      rw [e1]
      positivity
    nlinarith
  · push Not at ht
    rw [e1, e2]
    generalize (∑ e ∈ Finset.range n, ∫ s in (0 : ℝ)..(x (e + 1) - x e),
      (lineCoeff x u 0 e + lineCoeff x u 1 e * s + lineCoeff x u 2 e * s ^ 2 + lineCoeff x u 3 e * s ^ 3) ^ 2) = M at *
    generalize bendSum (fun e => x (e + 1) - x e) (lineCoeff x u) n = B at *
    generalize ∑ e ∈ Finset.range n, lineStrain x u e * lineStrain x u e * (x (e + 1) - x e) = G at *
    generalize (∑ e ∈ Finset.range n, (u e 0 * u e 0 * (x (e + 1) - x e) +
        (u e 0 * lineStrain x u e + lineStrain x u e * u e 0) * ((x (e + 1) - x e) ^ 2 / 2) +
        lineStrain x u e * lineStrain x u e * ((x (e + 1) - x e) ^ 3 / 3))) = N at *
    have c1 : t * (γ * M) ≤ EI * B := by
      calc t * (γ * M) ≤ t * (γ * (B / 12 * (x n - x 0) ^ 4)) := by gcongr
        _ = B / 12 * (t * γ * (x n - x 0) ^ 4) := by ring
        _ ≤ B / 12 * (12 * EI) := by gcongr
        _ = EI * B := by ring
    rcases hc.material with ⟨rfl, rfl, -⟩ | ⟨rfl, -, -⟩
    · rw [if_pos rfl]
      linarith
    · rw [if_neg (by norm_num)]
      have c2 : t * (γ * N) ≤ EA * G := by
        calc t * (γ * N) ≤ t * (γ * (G / 2 * (x n - x 0) ^ 2)) := by gcongr
          _ = G / 2 * (t * γ * (x n - x 0) ^ 2) := by ring
          _ ≤ G / 2 * (2 * EA) := by
            have := ha rfl
            gcongr
          _ = EA * G := by ring
      linarith

/-- The curve of a load spread uniformly would be close to this one. -/
noncomputable def trial (x : ℕ → ℝ) (n : ℕ) (p j : ℕ) : ℝ :=
  if j = 1 then 3 * (x n - x 0) * (x p - x 0) ^ 2 - (x p - x 0) ^ 3
  else if j = 2 then 6 * (x n - x 0) * (x p - x 0) - 3 * (x p - x 0) ^ 2 else 0

/-- C123.  Upper bound for the first squared frequency of the cantilever. -/
theorem C123_upper (hc : Cantilever cons mats nodes elements ty n x EI EA) (hs : SqrtFn sq) (hγ : LineMass mats ty γ) (h0 : 0 < γ)
    {op bc : List (List ℤ)} {sparse : Bool} (h1 : dme cons elements 3 = .ok (op, bc, neq))
    (h2 : assembler (Uel.eleFun sq) elements mats nodes neq op sparse = .ok (Kg, Mg)) (hm : Modes Kg Mg w φ) (k : Fin neq)
    (hk : (k : ℕ) = 0) : w k ≤ 140 * EI / (11 * γ * (x n - x 0) ^ 4) := by
  obtain ⟨ks, ms, hB⟩ := hc.model hs hγ h0 h1 h2
  have hn : 0 < n := by
    rcases Nat.eq_zero_or_pos n with rfl | h
    · obtain ⟨bc, s, s'⟩ := hB.setups
      obtain ⟨p, j, hf, -⟩ := exists_free s.eq k.2
      have := hc.free_iff.1 hf
      omega
    · exact h
  have hL : 0 < x n - x 0 := by
    have := hc.order 0 hn
    have := hc.mono (p := 0 + 1) (q := n) (by omega) le_rfl
    linarith
  rw [C122_minmax hs hB hm, hk, Nat.zero_add]
  refine ⟨fun _ => trial x n, fun _ p j hp hj hf => ?_, fun c hz => ?_, fun c => ?_⟩
  · rw [hc.free_iff] at hf
    rw [hc.rows] at hp
    dsimp only
    unfold trial
    rcases (by omega : p = 0 ∨ 0 < p) with rfl | hp0
    · split_ifs <;> simp
    · have hj0 : j = 0 := by
        by_contra hj0
        exact hf ⟨hp0, by omega, hj, fun h => absurd h hj0⟩
      rw [hj0]
      simp
  · have := hz n (by rw [hc.rows]; omega) 2 (by omega)
    rw [Fin.sum_univ_one] at this
    dsimp only at this
    unfold trial at this
    rw [if_neg (by omega), if_pos rfl] at this
    have hne : 6 * (x n - x 0) * (x n - x 0) - 3 * (x n - x 0) ^ 2 ≠ 0 := by
      have : 6 * (x n - x 0) * (x n - x 0) - 3 * (x n - x 0) ^ 2 = 3 * (x n - x 0) ^ 2 := by ring
      rw [this]
      positivity
    funext i
    rw [Subsingleton.elim i 0]
    exact (mul_eq_zero.1 this).resolve_right hne
  · simp only [Fin.sum_univ_one]
    obtain ⟨e1, e2⟩ := hc.energies hs hγ hB.springs hB.masses (fun p j => c 0 * trial x n p j)
    have hstrain : ∀ e, lineStrain x (fun p j => c 0 * trial x n p j) e = 0 := fun e => by
      unfold lineStrain trial
      simp
    have hzero : ∀ e, c 0 * trial x n e 0 = 0 := fun e => by
      unfold trial
      simp
    have hco : ∀ e < n, lineCoeff x (fun p j => c 0 * trial x n p j) 0 e = c 0 * (3 * (x n - x 0) * (x e - x 0) ^ 2 - (x e - x 0) ^ 3) ∧
        lineCoeff x (fun p j => c 0 * trial x n p j) 1 e = c 0 * (6 * (x n - x 0) * (x e - x 0) - 3 * (x e - x 0) ^ 2) ∧
        lineCoeff x (fun p j => c 0 * trial x n p j) 2 e = c 0 * (3 * (x n - x e)) ∧
        lineCoeff x (fun p j => c 0 * trial x n p j) 3 e = -c 0 := by
      intro e he
      have hne : x (e + 1) - x e ≠ 0 := (sub_pos.2 (hc.order e he)).ne'
      obtain ⟨g0, g1, g2, g3⟩ := hermite_coeff (x (e + 1) - x e) (c 0 * trial x n e 1) (c 0 * trial x n e 2) (c 0 * trial x n (e + 1) 1)
        (c 0 * trial x n (e + 1) 2)
      refine ⟨g0.trans (by simp [trial]), g1.trans (by simp [trial]), g2.trans ?_, g3.trans ?_⟩
      · simp only [trial, if_true, if_neg (show ¬ (2 : ℕ) = 1 by omega)]
        field_simp
        ring
      · simp only [trial, if_true, if_neg (show ¬ (2 : ℕ) = 1 by omega)]
        field_simp
        ring
    have hbend : bendSum (fun e => x (e + 1) - x e) (lineCoeff x (fun p j => c 0 * trial x n p j)) n = c 0 ^ 2 * (12 * (x n - x 0) ^ 3) := by
      have : ∀ e ∈ Finset.range n, bendPiece (x (e + 1) - x e) (lineCoeff x (fun p j => c 0 * trial x n p j) 2 e)
          (lineCoeff x (fun p j => c 0 * trial x n p j) 3 e) =
          -(12 * c 0 ^ 2 * (x n - x (e + 1)) ^ 3) - -(12 * c 0 ^ 2 * (x n - x e) ^ 3) := by
        intro e he
        obtain ⟨-, -, g2, g3⟩ := hco e (Finset.mem_range.1 he)
        rw [g2, g3]
        unfold bendPiece
        ring
      rw [bendSum, Finset.sum_congr rfl this, Finset.sum_range_sub (fun e => -(12 * c 0 ^ 2 * (x n - x e) ^ 3))]
      ring
    have hmass : ∑ e ∈ Finset.range n, ∫ s in (0 : ℝ)..(x (e + 1) - x e), (lineCoeff x (fun p j => c 0 * trial x n p j) 0 e +
        lineCoeff x (fun p j => c 0 * trial x n p j) 1 e * s + lineCoeff x (fun p j => c 0 * trial x n p j) 2 e * s ^ 2 +
        lineCoeff x (fun p j => c 0 * trial x n p j) 3 e * s ^ 3) ^ 2 = c 0 ^ 2 * (33 / 35 * (x n - x 0) ^ 7) := by
      have : ∀ e ∈ Finset.range n, ∫ s in (0 : ℝ)..(x (e + 1) - x e), (lineCoeff x (fun p j => c 0 * trial x n p j) 0 e +
          lineCoeff x (fun p j => c 0 * trial x n p j) 1 e * s + lineCoeff x (fun p j => c 0 * trial x n p j) 2 e * s ^ 2 +
          lineCoeff x (fun p j => c 0 * trial x n p j) 3 e * s ^ 3) ^ 2 =
          c 0 ^ 2 * (9 / 5 * (x n - x 0) ^ 2 * (x (e + 1) - x 0) ^ 5 - (x n - x 0) * (x (e + 1) - x 0) ^ 6 + (x (e + 1) - x 0) ^ 7 / 7) -
          c 0 ^ 2 * (9 / 5 * (x n - x 0) ^ 2 * (x e - x 0) ^ 5 - (x n - x 0) * (x e - x 0) ^ 6 + (x e - x 0) ^ 7 / 7) := by
        intro e he
        obtain ⟨g0, g1, g2, g3⟩ := hco e (Finset.mem_range.1 he)
        rw [square_integral, g0, g1, g2, g3]
        ring
      rw [Finset.sum_congr rfl this, Finset.sum_range_sub (fun e => c 0 ^ 2 * (9 / 5 * (x n - x 0) ^ 2 * (x e - x 0) ^ 5 -
        (x n - x 0) * (x e - x 0) ^ 6 + (x e - x 0) ^ 7 / 7))]
      ring
    rw [e1, e2, hbend, hmass]
    simp only [hstrain, hzero]
    apply le_of_eq
    simp
    field_simp
    ring

end
/-- The cantilever of `/repo/tests/test_integration.py:155-181`, of length `π`, divided into `n` beams. -/
noncomputable def testEigs (n : ℕ) : Table ℝ × List (List ℤ) × Table ℝ × Table ℝ :=
  ((List.range (n + 1)).map fun p : ℕ => if p = 0 then [(-1 : ℝ), -1, -1] else [-1, 0, 0],
    (List.range n).map fun e : ℕ => [(e : ℤ), 7, 0, e, e + 1],
    [[(1 : ℝ), 1, 1, 1]],
    (List.range (n + 1)).map fun p : ℕ => [(p : ℝ), p * (Real.pi / n), 0])

theorem testEigs_cantilever {n : ℕ} (hn : 0 < n) :
    Cantilever (testEigs n).1 (testEigs n).2.2.1 (testEigs n).2.2.2 (testEigs n).2.1 7 n (fun p => p * (Real.pi / n)) 1 0 where
  count := by simp [testEigs]
  place := by
    refine ⟨0, fun p hp => ⟨p, ?_⟩⟩
    unfold testEigs
    dsimp only
    rw [List.getElem?_map, List.getElem?_range (show p < n + 1 by omega), Option.map_some]
  order := by
    intro p _
    push_cast
    have : 0 < Real.pi / n := div_pos Real.pi_pos (by exact_mod_cast hn)
    nlinarith
  number := by simp [testEigs]
  beam := by
    intro e he
    refine ⟨e, ?_⟩
    unfold testEigs
    dsimp only
    rw [List.getElem?_map, List.getElem?_range he, Option.map_some]
  material := Or.inl ⟨rfl, rfl, [1, 1, 1, 1], 1, 1, 1, rfl, Or.inr ⟨1, 1, rfl, by norm_num⟩, by norm_num⟩
  stiff := by norm_num
  rows := by simp [testEigs]
  clamped := by simp [testEigs]
  others := by
    intro p h0 h1
    have : ¬ p = 0 := by omega
    simp [testEigs, List.getElem?_range (show p < n + 1 by omega), this]

theorem testEigs_mass (n : ℕ) : LineMass (testEigs n).2.2.1 7 1 :=
  ⟨_, rfl, .inl ⟨rfl, 1, 1, .inr ⟨1, 1, rfl, by norm_num⟩⟩⟩

/-- The first assertion of `test_eigs_beam`, for every division: the fourth root of the first eigenvalue is within one percent of the
analytic value. -/
theorem testEigs_first {n : ℕ} (hn : 0 < n) (sparse : Bool) : ∃ op bc, ∃ neq : ℕ, ∃ Kg Mg, ∃ w : Fin neq → ℝ, ∃ φ,
    dme (testEigs n).1 (testEigs n).2.1 3 = .ok (op, bc, neq) ∧
    assembler (Uel.eleFun Real.sqrt) (testEigs n).2.1 (testEigs n).2.2.1 (testEigs n).2.2.2 neq op sparse = .ok (Kg, Mg) ∧
    Modes Kg Mg w φ ∧ ∃ k : Fin neq, (k : ℕ) = 0 ∧ |w k ^ (0.25 : ℝ) - 0.596864162694467| ≤ 0.01 * 0.596864162694467 := by
  have hc := testEigs_cantilever hn
  obtain ⟨ks, hk⟩ := hc.exists_members sqrtFn_real
  obtain ⟨op, bc, neq, Kg, Mg, h1, h2⟩ := C117_assembled hc.frame hk sparse
  obtain ⟨w, φ, hm, -⟩ := C123_modes hc sqrtFn_real (testEigs_mass n) one_pos h1 h2
  have hneq : 0 < neq := by
    have hf : Free (testEigs n).1 3 1 1 := hc.free_iff.2 ⟨by omega, hn, by omega, by omega⟩
    obtain ⟨bc', s, -⟩ := (hc.model sqrtFn_real (testEigs_mass n) one_pos h1 h2).choose_spec.choose_spec.setups
    rcases free_or_fixed s.eq s.valid (free_lt hf) hf.1 with ⟨_, i, -⟩ | ⟨h, -⟩
    · exact lt_of_le_of_lt (Nat.zero_le _) i.2
    · exact absurd hf h
  refine ⟨op, bc, neq, Kg, Mg, w, φ, h1, h2, hm, ⟨0, hneq⟩, rfl, ?_⟩
  have hL : ((n : ℕ) : ℝ) * (Real.pi / n) - ((0 : ℕ) : ℝ) * (Real.pi / n) = Real.pi := by
    have : (n : ℝ) ≠ 0 := by exact_mod_cast hn.ne'
    field_simp
    simp
  have lo := Real.pi_gt_d4
  have hi := Real.pi_lt_d4
  have p4 : (3.1415 : ℝ) ^ 4 ≤ Real.pi ^ 4 := pow_le_pow_left₀ (by norm_num) lo.le 4
  have p4' : Real.pi ^ 4 ≤ (3.1416 : ℝ) ^ 4 := pow_le_pow_left₀ Real.pi_pos.le hi.le 4
  have a1 := C123_lower hc sqrtFn_real (testEigs_mass n) one_pos h1 h2 hm (t := 0.5909 ^ 4) (by
    rw [hL]
    nlinarith) (by norm_num) ⟨0, hneq⟩
  have a2 := C123_upper hc sqrtFn_real (testEigs_mass n) one_pos h1 h2 hm ⟨0, hneq⟩ rfl
  rw [hL] at a2
  have a3 : w ⟨0, hneq⟩ ≤ 0.6028 ^ 4 := by
    refine a2.trans ?_
    rw [div_le_iff₀ (by positivity)]
    nlinarith
  have root : ∀ r : ℝ, 0 ≤ r → (r ^ 4) ^ (0.25 : ℝ) = r := by
    intro r hr
    have := Real.pow_rpow_inv_natCast hr (n := 4) (by norm_num)
    rw [show (0.25 : ℝ) = ((4 : ℕ) : ℝ)⁻¹ by norm_num]
    exact this
  have b1 := Real.rpow_le_rpow (z := 0.25) (by positivity) a1 (by norm_num)
  have b2 := Real.rpow_le_rpow (z := 0.25) (le_trans (by positivity) a1) a3 (by norm_num)
  rw [root _ (by norm_num)] at b1 b2
  rw [abs_le]
  constructor <;> norm_num at * <;> linarith

end SolidsPy
