import Verif.Model.Post
import Verif.Props.Springs

/-! # C79 - C81: principal values and plot scaling -/

set_option linter.unusedSectionVars false

namespace SolidsPy
open Spec Post

section
variable {K : Type} [Field K] [LinearOrder K] [IsStrictOrderedRing K] [FloorRing K]

/-- `v` is a unit eigenvector of the symmetric matrix `[[a, b], [b, d]]` for the value `l`. -/
def UnitEigen (a b d l : K) (v : K × K) : Prop :=
  a * v.1 + b * v.2 = l * v.1 ∧ b * v.1 + d * v.2 = l * v.2 ∧ v.1 ^ 2 + v.2 ^ 2 = 1

/-- Largest modulus of the entries. -/
def maxAbs (a b d : K) : K := max (max |a| |b|) |d|

theorem eigSwap_cases (e : Eig K) : |(eigSwap e).eig2| ≤ |(eigSwap e).eig1| ∧
    (eigSwap e = e ∨ eigSwap e = ⟨e.eig2, e.eig1, e.vec2, e.vec1⟩) := by
  unfold eigSwap
  split
  · rename_i h
    exact ⟨h.le, Or.inr rfl⟩
  · rename_i h
    exact ⟨not_lt.1 h, Or.inl rfl⟩

theorem mx_eq (a b d : K) : max (max |a| |b|) (max |b| |d|) = maxAbs a b d := by
  unfold maxAbs
  rw [max_assoc, max_assoc, ← max_assoc |b| |b|, max_self]

theorem maxAbs_nonneg (a b d : K) : 0 ≤ maxAbs a b d :=
  le_max_of_le_right (abs_nonneg d)

/-- Values of the general branch, before ordering. -/
theorem eigvals_general {sq : K → K} (hsq : SqrtFn sq) {a b d tol : K} (ht : 0 < tol) (h1 : tol ≤ maxAbs a b d)
    (h2 : tol * maxAbs a b d ≤ |b|) :
    ∃ s n : K, s * s = (a - d) ^ 2 + 4 * b ^ 2 ∧ n * n = ((a - d - s) / 2) ^ 2 + b ^ 2 ∧ n ≠ 0 ∧
      eigvals sq a b b d tol = eigSwap ⟨(a + d - s) / 2, (a + d + s) / 2,
        some (((a - d - s) / 2) / n, b / n), some (-(b / n), ((a - d - s) / 2) / n)⟩ := by
  have hm : 0 < maxAbs a b d := lt_of_lt_of_le ht h1
  have hb : b ≠ 0 := by
    intro hb
    rw [hb, abs_zero] at h2
    have := mul_pos ht hm
    exact absurd (lt_of_lt_of_le (hb ▸ this) h2) (lt_irrefl _)
  have hd : 0 ≤ (a + d) ^ 2 - 4 * (a * d - b ^ 2) := by
    have : (a + d) ^ 2 - 4 * (a * d - b ^ 2) = (a - d) ^ 2 + 4 * b ^ 2 := by ring
    rw [this]
    positivity
  obtain ⟨hs0, hs⟩ := hsq _ hd
  have e1 : (0.5 : K) * (a + d - sq ((a + d) ^ 2 - 4 * (a * d - b ^ 2))) =
      (a + d - sq ((a + d) ^ 2 - 4 * (a * d - b ^ 2))) / 2 := by rw [lit_half]; ring
  have e2 : (0.5 : K) * (a + d + sq ((a + d) ^ 2 - 4 * (a * d - b ^ 2))) =
      (a + d + sq ((a + d) ^ 2 - 4 * (a * d - b ^ 2))) / 2 := by rw [lit_half]; ring
  unfold eigvals
  dsimp only
  rw [mx_eq, if_neg (not_lt.2 h1), if_neg, e1, e2]
  · generalize sq ((a + d) ^ 2 - 4 * (a * d - b ^ 2)) = s at hs
    have ev : a - (a + d + s) / 2 = (a - d - s) / 2 := by ring
    rw [ev]
    have hn0 : 0 ≤ ((a - d - s) / 2) ^ 2 + b ^ 2 := by positivity
    obtain ⟨-, hn⟩ := hsq _ hn0
    have hnne : sq (((a - d - s) / 2) ^ 2 + b ^ 2) ≠ 0 := by
      intro h0
      rw [h0, mul_zero] at hn
      have h3 : 0 < b ^ 2 := by positivity
      have h4 : 0 ≤ ((a - d - s) / 2) ^ 2 := by positivity
      linarith
    rw [if_neg hnne]
    exact ⟨s, _, by rw [hs]; ring, hn, hnne, rfl⟩
  · rintro ⟨-, h3⟩
    rw [div_lt_iff₀ hm] at h3
    exact absurd h3 (not_lt.2 h2)

/-- C79.  Away from the null and diagonal shortcuts `eigvals` returns two unit eigenvectors, orthogonal, with
their values, the value of larger modulus first. -/
theorem C79_general {sq : K → K} (hsq : SqrtFn sq) {a b d tol : K} (ht : 0 < tol) (h1 : tol ≤ maxAbs a b d)
    (h2 : tol * maxAbs a b d ≤ |b|) :
    ∃ v w : K × K, (eigvals sq a b b d tol).vec1 = some v ∧ (eigvals sq a b b d tol).vec2 = some w ∧
      UnitEigen a b d (eigvals sq a b b d tol).eig1 v ∧ UnitEigen a b d (eigvals sq a b b d tol).eig2 w ∧
      v.1 * w.1 + v.2 * w.2 = 0 ∧
      |(eigvals sq a b b d tol).eig2| ≤ |(eigvals sq a b b d tol).eig1| := by
  obtain ⟨s, n, hs, hn, hn0, he⟩ := eigvals_general hsq ht h1 h2
  have u1 : UnitEigen a b d ((a + d - s) / 2) (((a - d - s) / 2) / n, b / n) := by
    refine ⟨?_, ?_, ?_⟩
    · field_simp
      linear_combination -hs
    · field_simp
      ring
    · dsimp only
      rw [div_pow _ n, div_pow _ n, ← add_div, ← hn, div_eq_one_iff_eq (by positivity)]
      ring
  have u2 : UnitEigen a b d ((a + d + s) / 2) (-(b / n), ((a - d - s) / 2) / n) := by
    refine ⟨?_, ?_, ?_⟩
    · field_simp
      ring
    · field_simp
      linear_combination hs
    · dsimp only
      rw [neg_sq, div_pow _ n, div_pow _ n, ← add_div, add_comm, ← hn, div_eq_one_iff_eq (by positivity)]
      ring
  rw [he]
  obtain ⟨hle, hc | hc⟩ := eigSwap_cases (K := K) ⟨(a + d - s) / 2, (a + d + s) / 2,
        some (((a - d - s) / 2) / n, b / n), some (-(b / n), ((a - d - s) / 2) / n)⟩
  · rw [hc] at hle ⊢
    exact ⟨_, _, rfl, rfl, u1, u2, by dsimp only; ring, hle⟩
  · rw [hc] at hle ⊢
    exact ⟨_, _, rfl, rfl, u2, u1, by dsimp only; ring, hle⟩

/-- C79.  Trace and determinant are those of the matrix. -/
theorem C79_invariants {sq : K → K} (hsq : SqrtFn sq) {a b d tol : K} (ht : 0 < tol) (h1 : tol ≤ maxAbs a b d)
    (h2 : tol * maxAbs a b d ≤ |b|) :
    (eigvals sq a b b d tol).eig1 + (eigvals sq a b b d tol).eig2 = a + d ∧
      (eigvals sq a b b d tol).eig1 * (eigvals sq a b b d tol).eig2 = a * d - b ^ 2 := by
  obtain ⟨s, n, hs, hn, hn0, he⟩ := eigvals_general hsq ht h1 h2
  rw [he]
  obtain ⟨-, hc | hc⟩ := eigSwap_cases (K := K) ⟨(a + d - s) / 2, (a + d + s) / 2,
        some (((a - d - s) / 2) / n, b / n), some (-(b / n), ((a - d - s) / 2) / n)⟩
  · rw [hc]
    exact ⟨by dsimp only; ring, by dsimp only; linear_combination -(1/4) * hs⟩
  · rw [hc]
    exact ⟨by dsimp only; ring, by dsimp only; linear_combination -(1/4) * hs⟩

/-- C79.  On the diagonal shortcut the vectors are the axes with the diagonal entries as values, larger modulus
first, and the residual `M v - l v` is below `tol * max |M|` in each component. -/
theorem C79_diagonal (sq : K → K) {a b d tol : K} (ht : 0 < tol) (h1 : tol ≤ maxAbs a b d)
    (h2 : |b| < tol * maxAbs a b d) :
    |(eigvals sq a b b d tol).eig2| ≤ |(eigvals sq a b b d tol).eig1| ∧
    (eigvals sq a b b d tol).eig1 + (eigvals sq a b b d tol).eig2 = a + d ∧
    ∃ v w : K × K, (eigvals sq a b b d tol).vec1 = some v ∧ (eigvals sq a b b d tol).vec2 = some w ∧
      v.1 ^ 2 + v.2 ^ 2 = 1 ∧ w.1 ^ 2 + w.2 ^ 2 = 1 ∧ v.1 * w.1 + v.2 * w.2 = 0 ∧
      ∀ p ∈ [((eigvals sq a b b d tol).eig1, v), ((eigvals sq a b b d tol).eig2, w)],
        |a * p.2.1 + b * p.2.2 - p.1 * p.2.1| < tol * maxAbs a b d ∧
        |b * p.2.1 + d * p.2.2 - p.1 * p.2.2| < tol * maxAbs a b d := by
  have hm : 0 < maxAbs a b d := lt_of_lt_of_le ht h1
  have he : eigvals sq a b b d tol = eigSwap ⟨a, d, some (1, 0), some (0, 1)⟩ := by
    unfold eigvals
    dsimp only
    rw [mx_eq, if_neg (not_lt.2 h1), if_pos ⟨hm.ne', (div_lt_iff₀ hm).2 h2⟩]
  have hp : 0 < tol * maxAbs a b d := mul_pos ht hm
  rw [he]
  obtain ⟨hle, hc | hc⟩ := eigSwap_cases (K := K) ⟨a, d, some (1, 0), some (0, 1)⟩
  · rw [hc] at hle ⊢
    exact ⟨hle, rfl, (1, 0), (0, 1), rfl, rfl, by simp, by simp, by simp, by simp [hp, h2]⟩
  · rw [hc] at hle ⊢
    exact ⟨hle, add_comm _ _, (0, 1), (1, 0), rfl, rfl, by simp, by simp, by simp, by simp [hp, h2]⟩

/-- C79.  A matrix with all entries below the tolerance gives zero values and zero vectors. -/
theorem C79_null (sq : K → K) {a b d tol : K} (h : maxAbs a b d < tol) :
    eigvals sq a b b d tol = ⟨0, 0, none, none⟩ := by
  unfold eigvals
  dsimp only
  rw [mx_eq, if_pos h]
  simp [eigSwap]

/-- The hypotheses of `C79_general` hold for `[[3, 2], [2, 0]]`, whose values are 4 and -1. -/
example : (1e-6 : ℝ) ≤ maxAbs 3 2 0 ∧ (1e-6 : ℝ) * maxAbs 3 2 0 ≤ |2| ∧
    (eigvals Real.sqrt 3 2 2 0 1e-6).eig1 = 4 ∧ (eigvals Real.sqrt 3 2 2 0 1e-6).eig2 = -1 := by
  have hm : maxAbs (3 : ℝ) 2 0 = 3 := by norm_num [maxAbs]
  have h1 : (1e-6 : ℝ) ≤ maxAbs 3 2 0 := by rw [hm]; norm_num
  have h2 : (1e-6 : ℝ) * maxAbs 3 2 0 ≤ |2| := by rw [hm]; norm_num
  refine ⟨h1, h2, ?_⟩
  obtain ⟨e1, e2⟩ := C79_invariants sqrtFn_real (by norm_num) h1 h2
  obtain ⟨-, -, -, -, -, -, -, hle⟩ := C79_general sqrtFn_real (by norm_num) h1 h2
  generalize (eigvals Real.sqrt 3 2 2 0 1e-6).eig1 = p at *
  generalize (eigvals Real.sqrt 3 2 2 0 1e-6).eig2 = q at *
  have hq : (q - 4) * (q + 1) = 0 := by
    have : p = 3 - q := by linarith
    rw [this] at e2
    linarith
  rcases mul_eq_zero.1 hq with h | h
  · have hq4 : q = 4 := by linarith
    have hp : p = -1 := by linarith
    rw [hq4, hp] at hle
    norm_num at hle
  · exact ⟨by linarith, by linarith⟩

/-! ## C80 -/

/-- The zero below the diagonal passed by `principal_dirs` does not matter. -/
theorem eigvals_lower (sq : K → K) (a b d tol : K) : eigvals sq a b 0 d tol = eigvals sq a b b d tol := by
  have : max (max |a| |b|) (max |(0 : K)| |d|) = max (max |a| |b|) (max |b| |d|) := by
    rw [mx_eq, abs_zero, max_eq_right (abs_nonneg d)]
    rfl
  unfold eigvals
  dsimp only
  rw [this]

/-- C80.  Row `k` of the result is the decomposition of the symmetric tensor in row `k` of the field, and depends
on nothing else. -/
theorem C80_rows {sq : K → K} {field : Table K} {out : List (Eig K)} (h : principalDirs sq field = .ok out) :
    out.length = field.length ∧ ∀ (k : ℕ) (row : List K), field[k]? = some row →
      ∃ xx yy xy, row[0]? = some xx ∧ row[1]? = some yy ∧ row[2]? = some xy ∧
        out[k]? = some (eigvals sq xx xy xy yy 1e-6) := by
  refine ⟨(mapM_length h).symm ▸ rfl, fun k row hk => ?_⟩
  obtain ⟨e, he, hr⟩ := mapM_getElem? h hk
  unfold principalRow at hr
  obtain ⟨t0, h0, hr⟩ := bind_ok.1 hr
  obtain ⟨t1, h1, hr⟩ := bind_ok.1 hr
  obtain ⟨t2, h2, hr⟩ := bind_ok.1 hr
  refine ⟨t0, t1, t2, pyGet_zero.1 h0, pyGet_one.1 h1, pyGet_two.1 h2, ?_⟩
  rw [he, ← pure_ok.1 hr, eigvals_lower]

/-- C80.  Every field with three components per row is accepted. -/
theorem C80_total (sq : K → K) {field : Table K} (h : ∀ row ∈ field, 3 ≤ row.length) :
    ∃ out, principalDirs sq field = .ok out := by
  apply mapM_exists.2
  intro row hr
  have h3 := h row hr
  unfold principalRow
  rw [pyGet_zero.2 (List.getElem?_eq_getElem (by omega)), ok_bind,
    pyGet_one.2 (List.getElem?_eq_getElem (by omega)), ok_bind,
    pyGet_two.2 (List.getElem?_eq_getElem (by omega)), ok_bind]
  exact ⟨_, rfl⟩

/-- C80.  Sum and product of the principal values are the trace and the determinant of the row. -/
theorem C80_invariants {sq : K → K} (hsq : SqrtFn sq) {field : Table K} {out : List (Eig K)}
    (h : principalDirs sq field = .ok out) {k : ℕ} {xx yy xy : K} {rest : List K}
    (hk : field[k]? = some (xx :: yy :: xy :: rest)) (h1 : 1e-6 ≤ maxAbs xx xy yy)
    (h2 : 1e-6 * maxAbs xx xy yy ≤ |xy|) :
    ∃ e, out[k]? = some e ∧ e.eig1 + e.eig2 = xx + yy ∧ e.eig1 * e.eig2 = xx * yy - xy ^ 2 := by
  obtain ⟨a, b, c, ha, hb, hc, ho⟩ := (C80_rows h).2 k _ hk
  simp only [List.getElem?_cons_zero, Option.some.injEq, List.getElem?_cons_succ] at ha hb hc
  subst ha hb hc
  exact ⟨_, ho, C79_invariants hsq (by norm_num) h1 h2⟩

/-- A field with a general row and a degenerate one. -/
example : ∃ out : List (Eig ℝ), principalDirs Real.sqrt [[3, 0, 2], [1, 1, 0]] = .ok out ∧ ∃ e, out[0]? = some e ∧
    e.eig1 + e.eig2 = (3 : ℝ) ∧ e.eig1 * e.eig2 = (-4 : ℝ) := by
  obtain ⟨out, h⟩ := C80_total Real.sqrt (field := [[3, 0, 2], [1, 1, 0]]) (by simp)
  have hm : maxAbs (3 : ℝ) 2 0 = 3 := by norm_num [maxAbs]
  obtain ⟨e, h1, h2, h3⟩ := C80_invariants sqrtFn_real h (k := 0) (xx := 3) (yy := 0) (xy := 2) (rest := []) rfl
    (by rw [hm]; norm_num) (by rw [hm]; norm_num)
  exact ⟨out, h, e, h1, by rw [h2]; norm_num, by rw [h3]; norm_num⟩

/-! ## C81 -/

theorem foldl_max_le {l : List K} {x y : K} : y ≤ l.foldl max x ↔ y ≤ x ∨ ∃ z ∈ l, y ≤ z := by
  induction l generalizing x with
  | nil => simp
  | cons a l ih => rw [List.foldl_cons, ih]; simp [or_assoc]

theorem foldl_min_le {l : List K} {x y : K} : l.foldl min x ≤ y ↔ x ≤ y ∨ ∃ z ∈ l, z ≤ y := by
  induction l generalizing x with
  | nil => simp
  | cons a l ih => rw [List.foldl_cons, ih]; simp [or_assoc]

theorem foldl_max_mem (l : List K) (x : K) : l.foldl max x ∈ x :: l := by
  induction l generalizing x with
  | nil => simp
  | cons a l ih =>
    rw [List.foldl_cons]
    have h := ih (max x a)
    rcases max_choice x a with hc | hc <;> rw [hc] at h ⊢ <;> simp only [List.mem_cons] at h ⊢ <;> tauto

theorem foldl_min_mem (l : List K) (x : K) : l.foldl min x ∈ x :: l := by
  induction l generalizing x with
  | nil => simp
  | cons a l ih =>
    rw [List.foldl_cons]
    have h := ih (min x a)
    rcases min_choice x a with hc | hc <;> rw [hc] at h ⊢ <;> simp only [List.mem_cons] at h ⊢ <;> tauto

theorem listMax_ok {l : List K} {m : K} (h : listMax l = .ok m) : m ∈ l ∧ ∀ x ∈ l, x ≤ m := by
  cases l with
  | nil => cases h
  | cons a l =>
    have := Except.ok.inj h
    subst this
    refine ⟨foldl_max_mem l a, fun x hx => foldl_max_le.2 ?_⟩
    rcases List.mem_cons.1 hx with rfl | hx
    · exact Or.inl le_rfl
    · exact Or.inr ⟨x, hx, le_rfl⟩

theorem listMin_ok {l : List K} {m : K} (h : listMin l = .ok m) : m ∈ l ∧ ∀ x ∈ l, m ≤ x := by
  cases l with
  | nil => cases h
  | cons a l =>
    have := Except.ok.inj h
    subst this
    refine ⟨foldl_min_mem l a, fun x hx => foldl_min_le.2 ?_⟩
    rcases List.mem_cons.1 hx with rfl | hx
    · exact Or.inl le_rfl
    · exact Or.inr ⟨x, hx, le_rfl⟩

theorem listMax_exists {l : List K} (h : l ≠ []) : ∃ m, listMax l = .ok m := by
  cases l with
  | nil => exact absurd rfl h
  | cons a l => exact ⟨_, rfl⟩

theorem listMin_exists {l : List K} (h : l ≠ []) : ∃ m, listMin l = .ok m := by
  cases l with
  | nil => exact absurd rfl h
  | cons a l => exact ⟨_, rfl⟩

/-- C81.  When two areas differ by more than `1e-6`, there is one width per area, in `[min_val, max_val]`,
increasing with the area, the smallest area at `min_val` and the largest at `max_val`. -/
theorem C81_widths {areas : List K} {maxVal minVal : K} (hv : minVal ≤ maxVal)
    (hd : ∃ a ∈ areas, ∃ b ∈ areas, 1e-6 < b - a) :
    ∃ w : K → K, trussWidths areas maxVal minVal = .ok (areas.map w) ∧
      (∀ a ∈ areas, minVal ≤ w a ∧ w a ≤ maxVal) ∧ (∀ a b, a ≤ b → w a ≤ w b) ∧
      (minVal < maxVal → ∀ a b, a < b → w a < w b) ∧ (∃ a ∈ areas, w a = minVal) ∧ ∃ a ∈ areas, w a = maxVal := by
  obtain ⟨a0, ha0, b0, hb0, hab⟩ := hd
  have hne : areas ≠ [] := List.ne_nil_of_mem ha0
  obtain ⟨mn, hmn⟩ := listMin_exists hne
  obtain ⟨mx, hmx⟩ := listMax_exists hne
  obtain ⟨n1, n2⟩ := listMin_ok hmn
  obtain ⟨x1, x2⟩ := listMax_ok hmx
  have hgt : 1e-6 < mx - mn := lt_of_lt_of_le hab (sub_le_sub (x2 _ hb0) (n2 _ ha0))
  have hpos : 0 < mx - mn := lt_trans (by norm_num) hgt
  refine ⟨fun a => (maxVal - minVal) * (a - mn) / (mx - mn) + minVal, ?_, ?_, ?_, ?_, ⟨mn, n1, ?_⟩, ⟨mx, x1, ?_⟩⟩
  · unfold trussWidths
    rw [hmn, ok_bind, hmx, ok_bind, if_pos hgt]
    rfl
  · intro a ha
    have h1 := n2 a ha
    have h2 := x2 a ha
    constructor
    · have : 0 ≤ (maxVal - minVal) * (a - mn) / (mx - mn) :=
        div_nonneg (mul_nonneg (sub_nonneg.2 hv) (sub_nonneg.2 h1)) hpos.le
      linarith
    · have : (maxVal - minVal) * (a - mn) / (mx - mn) ≤ maxVal - minVal := by
        rw [div_le_iff₀ hpos]
        exact mul_le_mul_of_nonneg_left (by linarith) (sub_nonneg.2 hv)
      linarith
  · intro a b h
    have : (maxVal - minVal) * (a - mn) / (mx - mn) ≤ (maxVal - minVal) * (b - mn) / (mx - mn) := by
      rw [div_le_div_iff_of_pos_right hpos]
      exact mul_le_mul_of_nonneg_left (by linarith) (sub_nonneg.2 hv)
    linarith
  · intro hlt a b h
    have : (maxVal - minVal) * (a - mn) / (mx - mn) < (maxVal - minVal) * (b - mn) / (mx - mn) := by
      rw [div_lt_div_iff_of_pos_right hpos]
      exact mul_lt_mul_of_pos_left (by linarith) (sub_pos.2 hlt)
    linarith
  · dsimp only
    rw [sub_self, mul_zero, zero_div, zero_add]
  · dsimp only
    rw [mul_div_assoc, div_self hpos.ne', mul_one, sub_add_cancel]

/-- C81.  When the areas are equal to within `1e-6` every width is 3, whatever the limits asked for. -/
theorem C81_equal_areas {areas : List K} (hne : areas ≠ []) (hd : ∀ a ∈ areas, ∀ b ∈ areas, b - a ≤ 1e-6)
    (maxVal minVal : K) : trussWidths areas maxVal minVal = .ok (areas.map fun _ => 3) := by
  obtain ⟨mn, hmn⟩ := listMin_exists hne
  obtain ⟨mx, hmx⟩ := listMax_exists hne
  unfold trussWidths
  rw [hmn, ok_bind, hmx, ok_bind, if_neg]
  · rw [mul_one]; rfl
  · exact not_lt.2 (hd _ (listMin_ok hmn).1 _ (listMax_ok hmx).1)

/-- C81.  When some stress is non-zero the scaled stresses lie in `[0, 1]`, increase with the stress and put zero
stress at `1/2`, and one of them reaches an end of the range. -/
theorem C81_stresses {s : List K} (hs : ∃ x ∈ s, x ≠ 0) (nels : ℕ) :
    ∃ f : K → K, scaledStress nels (some s) = .ok (s.map f) ∧ (∀ x ∈ s, 0 ≤ f x ∧ f x ≤ 1) ∧
      (∀ x y, x < y → f x < f y) ∧ f 0 = 1 / 2 ∧ ∃ x ∈ s, f x = 0 ∨ f x = 1 := by
  obtain ⟨z, hz, hz0⟩ := hs
  have hne : s ≠ [] := List.ne_nil_of_mem hz
  obtain ⟨mn, hmn⟩ := listMin_exists hne
  obtain ⟨mx, hmx⟩ := listMax_exists hne
  obtain ⟨n1, n2⟩ := listMin_ok hmn
  obtain ⟨x1, x2⟩ := listMax_ok hmx
  have hb : ∀ x ∈ s, -(max (-mn) mx) ≤ x ∧ x ≤ max (-mn) mx := by
    intro x hx
    have h1 := n2 x hx
    have h2 := x2 x hx
    have h3 := le_max_left (-mn) mx
    have h4 := le_max_right (-mn) mx
    constructor <;> linarith
  have hpos : 0 < max (-mn) mx := by
    obtain ⟨h1, h2⟩ := hb z hz
    rcases lt_or_gt_of_ne hz0 with h | h <;> linarith
  refine ⟨fun x => 0.5 * (x + max (-mn) mx) / max (-mn) mx, ?_, ?_, ?_, ?_, ?_⟩
  · unfold scaledStress
    dsimp only
    rw [hmn, ok_bind, hmx, ok_bind, mapM_ok, List.forall₂_map_right_iff, List.forall₂_same]
    intro x _
    unfold pyDiv
    rw [if_neg hpos.ne']
  · intro x hx
    obtain ⟨h1, h2⟩ := hb x hx
    dsimp only
    rw [lit_half]
    constructor
    · exact div_nonneg (mul_nonneg (by norm_num) (by linarith)) hpos.le
    · rw [div_le_one hpos]
      linarith
  · intro x y h
    dsimp only
    rw [lit_half, div_lt_div_iff_of_pos_right hpos]
    linarith
  · dsimp only
    rw [zero_add, mul_div_assoc, div_self hpos.ne', lit_half]
    norm_num
  · rcases max_choice (-mn) mx with hc | hc
    · refine ⟨mn, n1, Or.inl ?_⟩
      dsimp only
      rw [hc, add_neg_cancel, mul_zero, zero_div]
    · refine ⟨mx, x1, Or.inr ?_⟩
      dsimp only
      rw [hc, lit_half]
      rw [hc] at hpos
      field_simp
      ring

/-- C81.  When every stress is zero the scaling is the indeterminate `0/0`. -/
theorem C81_unstressed {s : List K} (hne : s ≠ []) (hs : ∀ x ∈ s, x = 0) (nels : ℕ) :
    ∀ out, scaledStress nels (some s) ≠ .ok out := by
  intro out h
  unfold scaledStress at h
  obtain ⟨mn, hmn, h⟩ := bind_ok.1 h
  obtain ⟨mx, hmx, h⟩ := bind_ok.1 h
  have e1 := hs _ (listMin_ok hmn).1
  have e2 := hs _ (listMax_ok hmx).1
  subst e1 e2
  obtain ⟨x, hx⟩ := List.exists_mem_of_ne_nil s hne
  obtain ⟨k, hk⟩ := List.getElem?_of_mem hx
  obtain ⟨y, -, hy⟩ := mapM_getElem? h hk
  simp [pyDiv] at hy

example : trussWidths [1, 2, 5] (4 : ℚ) (1/2) = .ok [1/2, 11/8, 4] ∧
    trussWidths [2, 2] (2 : ℚ) 1 = .ok [3, 3] ∧
    scaledStress 3 (some [(-4 : ℚ), 0, 2]) = .ok [0, 1/2, 3/4] := by decide +kernel

end
end SolidsPy
