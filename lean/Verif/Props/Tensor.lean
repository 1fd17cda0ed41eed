import Verif.Props.Gauss
import Mathlib.MeasureTheory.Integral.Pi

/-! # C61, C62: tensor product rules -/

namespace SolidsPy
open Spec Gauss MeasureTheory

/-! ## C61 -/

theorem prodRepeat_length {α : Type} (l : List α) (d : ℕ) : (prodRepeat l d).length = l.length ^ d := by
  induction d with
  | zero => rfl
  | succ d ih =>
    simp only [prodRepeat, List.length_flatMap, List.length_map, ih, List.map_const', List.sum_replicate,
      smul_eq_mul, pow_succ]
    ring

theorem flatMap_getElem? {α β : Type} (l : List α) (L : List β) (g : α → β → List α) {a b : ℕ}
    (hb : b < L.length) {x : α} (hx : l[a]? = some x) :
    (l.flatMap fun x => L.map (g x))[a * L.length + b]? = (L[b]?).map (g x) := by
  induction l generalizing a with
  | nil => simp at hx
  | cons y l ih =>
    rw [List.flatMap_cons]
    cases a with
    | zero =>
      simp only [List.getElem?_cons_zero, Option.some.injEq] at hx
      subst hx
      rw [List.getElem?_append_left (by simpa using hb)]
      simp
    | succ a =>
      rw [List.getElem?_append_right (by simp; nlinarith)]
      rw [← ih (a := a) (by simpa using hx)]
      congr 1
      simp
      rw [Nat.succ_mul]
      omega

/-- The tuples of `itertools.product` in lexicographic order: position `j` of tuple `i` is digit `j` of
`i` in base `n`, the first digit being the most significant. -/
theorem prodRepeat_digits {α : Type} (l : List α) (d i : ℕ) (hi : i < l.length ^ d) :
    ∃ t, (prodRepeat l d)[i]? = some t ∧ t.length = d ∧
      ∀ j < d, t[j]? = l[i / l.length ^ (d - 1 - j) % l.length]? := by
  induction d generalizing i with
  | zero =>
    obtain rfl : i = 0 := by simpa using hi
    exact ⟨[], rfl, rfl, by simp⟩
  | succ d ih =>
    have hpos : 0 < l.length ^ d := by
      rcases Nat.eq_zero_or_pos (l.length ^ d) with h | h
      · rw [pow_succ, h] at hi
        omega
      · exact h
    have h1 : i / l.length ^ d < l.length := by
      rw [Nat.div_lt_iff_lt_mul hpos, ← pow_succ']
      exact hi
    obtain ⟨t, ht, hl, hd⟩ := ih (i % l.length ^ d) (Nat.mod_lt _ hpos)
    refine ⟨l[i / l.length ^ d] :: t, ?_, by simp [hl], ?_⟩
    · have h2 := flatMap_getElem? l (prodRepeat l d) (fun x t => x :: t) (a := i / l.length ^ d)
        (b := i % l.length ^ d) (by rw [prodRepeat_length]; exact Nat.mod_lt _ hpos)
        (List.getElem?_eq_getElem h1)
      rw [prodRepeat_length, Nat.div_add_mod', ht] at h2
      exact h2
    · intro j hj
      cases j with
      | zero => simp [Nat.mod_eq_of_lt h1]
      | succ j =>
        rw [List.getElem?_cons_succ, hd j (by omega)]
        congr 1
        have h3 : d + 1 - 1 - (j + 1) = d - 1 - j := by omega
        rw [h3]
        have h4 : l.length ^ d = l.length ^ (d - 1 - j) * l.length ^ (j + 1) := by
          rw [← pow_add]
          congr 1
          omega
        rw [h4, Nat.mod_mul_right_div_self, pow_succ', Nat.mod_mul_right_mod]

/-- C61.  In `d` dimensions there are `n ^ d` points and weights; point `i` has as coordinate `j` the 1D point
whose number is digit `j` of `i` in base `n` (first digit most significant), and its weight is the product
of the corresponding 1D weights. -/
theorem C61_points {n : ℕ} {p w : List ℚ} (h : gauss1d n = .ok (p, w)) (d : ℕ) :
    ∃ P W, gaussNd n d = .ok (P, W) ∧ P.length = n ^ d ∧ W.length = n ^ d ∧
      ∀ i < n ^ d, ∃ pt, P[i]? = some pt ∧ pt.length = d ∧
        (∀ j < d, pt[j]? = p[i / n ^ (d - 1 - j) % n]?) ∧
        W[i]? = some (∏ j ∈ Finset.range d, w.getD (i / n ^ (d - 1 - j) % n) 0) := by
  obtain ⟨h2, h10⟩ := C59_only_two_to_ten n h
  obtain ⟨p', w', h', hp, hw, -⟩ := C59_tables n h2 h10
  rw [h, Except.ok.injEq, Prod.mk.injEq] at h'
  obtain ⟨rfl, rfl⟩ := h'
  have hp : p.length = n := by exact_mod_cast hp
  have hw : w.length = n := by exact_mod_cast hw
  refine ⟨prodRepeat p d, (prodRepeat w d).map List.prod, ?_, ?_, ?_, ?_⟩
  · unfold gaussNd
    rw [h]
    rfl
  · rw [prodRepeat_length, hp]
  · rw [List.length_map, prodRepeat_length, hw]
  · intro i hi
    obtain ⟨t, ht, hl, hd⟩ := prodRepeat_digits p d i (by rwa [hp])
    obtain ⟨u, hu, hl', hd'⟩ := prodRepeat_digits w d i (by rwa [hw])
    rw [hp] at hd
    rw [hw] at hd'
    refine ⟨t, ht, hl, hd, ?_⟩
    rw [List.getElem?_map, hu, Option.map_some, Option.some.injEq, Finset.prod_range]
    have : u = List.ofFn fun j : Fin d => w.getD (i / n ^ (d - 1 - j) % n) 0 := by
      apply List.ext_getElem? 
      intro j
      rw [List.getElem?_ofFn]
      split
      · rename_i hj
        rw [hd' j hj, List.getD_eq_getElem?_getD]
        have hlt : i / n ^ (d - 1 - j) % n < w.length := by
          rw [hw]
          exact Nat.mod_lt _ (by omega)
        rw [List.getElem?_eq_getElem hlt]
        simp
      · rename_i hj
        rw [List.getElem?_eq_none (by omega)]
    rw [this, List.prod_ofFn]

theorem C61_raises (n : ℤ) (d : ℕ) (h : ¬ (2 ≤ n ∧ n ≤ 10)) : gaussNd n d = .error .valueError := by
  unfold gaussNd
  rw [C59_raises n h]
  rfl

theorem zip_flatMap {α β γ : Type} (F : List α → List β → γ) (p : List α) (w : List β)
    (A : List (List α)) (B : List (List β)) (hAB : A.length = B.length) (hpw : p.length = w.length) :
    List.zipWith F (p.flatMap fun x => A.map (x :: ·)) (w.flatMap fun a => B.map (a :: ·)) =
      (List.zip p w).flatMap fun q => List.zipWith (fun s t => F (q.1 :: s) (q.2 :: t)) A B := by
  induction p generalizing w with
  | nil => simp
  | cons x p ih =>
    cases w with
    | nil => simp at hpw
    | cons a w =>
      rw [List.flatMap_cons, List.flatMap_cons, List.zipWith_append (by simpa using hAB),
        ih w (by simpa using hpw), List.zip_cons_cons, List.flatMap_cons, List.zipWith_map]

theorem quadN_product {p w : List ℚ} (hpw : p.length = w.length) (fs : List (ℝ → ℝ)) :
    quadN (prodRepeat p fs.length) ((prodRepeat w fs.length).map List.prod)
      (fun x => (List.zipWith (fun f y => f y) fs x).prod) = (fs.map (quad1 p w)).prod := by
  induction fs with
  | nil => simp [quadN, prodRepeat]
  | cons f fs ih =>
    unfold quadN at ih ⊢
    rw [List.zipWith_map_right] at ih ⊢
    simp only [List.length_cons, prodRepeat]
    rw [zip_flatMap _ p w _ _ (by rw [prodRepeat_length, prodRepeat_length, hpw]) hpw, List.map_cons,
      List.prod_cons, ← ih]
    unfold quad1
    have e : List.zipWith (fun (x c : ℚ) => (c : ℝ) * f x) p w =
        (List.zip p w).map fun q => (q.2 : ℝ) * f q.1 := by
      rw [List.zip_eq_zipWith, List.map_zipWith]
    rw [e]
    generalize List.zip p w = z
    generalize prodRepeat p fs.length = A
    generalize prodRepeat w fs.length = B
    induction z with
    | nil => simp
    | cons q z ihz =>
      rw [List.flatMap_cons, List.sum_append, ihz, List.map_cons, List.sum_cons, add_mul]
      congr 1
      clear ih ihz
      induction A generalizing B with
      | nil => simp
      | cons s A ih =>
        cases B with
        | nil => simp
        | cons t B =>
          rw [List.zipWith_cons_cons, List.sum_cons, ih, List.zipWith_cons_cons, List.sum_cons, mul_add]
          congr 1
          simp only [List.zipWith_cons_cons, List.map_cons, List.prod_cons]
          push_cast
          ring

theorem zip_ofFn (d : ℕ) (f : Fin d → ℝ → ℝ) (x : List ℝ) (hx : x.length = d) :
    (List.zipWith (fun f y => f y) (List.ofFn f) x).prod = ∏ j, f j (x.getD j 0) := by
  rw [← List.prod_ofFn]
  congr 1
  apply List.ext_getElem?
  intro i
  rw [List.getElem?_zipWith, List.getElem?_ofFn, List.getElem?_ofFn]
  by_cases hi : i < d
  · rw [List.getElem?_eq_getElem (by omega : i < x.length)]
    simp [hi, List.getD_eq_getElem?_getD, List.getElem?_eq_getElem (by omega : i < x.length)]
  · simp [hi]

theorem quadN_congr {p : List (List ℚ)} (w : List ℚ) {f g : List ℝ → ℝ}
    (h : ∀ x ∈ p, f (x.map fun y : ℚ => (y : ℝ)) = g (x.map fun y : ℚ => (y : ℝ))) : quadN p w f = quadN p w g := by
  unfold quadN
  congr 1
  induction p generalizing w with
  | nil => simp
  | cons x p ih =>
    cases w with
    | nil => simp
    | cons a w =>
      simp only [List.zipWith_cons_cons]
      rw [h x (by simp), ih w fun y hy => h y (by simp [hy])]

theorem mem_prodRepeat {α : Type} {l : List α} {d : ℕ} {t : List α} (h : t ∈ prodRepeat l d) : t.length = d := by
  obtain ⟨i, hi, rfl⟩ := List.mem_iff_getElem.1 h
  rw [prodRepeat_length] at hi
  obtain ⟨t, ht, hl, -⟩ := prodRepeat_digits l d i hi
  rw [List.getElem?_eq_getElem (by rw [prodRepeat_length]; exact hi), Option.some.injEq] at ht
  rw [ht, hl]

/-- C61.  The tensor rule applied to a product of functions of one coordinate each is the product of the
1D rules. -/
theorem C61_product {n : ℕ} {p w : List ℚ} (h : gauss1d n = .ok (p, w)) {d : ℕ} {P W}
    (hd : gaussNd n d = .ok (P, W)) (f : Fin d → ℝ → ℝ) :
    quadN P W (fun x => ∏ j, f j (x.getD j 0)) = ∏ j, quad1 p w (f j) := by
  obtain ⟨h2, h10⟩ := C59_only_two_to_ten n h
  obtain ⟨p', w', h', hp, hw, -⟩ := C59_tables n h2 h10
  rw [h, Except.ok.injEq, Prod.mk.injEq] at h'
  obtain ⟨rfl, rfl⟩ := h'
  unfold gaussNd at hd
  rw [h, ok_bind] at hd
  have hd := pure_ok.1 hd
  rw [Prod.mk.injEq] at hd
  obtain ⟨rfl, rfl⟩ := hd
  have hpw : p.length = w.length := by
    have := hp.trans hw.symm
    exact_mod_cast this
  have key := quadN_product hpw (List.ofFn f)
  rw [List.length_ofFn, List.map_ofFn, List.prod_ofFn] at key
  dsimp only [Function.comp] at key
  rw [← key]
  refine quadN_congr _ fun x hx => ?_
  rw [zip_ofFn d f _ (by rw [List.length_map]; exact mem_prodRepeat hx)]

/-! ## C62 -/

theorem quadN_sum {ι : Type} (p : List (List ℚ)) (w : List ℚ) (s : Finset ι) (c : ι → ℝ)
    (φ : ι → List ℝ → ℝ) :
    quadN p w (fun x => ∑ i ∈ s, c i * φ i x) = ∑ i ∈ s, c i * quadN p w (φ i) := by
  unfold quadN
  induction p generalizing w with
  | nil => simp
  | cons x p ih =>
    cases w with
    | nil => simp
    | cons a w =>
      simp only [List.zipWith_cons_cons, List.sum_cons]
      rw [ih w]
      simp only [mul_add, Finset.sum_add_distrib, Finset.mul_sum]
      congr 1
      refine Finset.sum_congr rfl fun i _ => ?_
      ring

theorem prod_close {d : ℕ} (A B : Fin d → ℝ) {ε : ℝ} (hε : 0 ≤ ε) (h : ∀ j, |A j - B j| ≤ ε)
    (hB : ∀ j, |B j| ≤ 2) : |∏ j, A j - ∏ j, B j| ≤ d * ε * (2 + ε) ^ (d - 1) ∧ |∏ j, B j| ≤ 2 ^ d := by
  induction d with
  | zero => simp
  | succ d ih =>
    obtain ⟨h1, h2⟩ := ih (fun j => A j.succ) (fun j => B j.succ) (fun j => h _) (fun j => hB _)
    rw [Fin.prod_univ_succ, Fin.prod_univ_succ]
    have hA : |A 0| ≤ 2 + ε := by
      have := abs_add_le (A 0 - B 0) (B 0)
      rw [sub_add_cancel] at this
      linarith [h 0, hB 0]
    constructor
    · have e : A 0 * ∏ i : Fin d, A i.succ - B 0 * ∏ i : Fin d, B i.succ =
          A 0 * (∏ i : Fin d, A i.succ - ∏ i : Fin d, B i.succ) + (A 0 - B 0) * ∏ i : Fin d, B i.succ := by ring
      rw [e]
      refine (abs_add_le _ _).trans ?_
      rw [abs_mul, abs_mul]
      have h3 : |A 0| * |∏ i : Fin d, A i.succ - ∏ i : Fin d, B i.succ| ≤
          (2 + ε) * (d * ε * (2 + ε) ^ (d - 1)) :=
        mul_le_mul hA h1 (abs_nonneg _) (by linarith)
      have h4 : |A 0 - B 0| * |∏ i : Fin d, B i.succ| ≤ ε * 2 ^ d :=
        mul_le_mul (h 0) h2 (abs_nonneg _) hε
      have h5 : (2 : ℝ) ^ d ≤ (2 + ε) ^ d := pow_le_pow_left₀ (by norm_num) (by linarith) d
      have h6 : (2 + ε) * (d * ε * (2 + ε) ^ (d - 1)) = d * ε * (2 + ε) ^ d := by
        cases d with
        | zero => simp
        | succ d =>
          rw [Nat.add_sub_cancel, pow_succ]
          ring
      rw [h6] at h3
      rw [Nat.add_sub_cancel]
      push_cast
      nlinarith [mul_le_mul_of_nonneg_left h5 hε]
    · rw [abs_mul, pow_succ']
      exact mul_le_mul (hB 0) h2 (abs_nonneg _) (by norm_num)

theorem moment_le (k : ℕ) : |∫ x in (-1 : ℝ)..1, x ^ k| ≤ 2 := by
  rw [integral_pow, one_pow, abs_div]
  have h1 : |(1 : ℝ) - (-1) ^ (k + 1)| ≤ 2 := by
    rcases neg_one_pow_eq_or ℝ (k + 1) with h | h <;> rw [h] <;> norm_num
  have h2 : (1 : ℝ) ≤ |(k : ℝ) + 1| := by
    rw [abs_of_nonneg (by positivity)]
    linarith [Nat.cast_nonneg (α := ℝ) k]
  rw [div_le_iff₀ (by linarith)]
  linarith

/-- The cube `[-1, 1]^d`. -/
def cube (d : ℕ) : Set (Fin d → ℝ) := Set.univ.pi fun _ => Set.Icc (-1) 1

theorem int_cube_prod (d : ℕ) (f : Fin d → ℝ → ℝ) :
    ∫ x in cube d, ∏ j, f j (x j) = ∏ j, ∫ x in (-1 : ℝ)..1, f j x := by
  unfold cube
  rw [volume_pi, Measure.restrict_pi_pi, integral_fintype_prod_eq_prod]
  refine Finset.prod_congr rfl fun j _ => ?_
  rw [intervalIntegral.integral_of_le (by norm_num), integral_Icc_eq_integral_Ioc]

theorem cube_compact (d : ℕ) : IsCompact (cube d) := isCompact_univ_pi fun _ => isCompact_Icc

/-- C62.  In every dimension the tensor rule of `n` points integrates, over the cube, every polynomial of
degree at most 2n-1 in each variable, up to the rounding of the tables. -/
theorem C62_exact {n d : ℕ} {P W} (hd : gaussNd n d = .ok (P, W)) (F : MvPolynomial (Fin d) ℝ)
    (hF : ∀ j, F.degreeOf j < 2 * n) :
    |quadN P W (fun x => MvPolynomial.eval (fun j : Fin d => x.getD j 0) F) -
      ∫ x in cube d, MvPolynomial.eval x F| ≤ d * 2e-18 * (2 + 2e-18) ^ (d - 1) * mvCoefSum F := by
  obtain ⟨⟨p, w⟩, h, -⟩ := bind_ok.1 hd
  simp only [MvPolynomial.eval_eq']
  rw [quadN_sum, integral_finsetSum _ fun m _ => ContinuousOn.integrableOn_compact (cube_compact d)
    (by fun_prop)]
  simp only [integral_const_mul]
  refine combine _ _ _ _ fun m hm => ?_
  rw [C61_product h hd (fun j x => x ^ m j), int_cube_prod d (fun j x => x ^ m j)]
  refine (prod_close _ _ (by norm_num) (fun j => monomial1 h ?_) fun j => moment_le _).1
  exact lt_of_le_of_lt (MvPolynomial.monomial_le_degreeOf j hm) (hF j)

/-- C62.  The weights sum to the volume of the cube, up to the rounding of the tables. -/
theorem C62_weights {n d : ℕ} {P W} (hd : gaussNd n d = .ok (P, W)) :
    |((W.sum : ℚ) : ℝ) - 2 ^ d| ≤ d * 2e-18 * (2 + 2e-18) ^ (d - 1) := by
  obtain ⟨⟨p, w⟩, h, -⟩ := bind_ok.1 hd
  have hW : quadN P W (fun x => ∏ j : Fin d, (fun _ _ => 1 : Fin d → ℝ → ℝ) j (x.getD j 0)) =
      ((W.sum : ℚ) : ℝ) := by
    obtain ⟨h2, h10⟩ := C59_only_two_to_ten n h
    obtain ⟨P', W', hd', hP, hW, -⟩ := C61_points h d
    rw [hd, Except.ok.injEq, Prod.mk.injEq] at hd'
    obtain ⟨rfl, rfl⟩ := hd'
    have hl := hP.trans hW.symm
    clear hP hW hd h
    unfold quadN
    induction P generalizing W with
    | nil =>
      cases W with
      | nil => simp
      | cons a W => simp at hl
    | cons x P ih =>
      cases W with
      | nil => simp at hl
      | cons a W =>
        simp only [List.zipWith_cons_cons, List.sum_cons, Finset.prod_const_one, mul_one] at ih ⊢
        rw [ih (by simpa using hl)]
        push_cast
        rfl
  rw [← hW, C61_product h hd (fun _ _ => 1)]
  have e : (2 : ℝ) ^ d = ∏ _j : Fin d, ∫ x in (-1 : ℝ)..1, x ^ 0 := by
    simp
    norm_num
  rw [e]
  refine (prod_close _ _ (by norm_num) (fun j => ?_) fun j => moment_le 0).1
  have := monomial1 h (k := 0) (by have := (C59_only_two_to_ten n h).1; omega)
  simpa using this

/-- The 2x2x2 rule on `x^3 y^2 z`. -/
example : ∃ P W, gaussNd 2 3 = .ok (P, W) ∧ P.length = 8 ∧
    |((W.sum : ℚ) : ℝ) - 8| ≤ 3 * 2e-18 * (2 + 2e-18) ^ 2 := by
  obtain ⟨P, W, h, h1, -⟩ := C61_points (n := 2) (p := pts1d2) (w := wts1d2) rfl 3
  refine ⟨P, W, h, h1, ?_⟩
  have := C62_weights h
  norm_num at this ⊢
  exact this

end SolidsPy
