import Verif.Model.Rounded
import Verif.Props.Inexact

/-! # C165: trusses computed with rounding arithmetic -/

set_option linter.unusedSectionVars false

namespace SolidsPy
open Spec Assem

namespace Spec
variable {K : Type} [Field K] [LinearOrder K]

/-- `s` is obtained from the numbers `xs` by additions in some order, each with a relative error of at most `u`. -/
inductive RoundedSum (u : K) : List K → K → Prop
  | nil : RoundedSum u [] 0
  | single (x : K) : RoundedSum u [x] x
  | node {xs ys : List K} {a b c : K} : xs ≠ [] → ys ≠ [] → RoundedSum u xs a → RoundedSum u ys b → |c - (a + b)| ≤ u * |a + b| →
      RoundedSum u (xs ++ ys) c
  | perm {xs ys : List K} {a : K} : xs.Perm ys → RoundedSum u xs a → RoundedSum u ys a

/-- Every operation has a relative error of at most `u`. -/
structure RoundsTo (sq : K → K) (u : K) (ar : Rounded.Arith K) : Prop where
  sub : ∀ a b, |ar.sub a b - (a - b)| ≤ u * |a - b|
  mul : ∀ a b, |ar.mul a b - a * b| ≤ u * |a * b|
  div : ∀ a b, b ≠ 0 → |ar.div a b - a / b| ≤ u * |a / b|
  sqrt : ∀ a, 0 ≤ a → |ar.sqrt a - sq a| ≤ u * |sq a|
  sum : ∀ xs, RoundedSum u xs (ar.sum xs)

end Spec

section
variable {K : Type} [Field K] [LinearOrder K] [IsStrictOrderedRing K] {u : K}

/-! ## Relative errors -/

/-- `b` is `a` up to a factor between `(1 - u) ^ n` and its inverse. -/
def Rel (u : K) (n : ℕ) (a b : K) : Prop := ∃ t, (1 - u) ^ n ≤ t ∧ t * (1 - u) ^ n ≤ 1 ∧ b = a * t

variable (h0 : 0 ≤ u) (h1 : u < 1)
include h0 h1

theorem pow_unit (n : ℕ) : 0 < (1 - u) ^ n ∧ (1 - u) ^ n ≤ 1 :=
  ⟨pow_pos (by linarith) n, pow_le_one₀ (by linarith) (by linarith)⟩

theorem Rel.refl (n : ℕ) (a : K) : Rel u n a a := by
  obtain ⟨p, q⟩ := pow_unit h0 h1 n
  exact ⟨1, q, by rw [one_mul]; exact q, (mul_one a).symm⟩

theorem Rel.mono {n m : ℕ} (hnm : n ≤ m) {a b : K} (h : Rel u n a b) : Rel u m a b := by
  obtain ⟨t, t1, t2, rfl⟩ := h
  have hp : (1 - u) ^ m ≤ (1 - u) ^ n := pow_le_pow_of_le_one (by linarith) (by linarith) hnm
  have ht : 0 ≤ t := (pow_unit h0 h1 n).1.le.trans t1
  exact ⟨t, hp.trans t1, (mul_le_mul_of_nonneg_left hp ht).trans t2, rfl⟩

theorem Rel.mul {n m : ℕ} {a b c d : K} (h : Rel u n a b) (h' : Rel u m c d) : Rel u (n + m) (a * c) (b * d) := by
  obtain ⟨t, t1, t2, rfl⟩ := h
  obtain ⟨s, s1, s2, rfl⟩ := h'
  have hn := pow_unit h0 h1 n
  have hm := pow_unit h0 h1 m
  have ht : 0 < t := hn.1.trans_le t1
  have hs : 0 < s := hm.1.trans_le s1
  refine ⟨t * s, ?_, ?_, by ring⟩
  · rw [pow_add]
    exact mul_le_mul t1 s1 hm.1.le ht.le
  · rw [pow_add]
    calc t * s * ((1 - u) ^ n * (1 - u) ^ m) = t * (1 - u) ^ n * (s * (1 - u) ^ m) := by ring
      _ ≤ 1 * 1 := mul_le_mul t2 s2 (mul_pos hs hm.1).le zero_le_one
      _ = 1 := one_mul 1

theorem Rel.inv {n : ℕ} {a b : K} (h : Rel u n a b) : Rel u n a⁻¹ b⁻¹ := by
  obtain ⟨t, t1, t2, rfl⟩ := h
  have hn := pow_unit h0 h1 n
  have ht : 0 < t := hn.1.trans_le t1
  refine ⟨t⁻¹, ?_, ?_, mul_inv a t⟩
  · rw [le_inv_comm₀ hn.1 ht, ← one_div, le_div_iff₀ hn.1]
    exact t2
  · rw [inv_mul_le_iff₀ ht, mul_one]
    exact t1

theorem Rel.div {n m : ℕ} {a b c d : K} (h : Rel u n a b) (h' : Rel u m c d) : Rel u (n + m) (a / c) (b / d) := by
  rw [div_eq_mul_inv, div_eq_mul_inv]
  exact Rel.mul h0 h1 h (Rel.inv h0 h1 h')

theorem Rel.trans {n m : ℕ} {a b c : K} (h : Rel u n a b) (h' : Rel u m b c) : Rel u (n + m) a c := by
  obtain ⟨s, s1, s2, rfl⟩ := h'
  have := Rel.mul h0 h1 h (⟨s, s1, s2, (one_mul s).symm⟩ : Rel u m 1 s)
  rwa [mul_one] at this

theorem Rel.round {a c : K} (h : |c - a| ≤ u * |a|) : Rel u 1 a c := by
  rcases eq_or_ne a 0 with rfl | ha
  · rw [abs_zero, mul_zero, sub_zero] at h
    obtain rfl := abs_nonpos_iff.1 h
    exact Rel.refl h0 h1 1 0
  · have hd : |c / a - 1| ≤ u := by
      rw [← div_self ha, ← sub_div, abs_div, div_le_iff₀ (abs_pos.2 ha)]
      exact h
    obtain ⟨h2, h3⟩ := abs_le.1 hd
    refine ⟨c / a, by rw [pow_one]; linarith, ?_, by field_simp⟩
    rw [pow_one]
    nlinarith

theorem Rel.sqrt {sq : K → K} (hs : SqrtFn sq) {n : ℕ} {a b : K} (ha : 0 ≤ a) (h : Rel u n a b) : Rel u n (sq a) (sq b) := by
  obtain ⟨t, t1, t2, rfl⟩ := h
  have hn := pow_unit h0 h1 n
  have ht : 0 < t := hn.1.trans_le t1
  have e : sq (a * t) = sq a * sq t := by
    have p := hs (a * t) (mul_nonneg ha ht.le)
    have q := hs a ha
    have r := hs t ht.le
    have : sq (a * t) ^ 2 = (sq a * sq t) ^ 2 := by
      rw [pow_two, p.2, mul_pow, pow_two, pow_two, q.2, r.2]
    exact (pow_left_inj₀ p.1 (mul_nonneg q.1 r.1) two_ne_zero).1 this
  obtain ⟨r1, r2⟩ := hs t ht.le
  refine ⟨sq t, ?_, ?_, e⟩
  · refine abs_le_of_sq_le_sq' ?_ r1 |>.2
    rw [pow_two (sq t), r2, pow_two]
    exact (mul_le_of_le_one_left hn.1.le hn.2).trans t1
  · have : (sq t * (1 - u) ^ n) ^ 2 ≤ 1 ^ 2 := by
      rw [mul_pow, pow_two (sq t), r2, pow_two ((1 - u) ^ n), ← mul_assoc, one_pow]
      exact (mul_le_of_le_one_right (mul_nonneg ht.le hn.1.le) hn.2).trans t2
    exact (pow_le_pow_iff_left₀ (mul_nonneg r1 hn.1.le) zero_le_one two_ne_zero).1 this

theorem Rel.add {n : ℕ} {a b c d : K} (h : Rel u n a b) (h' : Rel u n c d) (ha : 0 ≤ a) (hc : 0 ≤ c) : Rel u n (a + c) (b + d) := by
  obtain ⟨t, t1, t2, rfl⟩ := h
  obtain ⟨s, s1, s2, rfl⟩ := h'
  have hn := pow_unit h0 h1 n
  rcases eq_or_lt_of_le (add_nonneg ha hc) with hz | hp
  · have a0 : a = 0 := by linarith
    have c0 : c = 0 := by linarith
    rw [a0, c0, zero_mul, zero_mul, add_zero]
    exact Rel.refl h0 h1 n 0
  · refine ⟨(a * t + c * s) / (a + c), ?_, ?_, by field_simp⟩
    · rw [le_div_iff₀ hp]
      nlinarith
    · rw [div_mul_eq_mul_div, div_le_one hp]
      nlinarith

theorem Rel.near {n : ℕ} {a b : K} (h : Rel u n a b) : |b - a| ≤ (1 / (1 - u) ^ n - 1) * |a| := by
  obtain ⟨t, t1, t2, rfl⟩ := h
  have hn := pow_unit h0 h1 n
  rw [show a * t - a = (t - 1) * a by ring, abs_mul]
  refine mul_le_mul_of_nonneg_right (abs_le.2 ⟨?_, ?_⟩) (abs_nonneg a)
  · have : 2 ≤ (1 - u) ^ n + 1 / (1 - u) ^ n := by
      rw [← sub_nonneg]
      have : (1 - u) ^ n + 1 / (1 - u) ^ n - 2 = ((1 - u) ^ n - 1) ^ 2 / (1 - u) ^ n := by
        field_simp
        ring
      rw [this]
      exact div_nonneg (sq_nonneg _) hn.1.le
    linarith
  · rw [sub_le_sub_iff_right, le_div_iff₀ hn.1]
    exact t2

omit h0 h1 in
theorem Rel.ne_zero {n : ℕ} {a b : K} (h1 : u < 1) (h : Rel u n a b) (ha : a ≠ 0) : b ≠ 0 := by
  obtain ⟨t, t1, -, rfl⟩ := h
  exact mul_ne_zero ha ((pow_pos (by linarith) n).trans_le t1).ne'

/-- Numbers of one sign added up: the relative error is at most one rounding for each of them. -/
theorem RoundedSum.rel {xs : List K} {s c : K} (h : RoundedSum u xs s) (hc : ∀ x ∈ xs, ∃ w, 0 ≤ w ∧ x = c * w) :
    Rel u xs.length xs.sum s := by
  suffices h : ∃ W W', 0 ≤ W ∧ xs.sum = c * W ∧ s = c * W' ∧ Rel u xs.length W W' by
    obtain ⟨W, W', -, e1, e2, r⟩ := h
    rw [e1, e2]
    have := Rel.mul h0 h1 (Rel.refl h0 h1 0 c) r
    rwa [zero_add] at this
  induction h with
  | nil => exact ⟨0, 0, le_rfl, by simp, by simp, Rel.refl h0 h1 _ _⟩
  | single x =>
    obtain ⟨w, hw, rfl⟩ := hc x (by simp)
    exact ⟨w, w, hw, by simp, rfl, Rel.refl h0 h1 _ _⟩
  | @node xs ys a b c' hx hy _ _ hr i j =>
    obtain ⟨W, W', w0, e1, rfl, r⟩ := i fun x hx => hc x (List.mem_append_left _ hx)
    obtain ⟨V, V', v0, e2, rfl, r'⟩ := j fun x hx => hc x (List.mem_append_right _ hx)
    have l1 : 0 < xs.length := List.length_pos_iff.2 hx
    have l2 : 0 < ys.length := List.length_pos_iff.2 hy
    obtain ⟨t, t1, t2, rfl⟩ := Rel.round h0 h1 hr
    have rr := Rel.add h0 h1 (Rel.mono h0 h1 (le_max_left _ ys.length) r) (Rel.mono h0 h1 (le_max_right xs.length _) r') w0 v0
    have r3 := Rel.trans h0 h1 rr (⟨t, t1, t2, rfl⟩ : Rel u 1 _ _)
    refine ⟨W + V, (W' + V') * t, add_nonneg w0 v0, by rw [List.sum_append, e1, e2]; ring, by ring, ?_⟩
    refine Rel.mono h0 h1 ?_ r3
    rw [List.length_append]
    omega
  | perm hp _ i =>
    obtain ⟨W, W', w0, e1, e2, r⟩ := i fun x hx => hc x (hp.mem_iff.1 hx)
    exact ⟨W, W', w0, by rw [← hp.sum_eq, e1], e2, by rw [← hp.length_eq]; exact r⟩

omit h1 in
/-- Any numbers added up. -/
theorem RoundedSum.near {xs : List K} {s : K} (h : RoundedSum u xs s) :
    |s - xs.sum| ≤ ((1 + u) ^ xs.length - 1) * (xs.map fun x => |x|).sum := by
  have hpos : ∀ l : List K, 0 ≤ (l.map fun x => |x|).sum := fun l => List.sum_nonneg (by
    intro x hx
    obtain ⟨y, -, rfl⟩ := List.mem_map.1 hx
    exact abs_nonneg y)
  have habs : ∀ l : List K, |l.sum| ≤ (l.map fun x => |x|).sum := fun l => by
    induction l with
    | nil => simp
    | cons x l ih =>
      rw [List.sum_cons, List.map_cons, List.sum_cons]
      exact (abs_add_le _ _).trans (by linarith)
  induction h with
  | nil => simp
  | single x => simpa using mul_nonneg h0 (abs_nonneg x)
  | @node xs ys a b c hx hy _ _ hr i j =>
    have l1 : 0 < xs.length := List.length_pos_iff.2 hx
    have l2 : 0 < ys.length := List.length_pos_iff.2 hy
    set A := (xs.map fun x => |x|).sum with hA
    set B := (ys.map fun x => |x|).sum with hB
    have pA := hpos xs
    have pB := hpos ys
    have qA := habs xs
    have qB := habs ys
    rw [← hA] at pA qA
    rw [← hB] at pB qB
    set m := xs.length + ys.length - 1 with hm
    have hle : ∀ k, k ≤ m → (1 + u) ^ k - 1 ≤ (1 + u) ^ m - 1 := fun k hk =>
      sub_le_sub_right (pow_le_pow_right₀ (by linarith) hk) 1
    have i' := i.trans (mul_le_mul_of_nonneg_right (hle xs.length (by omega)) pA)
    have j' := j.trans (mul_le_mul_of_nonneg_right (hle ys.length (by omega)) pB)
    set g := (1 + u) ^ m - 1 with hg
    have hlen : (1 + u) ^ (xs ++ ys).length = (1 + u) * (1 + g) := by
      rw [List.length_append, show xs.length + ys.length = m + 1 by omega, pow_succ]
      ring
    have hab : |a + b| ≤ (1 + g) * (A + B) := by
      have h2 : |a + b| ≤ |xs.sum + ys.sum| + |a - xs.sum| + |b - ys.sum| := by
        have := abs_add_three (xs.sum + ys.sum) (a - xs.sum) (b - ys.sum)
        rwa [show xs.sum + ys.sum + (a - xs.sum) + (b - ys.sum) = a + b by ring] at this
      have h3 := abs_add_le xs.sum ys.sum
      linarith
    rw [hlen, List.map_append, List.sum_append, List.sum_append, ← hA, ← hB]
    have h4 : |c - (xs.sum + ys.sum)| ≤ |c - (a + b)| + |a - xs.sum| + |b - ys.sum| := by
      have := abs_add_three (c - (a + b)) (a - xs.sum) (b - ys.sum)
      rwa [show c - (a + b) + (a - xs.sum) + (b - ys.sum) = c - (xs.sum + ys.sum) by ring] at this
    have h5 := mul_le_mul_of_nonneg_left hab h0
    nlinarith
  | perm hp _ i =>
    rw [← hp.sum_eq, ← hp.length_eq, ← (hp.map _).sum_eq]
    exact i

theorem RoundedSum.two {n : ℕ} {p0 p1 y0 y1 s : K} (h : RoundedSum u [y0, y1] s) (r0 : Rel u n p0 y0) (r1 : Rel u n p1 y1)
    (hz : p0 = 0 ∨ p1 = 0) : Rel u (n + 2) (p0 + p1) s := by
  rcases hz with rfl | rfl
  · obtain rfl : y0 = 0 := by
      obtain ⟨t, -, -, rfl⟩ := r0
      rw [zero_mul]
    have := RoundedSum.rel h0 h1 (c := y1) h (by
      intro x hx
      simp only [List.mem_cons, List.not_mem_nil, or_false] at hx
      rcases hx with rfl | rfl
      · exact ⟨0, le_rfl, by ring⟩
      · exact ⟨1, zero_le_one, by ring⟩)
    simp only [List.sum_cons, List.sum_nil, zero_add, add_zero, List.length_cons, List.length_nil] at this
    rw [zero_add]
    exact Rel.trans h0 h1 r1 this
  · obtain rfl : y1 = 0 := by
      obtain ⟨t, -, -, rfl⟩ := r1
      rw [zero_mul]
    have := RoundedSum.rel h0 h1 (c := y0) h (by
      intro x hx
      simp only [List.mem_cons, List.not_mem_nil, or_false] at hx
      rcases hx with rfl | rfl
      · exact ⟨1, zero_le_one, by ring⟩
      · exact ⟨0, le_rfl, by ring⟩)
    simp only [List.sum_cons, List.sum_nil, zero_add, add_zero, List.length_cons, List.length_nil] at this
    rw [add_zero]
    exact Rel.trans h0 h1 r0 this

/-! ## The bar -/

variable {sq : K → K} {ar : Rounded.Arith K} (har : RoundsTo sq u ar)
include har

theorem Rel.mul' {n m : ℕ} {a b c d : K} (h : Rel u n a b) (h' : Rel u m c d) : Rel u (n + m + 1) (a * c) (ar.mul b d) :=
  Rel.trans h0 h1 (Rel.mul h0 h1 h h') (Rel.round h0 h1 (har.mul b d))

theorem Rel.div' {n m : ℕ} {a b c d : K} (h : Rel u n a b) (h' : Rel u m c d) (hd : d ≠ 0) : Rel u (n + m + 1) (a / c) (ar.div b d) :=
  Rel.trans h0 h1 (Rel.div h0 h1 h h') (Rel.round h0 h1 (har.div b d hd))

theorem matmul_rel {l n : ℕ} {k m : ℕ} {A A' : Matrix (Fin l) (Fin 2) K} {B B' : Matrix (Fin 2) (Fin n) K}
    (hA : ∀ i j, Rel u k (A i j) (A' i j)) (hB : ∀ i j, Rel u m (B i j) (B' i j))
    (hz : ∀ i j, A i 0 * B 0 j = 0 ∨ A i 1 * B 1 j = 0) (i : Fin l) (j : Fin n) :
    Rel u (k + m + 3) ((A * B) i j) (Rounded.matmul ar A' B' i j) := by
  have e : (A * B) i j = A i 0 * B 0 j + A i 1 * B 1 j := by rw [Matrix.mul_apply, Fin.sum_univ_two]
  rw [e]
  exact RoundedSum.two h0 h1 (n := k + m + 1) (har.sum _) (Rel.mul' h0 h1 har (hA i 0) (hB 0 j)) (Rel.mul' h0 h1 har (hA i 1) (hB 1 j)) (hz i j)

theorem trussStiff_rel {n m : ℕ} {nx ny s nx' ny' s' : K} (hx : Rel u n nx nx') (hy : Rel u n ny ny') (hs : Rel u m s s') (i j : Fin 4) :
    Rel u (n + (m + 1) + 3 + n + 3) (Uel.trussStiff nx ny s i j) (Rounded.trussStiff ar nx' ny' s' i j) := by
  have hQ : ∀ a b, Rel u n (Uel.barQ nx ny a b) (Uel.barQ nx' ny' a b) := by
    intro a b
    fin_cases a <;> fin_cases b <;> first | exact hx | exact hy | exact Rel.refl h0 h1 n 0
  have hQ0 : ∀ b, Uel.barQ nx ny 0 b = 0 ∨ Uel.barQ nx ny 1 b = 0 := by
    intro b
    fin_cases b <;> simp [Uel.barQ]
  have hS : ∀ a b, Rel u (m + 1) ((s • (!![1, -1; -1, 1] : Matrix (Fin 2) (Fin 2) K)) a b)
      (((!![1, -1; -1, 1] : Matrix (Fin 2) (Fin 2) K).map (ar.mul s')) a b) := by
    intro a b
    rw [Matrix.smul_apply, smul_eq_mul, Matrix.map_apply]
    exact Rel.mul' h0 h1 har hs (Rel.refl h0 h1 0 _)
  unfold Uel.trussStiff Rounded.trussStiff
  refine matmul_rel h0 h1 har (matmul_rel h0 h1 har (fun a b => hQ b a) hS fun a b => ?_) hQ (fun a b => ?_) i j
  · rcases hQ0 a with h | h
    · exact .inl (by show Uel.barQ nx ny 0 a * _ = 0; rw [h, zero_mul])
    · exact .inr (by show Uel.barQ nx ny 1 a * _ = 0; rw [h, zero_mul])
  · rcases hQ0 b with h | h
    · left; rw [h, mul_zero]
    · right; rw [h, mul_zero]

/-- The entries of `k'` are those of `k` up to the relative error `γ`. -/
def NearArr (γ : K) (k k' : NdArr K) : Prop :=
  k'.shape0 = k.shape0 ∧ ∀ r c x, k.get2 r c = .ok x → ∃ y, k'.get2 r c = .ok y ∧ |y - x| ≤ γ * |x|

/-- On arrays of points of the plane the routine `f'` computes what `f` does up to the relative error `γ` of the entries of the
stiffness. -/
def RoutineNear (γ : K) (f f' : Uel K) : Prop :=
  ∀ coord params kl ml, (∀ r ∈ coord, r.length = 2) → f coord params = .ok (kl, ml) →
    ∃ kl' ml', f' coord params = .ok (kl', ml') ∧ NearArr γ kl kl' ∧ ∀ r c x, ml.get2 r c = .ok x → ∃ y, ml'.get2 r c = .ok y

/-- C165.  The bar: every entry of the stiffness matrix computed with rounding has a relative error of at most 31 roundings. -/
theorem C165_bar (hs : SqrtFn sq) : RoutineNear (1 / (1 - u) ^ 31 - 1) (Uel.truss2D sq) (Rounded.truss2D ar) := by
  intro coord params kl ml hw h
  unfold Uel.truss2D at h
  rw [bind_ok] at h
  obtain ⟨g, hg, h⟩ := h
  unfold Uel.barGeom Uel.barVec at hg
  simp only [bind_ok] at hg
  obtain ⟨vec, ⟨b, hb, a, ha, hv⟩, v0, hv0, nx, hnx, v1, hv1, ny, hny, hg⟩ := hg
  have wb := hw b (pyGet_mem hb)
  have wa := hw a (pyGet_mem ha)
  obtain ⟨b0, b1, rfl⟩ := List.length_eq_two.1 wb
  obtain ⟨a0, a1, rfl⟩ := List.length_eq_two.1 wa
  obtain rfl : [b0 - a0, b1 - a1] = vec := by simpa [pure, Except.pure] using hv
  obtain rfl : b0 - a0 = v0 := by simpa [pyGet_zero] using hv0
  obtain rfl : b1 - a1 = v1 := by simpa [pyGet_one] using hv1
  set L := Uel.norm sq [b0 - a0, b1 - a1] with hL
  have hL0 : L ≠ 0 := by
    intro e
    rw [e] at hnx
    simp [pyDiv] at hnx
  simp only [pyDiv, if_neg hL0, Except.ok.injEq] at hnx hny
  obtain rfl : (nx, ny, L) = g := by simpa [pure, Except.pure] using hg
  -- the rounded direction and length
  have rv : ∀ x y : K, Rel u 1 (x - y) (ar.sub x y) := fun x y => Rel.round h0 h1 (har.sub x y)
  have rq : ∀ x y : K, Rel u 3 ((x - y) * (x - y)) (ar.mul (ar.sub x y) (ar.sub x y)) := fun x y => Rel.mul' h0 h1 har (rv x y) (rv x y)
  have nn : ∀ x : K, 0 ≤ x * x := mul_self_nonneg
  have nq : ∀ x y : K, 0 ≤ ar.mul (ar.sub x y) (ar.sub x y) := fun x y => by
    obtain ⟨t, t1, -, e⟩ := rq x y
    rw [e]
    exact mul_nonneg (nn _) ((pow_unit h0 h1 3).1.le.trans t1)
  have rs := RoundedSum.rel h0 h1 (c := 1) (har.sum [ar.mul (ar.sub b0 a0) (ar.sub b0 a0), ar.mul (ar.sub b1 a1) (ar.sub b1 a1)]) (by
    intro x hx
    simp only [List.mem_cons, List.not_mem_nil, or_false] at hx
    rcases hx with rfl | rfl
    · exact ⟨_, nq b0 a0, (one_mul _).symm⟩
    · exact ⟨_, nq b1 a1, (one_mul _).symm⟩)
  set s := ar.sum [ar.mul (ar.sub b0 a0) (ar.sub b0 a0), ar.mul (ar.sub b1 a1) (ar.sub b1 a1)] with hsum
  simp only [List.sum_cons, List.sum_nil, add_zero, List.length_cons, List.length_nil, zero_add] at rs
  have r5 : Rel u 5 ((b0 - a0) * (b0 - a0) + (b1 - a1) * (b1 - a1)) s :=
    Rel.trans h0 h1 (Rel.add h0 h1 (rq b0 a0) (rq b1 a1) (nn _) (nn _)) rs
  have ps : 0 ≤ s := by
    obtain ⟨t, t1, -, e⟩ := r5
    rw [e]
    exact mul_nonneg (add_nonneg (nn _) (nn _)) ((pow_unit h0 h1 5).1.le.trans t1)
  have rL : Rel u 6 L (ar.sqrt s) := by
    have := Rel.trans h0 h1 (Rel.sqrt h0 h1 hs (add_nonneg (nn _) (nn _)) r5) (Rel.round h0 h1 (har.sqrt s ps))
    simpa [hL, Uel.norm] using this
  have hL' : ar.sqrt s ≠ 0 := Rel.ne_zero h1 rL hL0
  have rx : Rel u 8 nx (ar.div (ar.sub b0 a0) (ar.sqrt s)) := hnx ▸ Rel.div' h0 h1 har (rv b0 a0) rL hL'
  have ry : Rel u 8 ny (ar.div (ar.sub b1 a1) (ar.sqrt s)) := hny ▸ Rel.div' h0 h1 har (rv b1 a1) rL hL'
  have hgeo : Rounded.barGeom ar coord = .ok (ar.div (ar.sub b0 a0) (ar.sqrt s), ar.div (ar.sub b1 a1) (ar.sqrt s), ar.sqrt s) := by
    unfold Rounded.barGeom
    rw [hb, ha]
    have e0 : pyGet [ar.sub b0 a0, ar.sub b1 a1] 0 = .ok (ar.sub b0 a0) := pyGet_zero.2 rfl
    have e1 : pyGet [ar.sub b0 a0, ar.sub b1 a1] 1 = .ok (ar.sub b1 a1) := pyGet_one.2 rfl
    simp only [bind, Except.bind, List.zipWith_cons_cons, List.zipWith_nil_right, List.map_cons, List.map_nil, ← hsum, e0, e1,
      Rounded.div, if_neg hL', pure, Except.pure]
  dsimp only at h
  unfold Rounded.truss2D
  rw [hgeo]
  dsimp only [bind, Except.bind]
  match params, h with
  | [], h => simp at h
  | [_], h => simp at h
  | E :: A :: rest, h =>
    have e2 : (E :: A :: rest).take 2 = [E, A] := rfl
    rw [e2] at h ⊢
    dsimp only at h ⊢
    simp only [pyDiv, if_neg hL0, Rounded.div, if_neg hL'] at h ⊢
    have rstiff : Rel u 8 (A * E / L) (ar.div (ar.mul A E) (ar.sqrt s)) :=
      Rel.div' h0 h1 har (Rel.round h0 h1 (har.mul A E)) rL hL'
    have key : NearArr (1 / (1 - u) ^ 31 - 1) (NdArr.mat 4 4 (Uel.trussStiff nx ny (A * E / L)))
        (NdArr.mat 4 4 (Rounded.trussStiff ar (ar.div (ar.sub b0 a0) (ar.sqrt s)) (ar.div (ar.sub b1 a1) (ar.sqrt s))
          (ar.div (ar.mul A E) (ar.sqrt s)))) := by
      refine ⟨rfl, fun r c x hx => ?_⟩
      rw [get2_ok] at hx
      obtain ⟨⟨hr, hc⟩, rfl⟩ := hx
      have := Rel.near h0 h1 (trussStiff_rel h0 h1 har rx ry rstiff ⟨r, hr⟩ ⟨c, hc⟩)
      refine ⟨_, get2_ok.2 ⟨⟨hr, hc⟩, rfl⟩, ?_⟩
      simpa [cell, hr, hc] using this
    have key' : ∀ M M' : Matrix (Fin 4) (Fin 4) K, ∀ r c x, (NdArr.mat 4 4 M).get2 r c = .ok x → ∃ y, (NdArr.mat 4 4 M').get2 r c = .ok y :=
      fun M M' r c x hx => ⟨_, get2_ok.2 ⟨(get2_ok.1 hx).1, rfl⟩⟩
    by_cases hc : (E :: A :: rest).length = 2
    · simp only [if_pos hc] at h ⊢
      simp only [bind, Except.bind, pure, Except.pure, Except.ok.injEq, Prod.mk.injEq] at h
      obtain ⟨rfl, rfl⟩ := h
      exact ⟨_, _, rfl, key, key' _ _⟩
    · simp only [if_neg hc] at h ⊢
      simp only [bind_ok] at h
      obtain ⟨_, hst, dens, hd, h⟩ := h
      rw [hd]
      simp only [Except.ok.injEq] at hst
      subst hst
      simp only [pure, Except.pure, Except.ok.injEq, Prod.mk.injEq] at h
      obtain ⟨rfl, rfl⟩ := h
      exact ⟨_, _, rfl, key, key' _ _⟩

end

end SolidsPy
