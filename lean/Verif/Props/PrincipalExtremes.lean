import Verif.Props.StrainMatrix

/-! # Principal values as extreme stresses (C175) -/

set_option linter.unusedSectionVars false

namespace SolidsPy
open Spec Post

section
variable {K : Type} [Field K] [LinearOrder K] [IsStrictOrderedRing K] [FloorRing K]
variable {sq : K → K} {a b d a' b' d' p q p' q' tol : K}

/-- Normal component of the tensor `[[a, b], [b, d]]` in the direction `n`. -/
def Spec.normalIn (a b d : K) (n : K × K) : K := a * n.1 ^ 2 + 2 * b * (n.1 * n.2) + d * n.2 ^ 2

/-- Shear component of the tensor `[[a, b], [b, d]]` for the direction `n` and the direction a quarter turn ahead. -/
def Spec.shearIn (a b d : K) (n : K × K) : K := (d - a) * (n.1 * n.2) + b * (n.1 ^ 2 - n.2 ^ 2)

/-- Directions. -/
def Spec.Unit2 (n : K × K) : Prop := n.1 ^ 2 + n.2 ^ 2 = 1

/-- `p` is the largest and `q` the smallest of the normal components. -/
def Spec.IsPrincipal (a b d p q : K) : Prop :=
  IsGreatest {x | ∃ n, Unit2 n ∧ x = normalIn a b d n} p ∧ IsLeast {x | ∃ n, Unit2 n ∧ x = normalIn a b d n} q

theorem principal_unique (h : IsPrincipal a b d p q) (h' : IsPrincipal a b d p' q') : p = p' ∧ q = q' :=
  ⟨h.1.unique h'.1, h.2.unique h'.2⟩

theorem normal_attained (hs : SqrtFn sq) (h : (p - a) * (p - d) = b ^ 2) : ∃ n, Unit2 n ∧ p = normalIn a b d n := by
  by_cases h0 : b ^ 2 + (p - a) ^ 2 = 0
  · have hb : b = 0 := by nlinarith [sq_nonneg b, sq_nonneg (p - a)]
    have hp : p - a = 0 := by nlinarith [sq_nonneg b, sq_nonneg (p - a)]
    refine ⟨(1, 0), by simp [Unit2], ?_⟩
    simp only [normalIn, hb]
    linear_combination hp
  · obtain ⟨h1, h2⟩ := hs (b ^ 2 + (p - a) ^ 2) (by positivity)
    have hn : sq (b ^ 2 + (p - a) ^ 2) ≠ 0 := by
      intro hz
      rw [hz, mul_zero] at h2
      exact h0 h2.symm
    generalize sq (b ^ 2 + (p - a) ^ 2) = s at h2 hn
    refine ⟨(b / s, (p - a) / s), ?_, ?_⟩
    · simp only [Unit2]
      field_simp
      linear_combination -h2
    · simp only [normalIn]
      field_simp
      linear_combination p * h2 + (p - a) * h

/-- Values with the right sum and product are the extreme normal components. -/
theorem principal_of (hs : SqrtFn sq) (h1 : p + q = a + d) (h2 : p * q = a * d - b ^ 2) (h3 : q ≤ p) : IsPrincipal a b d p q := by
  have hp : (p - a) * (p - d) = b ^ 2 := by
    have : q = a + d - p := by linear_combination h1
    rw [this] at h2
    linear_combination -h2
  have hq : (q - a) * (q - d) = b ^ 2 := by
    have : p = a + d - q := by linear_combination h1
    rw [this] at h2
    linear_combination -h2
  have hb := sq_nonneg b
  have pa : 0 ≤ p - a := by
    by_contra h
    push Not at h
    have : p - d ≤ 0 := by
      by_contra h'
      push Not at h'
      nlinarith
    linarith
  have pd : 0 ≤ p - d := by
    by_contra h
    push Not at h
    have : p - a ≤ 0 := by
      by_contra h'
      push Not at h'
      nlinarith
    linarith
  have form : ∀ {A B : K}, 0 ≤ A → 0 ≤ B → A * B = b ^ 2 → ∀ x y : K, 0 ≤ A * x ^ 2 - 2 * b * (x * y) + B * y ^ 2 := by
    intro A B hA hB h x y
    rcases hA.lt_or_eq with hA | rfl
    · have : 0 ≤ A * (A * x ^ 2 - 2 * b * (x * y) + B * y ^ 2) := by
        have e : A * (A * x ^ 2 - 2 * b * (x * y) + B * y ^ 2) = (A * x - b * y) ^ 2 := by linear_combination y ^ 2 * h
        rw [e]
        positivity
      exact nonneg_of_mul_nonneg_right this hA
    · have : b = 0 := by nlinarith
      rw [this]
      have := mul_nonneg hB (sq_nonneg y)
      nlinarith
  refine ⟨⟨normal_attained hs hp, ?_⟩, ⟨normal_attained hs hq, ?_⟩⟩
  · rintro x ⟨n, hn, rfl⟩
    have := form pa pd hp n.1 n.2
    simp only [Unit2] at hn
    simp only [normalIn]
    have e : p = p * (n.1 ^ 2 + n.2 ^ 2) := by rw [hn, mul_one]
    rw [e]
    linarith
  · rintro x ⟨n, hn, rfl⟩
    have := form (A := d - q) (B := a - q) (by linarith) (by linarith) (by linear_combination hq) n.2 (-n.1)
    have := form (A := a - q) (B := d - q) (by linarith) (by linarith) (by linear_combination hq) n.1 (-n.2)
    simp only [Unit2] at hn
    simp only [normalIn]
    have e : q = q * (n.1 ^ 2 + n.2 ^ 2) := by rw [hn, mul_one]
    rw [e]
    linarith

/-- Every tensor has extreme normal components. -/
theorem principal_exists (hs : SqrtFn sq) (a b d : K) : ∃ p q, IsPrincipal a b d p q ∧ q ≤ p ∧ p + q = a + d ∧ p * q = a * d - b ^ 2 := by
  obtain ⟨h1, h2⟩ := hs ((a - d) ^ 2 + 4 * b ^ 2) (by positivity)
  generalize sq ((a - d) ^ 2 + 4 * b ^ 2) = s at h1 h2
  have e1 : (a + d + s) / 2 + (a + d - s) / 2 = a + d := by ring
  have e2 : (a + d + s) / 2 * ((a + d - s) / 2) = a * d - b ^ 2 := by linear_combination -(1 / 4) * h2
  have e3 : (a + d - s) / 2 ≤ (a + d + s) / 2 := by linarith
  exact ⟨_, _, principal_of hs e1 e2 e3, e3, e1, e2⟩

theorem principal_le (h : IsPrincipal a b d p q) : q ≤ p := by
  have : Unit2 ((1, 0) : K × K) := by simp [Unit2]
  exact (h.2.2 ⟨_, this, rfl⟩).trans (h.1.2 ⟨_, this, rfl⟩)

theorem unit_cross {n : K × K} (h : Unit2 n) : 2 * |n.1 * n.2| ≤ 1 := by
  simp only [Unit2] at h
  rw [abs_mul]
  nlinarith [sq_nonneg (|n.1| - |n.2|), sq_abs n.1, sq_abs n.2]

/-- Extreme components move no more than the components do. -/
theorem principal_close {ε : K} (hc : ∀ n, Unit2 n → |normalIn a b d n - normalIn a' b' d' n| ≤ ε) (h : IsPrincipal a b d p q)
    (h' : IsPrincipal a' b' d' p' q') : |p - p'| ≤ ε ∧ |q - q'| ≤ ε := by
  obtain ⟨⟨⟨n1, u1, e1⟩, g1⟩, ⟨⟨n2, u2, e2⟩, g2⟩⟩ := h
  obtain ⟨⟨⟨m1, v1, f1⟩, k1⟩, ⟨⟨m2, v2, f2⟩, k2⟩⟩ := h'
  have c1 := abs_le.1 (hc n1 u1)
  have c2 := abs_le.1 (hc n2 u2)
  have c3 := abs_le.1 (hc m1 v1)
  have c4 := abs_le.1 (hc m2 v2)
  have i1 := k1 ⟨n1, u1, rfl⟩
  have i2 := g1 ⟨m1, v1, rfl⟩
  have i3 := k2 ⟨n2, u2, rfl⟩
  have i4 := g2 ⟨m2, v2, rfl⟩
  constructor <;> rw [abs_le] <;> constructor <;> linarith

/-- Entries within `ε` mean principal values within `2 ε`. -/
theorem principal_lipschitz {ε : K} (ha : |a - a'| ≤ ε) (hb : |b - b'| ≤ ε) (hd : |d - d'| ≤ ε) (h : IsPrincipal a b d p q)
    (h' : IsPrincipal a' b' d' p' q') : |p - p'| ≤ 2 * ε ∧ |q - q'| ≤ 2 * ε := by
  refine principal_close (fun n hn => ?_) h h'
  have hu := unit_cross hn
  have e : normalIn a b d n - normalIn a' b' d' n = (a - a') * n.1 ^ 2 + (b - b') * (2 * (n.1 * n.2)) + (d - d') * n.2 ^ 2 := by
    simp only [normalIn]
    ring
  rw [e]
  have x1 : |(a - a') * n.1 ^ 2| ≤ ε * n.1 ^ 2 := by
    rw [abs_mul, abs_of_nonneg (sq_nonneg n.1)]
    exact mul_le_mul_of_nonneg_right ha (sq_nonneg _)
  have x2 : |(b - b') * (2 * (n.1 * n.2))| ≤ ε := by
    rw [abs_mul, abs_mul, abs_two]
    calc _ ≤ |b - b'| * 1 := mul_le_mul_of_nonneg_left hu (abs_nonneg _)
      _ ≤ ε := by rw [mul_one]; exact hb
  have x3 : |(d - d') * n.2 ^ 2| ≤ ε * n.2 ^ 2 := by
    rw [abs_mul, abs_of_nonneg (sq_nonneg n.2)]
    exact mul_le_mul_of_nonneg_right hd (sq_nonneg _)
  have t1 := abs_add_le ((a - a') * n.1 ^ 2 + (b - b') * (2 * (n.1 * n.2))) ((d - d') * n.2 ^ 2)
  have t2 := abs_add_le ((a - a') * n.1 ^ 2) ((b - b') * (2 * (n.1 * n.2)))
  simp only [Unit2] at hn
  have : ε * n.1 ^ 2 + ε * n.2 ^ 2 = ε := by rw [← mul_add, hn, mul_one]
  linarith

/-- C175.  Away from the shortcuts the two values returned by `eigvals` are the largest and the smallest normal component over all
directions. -/
theorem C175_extremes (hs : SqrtFn sq) (ht : 0 < tol) (h1 : tol ≤ maxAbs a b d) (h2 : tol * maxAbs a b d ≤ |b|) :
    IsPrincipal a b d (max (eigvals sq a b b d tol).eig1 (eigvals sq a b b d tol).eig2)
      (min (eigvals sq a b b d tol).eig1 (eigvals sq a b b d tol).eig2) := by
  obtain ⟨i1, i2⟩ := C79_invariants hs ht h1 h2
  exact principal_of hs (by rw [max_add_min, i1]) (by rw [max_mul_min, i2]) min_le_max

/-- C175.  Whatever the branch taken, the values returned by `eigvals` are within `tol` times the largest entry (or within `2 tol` if all
entries are below `tol`) of the extreme normal components. -/
theorem C175_accuracy (hs : SqrtFn sq) (ht : 0 < tol) (h : IsPrincipal a b d p q) :
    |max (eigvals sq a b b d tol).eig1 (eigvals sq a b b d tol).eig2 - p| ≤ tol * max 2 (maxAbs a b d) ∧
    |min (eigvals sq a b b d tol).eig1 (eigvals sq a b b d tol).eig2 - q| ≤ tol * max 2 (maxAbs a b d) := by
  have hm := maxAbs_nonneg a b d
  have hmax : 0 ≤ tol * max 2 (maxAbs a b d) := mul_nonneg ht.le (hm.trans (le_max_right _ _))
  rcases lt_or_ge (maxAbs a b d) tol with h1 | h1
  · rw [C79_null sq h1]
    have z : IsPrincipal (0 : K) 0 0 0 0 := principal_of hs (by ring) (by ring) le_rfl
    have ea : |0 - a| ≤ maxAbs a b d := by rw [zero_sub, abs_neg]; exact le_max_of_le_left (le_max_left _ _)
    have eb : |0 - b| ≤ maxAbs a b d := by rw [zero_sub, abs_neg]; exact le_max_of_le_left (le_max_right _ _)
    have ed : |0 - d| ≤ maxAbs a b d := by rw [zero_sub, abs_neg]; exact le_max_right _ _
    obtain ⟨g1, g2⟩ := principal_lipschitz ea eb ed z h
    have : tol * 2 ≤ tol * max 2 (maxAbs a b d) := mul_le_mul_of_nonneg_left (le_max_left _ _) ht.le
    simp only [max_self, min_self]
    exact ⟨by linarith, by linarith⟩
  · rcases lt_or_ge |b| (tol * maxAbs a b d) with h2 | h2
    · have hv : IsPrincipal a 0 d (max (eigvals sq a b b d tol).eig1 (eigvals sq a b b d tol).eig2)
          (min (eigvals sq a b b d tol).eig1 (eigvals sq a b b d tol).eig2) := by
        have e : eigvals sq a b b d tol = eigSwap ⟨a, d, some (1, 0), some (0, 1)⟩ := by
          have hpos : 0 < maxAbs a b d := ht.trans_le h1
          unfold eigvals
          dsimp only
          rw [mx_eq, if_neg (not_lt.2 h1), if_pos ⟨hpos.ne', (div_lt_iff₀ hpos).2 h2⟩]
        rw [e]
        obtain ⟨-, hc | hc⟩ := eigSwap_cases (K := K) ⟨a, d, some (1, 0), some (0, 1)⟩ <;> rw [hc]
        · exact principal_of hs (by rw [max_add_min]) (by rw [max_mul_min]; ring) min_le_max
        · exact principal_of hs (by rw [max_add_min]; exact add_comm _ _) (by rw [max_mul_min]; ring) min_le_max
      obtain ⟨g1, g2⟩ := principal_close (ε := |b|) (fun n hn => by
        have e : normalIn a 0 d n - normalIn a b d n = -b * (2 * (n.1 * n.2)) := by
          simp only [normalIn]
          ring
        rw [e, abs_mul, abs_neg, abs_mul, abs_two]
        calc _ ≤ |b| * 1 := mul_le_mul_of_nonneg_left (unit_cross hn) (abs_nonneg _)
          _ = |b| := mul_one _) hv h
      have : tol * maxAbs a b d ≤ tol * max 2 (maxAbs a b d) := mul_le_mul_of_nonneg_left (le_max_right _ _) ht.le
      exact ⟨by linarith, by linarith⟩
    · obtain ⟨g1, g2⟩ := principal_unique (C175_extremes hs ht h1 h2) h
      rw [g1, g2, sub_self, sub_self, abs_zero]
      exact ⟨hmax, hmax⟩

/-- C175.  Changes of the entries by at most `ε` change the returned values (taken as largest and smallest) by at most `2 ε`, up to the
tolerance. -/
theorem C175_stable (hs : SqrtFn sq) (ht : 0 < tol) {ε : K} (ha : |a - a'| ≤ ε) (hb : |b - b'| ≤ ε) (hd : |d - d'| ≤ ε) :
    |max (eigvals sq a b b d tol).eig1 (eigvals sq a b b d tol).eig2 - max (eigvals sq a' b' b' d' tol).eig1 (eigvals sq a' b' b' d' tol).eig2| ≤
      2 * ε + tol * (max 2 (maxAbs a b d) + max 2 (maxAbs a' b' d')) ∧
    |min (eigvals sq a b b d tol).eig1 (eigvals sq a b b d tol).eig2 - min (eigvals sq a' b' b' d' tol).eig1 (eigvals sq a' b' b' d' tol).eig2| ≤
      2 * ε + tol * (max 2 (maxAbs a b d) + max 2 (maxAbs a' b' d')) := by
  obtain ⟨p, q, h, -⟩ := principal_exists hs a b d
  obtain ⟨p', q', h', -⟩ := principal_exists hs a' b' d'
  obtain ⟨l1, l2⟩ := principal_lipschitz ha hb hd h h'
  obtain ⟨g1, g2⟩ := C175_accuracy hs ht h
  obtain ⟨k1, k2⟩ := C175_accuracy hs ht h'
  rw [abs_le] at l1 l2 g1 g2 k1 k2
  constructor <;> rw [abs_le] <;> constructor <;> linarith

/-- C175.  In axes turned or reflected by any orthogonal matrix the returned values (taken as largest and smallest) are the same up to the
tolerance. -/
theorem C175_axes (hs : SqrtFn sq) (ht : 0 < tol) {c s : K} (hcs : c ^ 2 + s ^ 2 = 1)
    (ha : a' = c ^ 2 * a - 2 * (c * s) * b + s ^ 2 * d) (hd : d' = s ^ 2 * a + 2 * (c * s) * b + c ^ 2 * d)
    (hb : b' = c * s * (a - d) + (c ^ 2 - s ^ 2) * b ∨ b' = -(c * s * (a - d) + (c ^ 2 - s ^ 2) * b)) :
    |max (eigvals sq a b b d tol).eig1 (eigvals sq a b b d tol).eig2 - max (eigvals sq a' b' b' d' tol).eig1 (eigvals sq a' b' b' d' tol).eig2| ≤
      tol * (max 2 (maxAbs a b d) + max 2 (maxAbs a' b' d')) ∧
    |min (eigvals sq a b b d tol).eig1 (eigvals sq a b b d tol).eig2 - min (eigvals sq a' b' b' d' tol).eig1 (eigvals sq a' b' b' d' tol).eig2| ≤
      tol * (max 2 (maxAbs a b d) + max 2 (maxAbs a' b' d')) := by
  obtain ⟨p, q, h, h3, h4, h5⟩ := principal_exists hs a b d
  have h' : IsPrincipal a' b' d' p q := by
    have hb2 : b' ^ 2 = (c * s * (a - d) + (c ^ 2 - s ^ 2) * b) ^ 2 := by rcases hb with rfl | rfl <;> ring
    refine principal_of hs ?_ ?_ h3
    · rw [h4, ha, hd]
      linear_combination -(a + d) * hcs
    · rw [h5, hb2, ha, hd]
      linear_combination -(a * d - b ^ 2) * (c ^ 2 + s ^ 2 + 1) * hcs
  obtain ⟨g1, g2⟩ := C175_accuracy hs ht h
  obtain ⟨k1, k2⟩ := C175_accuracy hs ht h'
  rw [abs_le] at g1 g2 k1 k2
  constructor <;> rw [abs_le] <;> constructor <;> linarith

/-- C175.  Half the distance of the two values is the largest shear over all directions. -/
theorem C175_shear (hs : SqrtFn sq) (ht : 0 < tol) (h1 : tol ≤ maxAbs a b d) (h2 : tol * maxAbs a b d ≤ |b|) :
    IsGreatest {x | ∃ n, Unit2 n ∧ x = shearIn a b d n} (|(eigvals sq a b b d tol).eig1 - (eigvals sq a b b d tol).eig2| / 2) := by
  obtain ⟨i1, i2⟩ := C79_invariants hs ht h1 h2
  have hp := C175_extremes hs ht h1 h2
  generalize (eigvals sq a b b d tol).eig1 = e at i1 i2 hp ⊢
  generalize (eigvals sq a b b d tol).eig2 = f at i1 i2 hp ⊢
  have hr : |e - f| = max e f - min e f := max_sub_min_eq_abs' e f ▸ rfl
  have hsum := max_add_min e f
  obtain ⟨⟨n, hn, en⟩, -⟩ := hp.1
  constructor
  · obtain ⟨-, hs2⟩ := hs 2 (by norm_num)
    have hz : sq 2 ≠ 0 := by
      intro hz
      rw [hz] at hs2
      norm_num at hs2
    generalize sq 2 = r at hs2 hz
    refine ⟨((n.1 + n.2) / r, (n.2 - n.1) / r), ?_, ?_⟩
    · simp only [Unit2] at hn ⊢
      field_simp
      linear_combination 2 * hn - hs2
    · simp only [Unit2, normalIn, shearIn] at hn en ⊢
      field_simp
      rw [hr]
      have e1 : max e f - min e f = 2 * max e f - (a + d) := by linarith
      rw [e1, en]
      linear_combination (2 * (a * n.1 ^ 2 + 2 * b * (n.1 * n.2) + d * n.2 ^ 2) - (a + d)) * hs2 + 2 * (a + d) * hn
  · rintro x ⟨m, hm, rfl⟩
    simp only [Unit2] at hm
    have key : shearIn a b d m ^ 2 + (normalIn a b d m - (a + d) / 2) ^ 2 = ((e - f) / 2) ^ 2 := by
      have e1 : ((e - f) / 2) ^ 2 = ((a + d) ^ 2 - 4 * (a * d - b ^ 2)) / 4 := by rw [← i1, ← i2]; ring
      rw [e1]
      have e2 : normalIn a b d m - (a + d) / 2 = (a - d) / 2 * (m.1 ^ 2 - m.2 ^ 2) + 2 * b * (m.1 * m.2) := by
        simp only [normalIn]
        linear_combination (a + d) / 2 * hm
      rw [e2]
      simp only [shearIn]
      linear_combination ((a - d) ^ 2 / 4 + b ^ 2) * (m.1 ^ 2 + m.2 ^ 2 + 1) * hm
    have h4 : shearIn a b d m ^ 2 ≤ (|e - f| / 2) ^ 2 := by
      rw [div_pow, sq_abs, ← div_pow, ← key]
      nlinarith [sq_nonneg (normalIn a b d m - (a + d) / 2)]
    exact le_of_abs_le (abs_le_of_sq_le_sq h4 (by positivity))

/-- C175.  The rows of `principal_dirs`: whatever the row, the values are the extreme normal components up to the tolerance. -/
theorem C175_field (hs : SqrtFn sq) {field : Table K} {out : List (Eig K)} (h : principalDirs sq field = .ok out) {k : ℕ} {xx yy xy : K}
    {rest : List K} (hk : field[k]? = some (xx :: yy :: xy :: rest)) (hp : IsPrincipal xx xy yy p q) :
    ∃ e, out[k]? = some e ∧ |e.eig2| ≤ |e.eig1| ∧ |max e.eig1 e.eig2 - p| ≤ 1e-6 * max 2 (maxAbs xx xy yy) ∧
      |min e.eig1 e.eig2 - q| ≤ 1e-6 * max 2 (maxAbs xx xy yy) := by
  obtain ⟨x, y, z, hx, hy, hz, ho⟩ := (C80_rows h).2 k _ hk
  simp only [List.getElem?_cons_zero, Option.some.injEq, List.getElem?_cons_succ] at hx hy hz
  subst hx hy hz
  refine ⟨_, ho, ?_, C175_accuracy hs (by norm_num) hp⟩
  unfold eigvals
  exact (eigSwap_cases _).1

/-- C175.  Given the nodal strains as `strain_nodes` reports them, with the engineering shear strain `g` in the third column,
`principal_dirs` does not return the principal strains: where it does not take a shortcut its larger value is too large and its smaller one too
small. -/
theorem C175_strains (hs : SqrtFn sq) {ex ey g : K} {v : Eig K} (h : principalRow sq [ex, ey, g] = .ok v) (h1 : 1e-6 ≤ maxAbs ex g ey)
    (h2 : 1e-6 * maxAbs ex g ey ≤ |g|) (hp : IsPrincipal ex (g / 2) ey p q) : p < max v.eig1 v.eig2 ∧ min v.eig1 v.eig2 < q := by
  have e : v = eigvals sq ex g g ey 1e-6 := by
    rw [← eigvals_lower]
    exact (pure_ok.1 h).symm
  have ht : (0 : K) < 1e-6 := by norm_num
  obtain ⟨i1, i2⟩ := C79_invariants hs ht h1 h2
  rw [← e, ← max_add_min] at i1
  rw [← e, ← max_mul_min] at i2
  have hg : 0 < g ^ 2 := by
    have : 0 < |g| := lt_of_lt_of_le (mul_pos ht (lt_of_lt_of_le ht h1)) h2
    have := abs_pos.1 this
    positivity
  obtain ⟨p', q', g1, g2, g3, g4⟩ := principal_exists hs ex (g / 2) ey
  obtain ⟨rfl, rfl⟩ := principal_unique hp g1
  have hle : min v.eig1 v.eig2 ≤ max v.eig1 v.eig2 := min_le_max
  generalize max v.eig1 v.eig2 = P at *
  generalize min v.eig1 v.eig2 = Q at *
  have hw : (P - Q) ^ 2 = (p - q) ^ 2 + 3 * g ^ 2 := by
    have e1 : (P - Q) ^ 2 = (P + Q) ^ 2 - 4 * (P * Q) := by ring
    have e2 : (p - q) ^ 2 = (p + q) ^ 2 - 4 * (p * q) := by ring
    rw [e1, e2, i1, i2, g3, g4]
    ring
  have : p - q < P - Q := by
    by_contra hc
    push Not at hc
    nlinarith
  constructor <;> linarith

/-- C175.  The first value is not a continuous function of the tensor: in pure shear it is the compression, and after the slightest
additional tension in both directions it is the tension. -/
theorem C175_jump (hs : SqrtFn sq) {δ : K} (ht : 0 < tol) (ht1 : tol ≤ 1) (hb : tol ≤ b) (hδ : 0 < δ) (hδb : δ ≤ b) :
    (eigvals sq 0 b b 0 tol).eig1 = -b ∧ (eigvals sq δ b b δ tol).eig1 = b + δ := by
  have hb0 : 0 < b := ht.trans_le hb
  have m0 : maxAbs 0 b (0 : K) = b := by
    unfold maxAbs
    rw [abs_zero, abs_of_pos hb0, max_eq_right hb0.le, max_eq_left hb0.le]
  have m1 : maxAbs δ b δ = b := by
    unfold maxAbs
    rw [abs_of_pos hδ, abs_of_pos hb0, max_eq_right hδb, max_eq_left hδb]
  have hc : tol * b ≤ |b| := by
    rw [abs_of_pos hb0]
    nlinarith
  have two : ∀ x : K, 0.5 * (x + x) = x := fun x => by norm_num; ring
  have root : ∀ x : K, sq ((x + x) ^ 2 - 4 * (x * x - b ^ 2)) = 2 * b := by
    intro x
    have e : (x + x) ^ 2 - 4 * (x * x - b ^ 2) = (2 * b) ^ 2 := by ring
    rw [e]
    obtain ⟨r0, r1⟩ := hs ((2 * b) ^ 2) (by positivity)
    nlinarith
  have val : ∀ x : K, maxAbs x b x = b → ∃ v w, eigvals sq x b b x tol = eigSwap ⟨x - b, x + b, v, w⟩ := by
    intro x hx
    unfold eigvals
    dsimp only
    rw [mx_eq, hx, if_neg (not_lt.2 hb), if_neg (by rintro ⟨-, h⟩; rw [div_lt_iff₀ hb0] at h; exact absurd h (not_lt.2 hc)), root]
    have e1 : (0.5 : K) * (x + x - 2 * b) = x - b := by norm_num; ring
    have e2 : (0.5 : K) * (x + x + 2 * b) = x + b := by norm_num; ring
    rw [e1, e2]
    split
    · exact ⟨_, _, rfl⟩
    · exact ⟨_, _, rfl⟩
  obtain ⟨v, w, e0⟩ := val 0 m0
  obtain ⟨v', w', e1⟩ := val δ m1
  rw [e0, e1]
  constructor
  · unfold eigSwap
    rw [if_neg]
    · ring
    · dsimp only
      rw [zero_sub, abs_neg, zero_add]
      exact lt_irrefl _
  · unfold eigSwap
    rw [if_pos]
    · exact add_comm _ _
    · dsimp only
      rw [abs_of_pos (by linarith : 0 < δ + b), abs_of_nonpos (by linarith : δ - b ≤ 0)]
      linarith

variable {sp de : Sol.Solver K} {dd : Gui.Data K} {ms : List (Member K)}

/-- C175.  For every stable plane model there is a number `c` such that, whatever the solver and the loads, unbalanced forces of at most `ε`
mean principal stresses at the nodes within `c ε`, up to the tolerance, of those computed with exact solutions. -/
theorem C175_solver (hs : SqrtFn sq) (hwf : WellFormed dd) (hms : Members sq dd ms) (hst : Stable dd.cons 2 ms) : ∃ c : K, 0 ≤ c ∧
    ∀ (sp de sp' de' : Sol.Solver K) (L : Table K) (ε : K) res E S res' E' S', SolverOk sp' → 0 ≤ ε →
      Gui.solidsAutoStrains sq sp de { dd with loads := L } false = .ok (res, E, S) →
      Gui.solidsAutoStrains sq sp' de' { dd with loads := L } false = .ok (res', E', S') →
      NearEquilibrium dd.cons 2 L ms ε (fieldOf res.disp) → ∀ (k : Fin dd.nodes.length) (σ σ' : Fin 3 → K) (v v' : Eig K),
        (∀ i, S k i = some (σ i)) → (∀ i, S' k i = some (σ' i)) →
        principalRow sq [σ 0, σ 1, σ 2] = .ok v → principalRow sq [σ' 0, σ' 1, σ' 2] = .ok v' →
        |max v.eig1 v.eig2 - max v'.eig1 v'.eig2| ≤ c * ε + 1e-6 * (max 2 (maxAbs (σ 0) (σ 2) (σ 1)) + max 2 (maxAbs (σ' 0) (σ' 2) (σ' 1))) ∧
        |min v.eig1 v.eig2 - min v'.eig1 v'.eig2| ≤ c * ε + 1e-6 * (max 2 (maxAbs (σ 0) (σ 2) (σ 1)) + max 2 (maxAbs (σ' 0) (σ' 2) (σ' 1))) := by
  obtain ⟨c, hc, hb⟩ := C172_solver hwf hms hst
  refine ⟨2 * c, by positivity, ?_⟩
  intro sp de sp' de' L ε res E S res' E' S' hsp hε h h' hN k σ σ' v v' hσ hσ' hv hv'
  have near : ∀ i, |σ i - σ' i| ≤ c * ε := by
    intro i
    rcases hb sp de sp' de' L ε res E S res' E' S' hsp hε h h' hN k i with ⟨-, -, h0, -⟩ | ⟨x, x', y, y', -, -, -, h1, h2, h3⟩
    · rw [hσ i] at h0
      cases h0
    · rw [hσ i, Option.some.injEq] at h1
      rw [hσ' i, Option.some.injEq] at h2
      subst h1 h2
      exact h3
  have e : v = eigvals sq (σ 0) (σ 2) (σ 2) (σ 1) 1e-6 := by
    rw [← eigvals_lower]
    exact (pure_ok.1 hv).symm
  have e' : v' = eigvals sq (σ' 0) (σ' 2) (σ' 2) (σ' 1) 1e-6 := by
    rw [← eigvals_lower]
    exact (pure_ok.1 hv').symm
  rw [e, e', mul_assoc]
  exact C175_stable hs (by norm_num) (near 0) (near 2) (near 1)

end

/-! ## Cases -/

section demo

/-- Case for C175: for the tensor `[[3, 2], [2, 0]]` the largest normal component is 4, the smallest is -1 and the largest shear 5/2. -/
example : IsPrincipal (3 : ℝ) 2 0 4 (-1) ∧ IsGreatest {x : ℝ | ∃ n, Unit2 n ∧ x = shearIn 3 2 0 n} (5 / 2) := by
  have h1 : (1e-6 : ℝ) ≤ maxAbs 3 2 0 := by norm_num [maxAbs]
  have h2 : (1e-6 : ℝ) * maxAbs 3 2 0 ≤ |2| := by norm_num [maxAbs]
  have hp : IsPrincipal (3 : ℝ) 2 0 4 (-1) := principal_of sqrtFn_real (by norm_num) (by norm_num) (by norm_num)
  refine ⟨hp, ?_⟩
  have hx := C175_extremes sqrtFn_real (by norm_num) h1 h2
  have hs := C175_shear sqrtFn_real (by norm_num) h1 h2
  obtain ⟨e1, e2⟩ := principal_unique hx hp
  have : |(eigvals Real.sqrt 3 2 2 0 (1e-6 : ℝ)).eig1 - (eigvals Real.sqrt 3 2 2 0 (1e-6 : ℝ)).eig2| = 5 := by
    rw [← max_sub_min_eq_abs', e1, e2]
    norm_num
  rw [this] at hs
  exact hs

/-- Case for C175: a row which takes the diagonal shortcut. -/
example : ∃ out, ∃ (e : Eig ℝ) (p q : ℝ), principalDirs Real.sqrt [[1, 2, (1e-7 : ℝ)]] = .ok out ∧ out[0]? = some e ∧ IsPrincipal (1 : ℝ) 1e-7 2 p q ∧
    |max e.eig1 e.eig2 - p| ≤ 2e-6 ∧ |min e.eig1 e.eig2 - q| ≤ 2e-6 := by
  obtain ⟨out, h⟩ := C80_total Real.sqrt (field := [[1, 2, (1e-7 : ℝ)]]) (by simp)
  obtain ⟨p, q, hp, -⟩ := principal_exists sqrtFn_real (1 : ℝ) 1e-7 2
  obtain ⟨e, h1, -, h2, h3⟩ := C175_field sqrtFn_real h (k := 0) rfl hp
  have hm : max 2 (maxAbs (1 : ℝ) 1e-7 2) = 2 := by norm_num [maxAbs, abs_of_pos]
  rw [hm] at h2 h3
  exact ⟨out, e, p, q, h, h1, hp, h2.trans (by norm_num), h3.trans (by norm_num)⟩

/-- Case for C175: for a pure shear strain `g = 1` the principal strains are 1/2 and -1/2; the values returned are larger. -/
example : ∃ v, principalRow Real.sqrt [0, 0, (1 : ℝ)] = .ok v ∧ IsPrincipal (0 : ℝ) (1 / 2) 0 (1 / 2) (-(1 / 2)) ∧
    1 / 2 < max v.eig1 v.eig2 ∧ min v.eig1 v.eig2 < -(1 / 2) := by
  have hp : IsPrincipal (0 : ℝ) (1 / 2) 0 (1 / 2) (-(1 / 2)) := principal_of sqrtFn_real (by norm_num) (by norm_num) (by norm_num)
  refine ⟨_, rfl, hp, ?_⟩
  exact C175_strains sqrtFn_real rfl (by norm_num [maxAbs]) (by norm_num [maxAbs]) hp

/-- Case for C175: the jump from -1 to 1.001. -/
example : (eigvals Real.sqrt 0 1 1 0 (1e-6 : ℝ)).eig1 = -1 ∧ (eigvals Real.sqrt 0.001 1 1 0.001 (1e-6 : ℝ)).eig1 = 1 + 0.001 :=
  C175_jump sqrtFn_real (by norm_num) (by norm_num) (by norm_num) (by norm_num) (by norm_num)

/-- Case for C175: the tensor `[[3, 2], [2, 0]]` in axes turned by the angle with cosine 3/5. -/
example : |max (eigvals Real.sqrt 3 2 2 0 (1e-6 : ℝ)).eig1 (eigvals Real.sqrt 3 2 2 0 (1e-6 : ℝ)).eig2 -
    max (eigvals Real.sqrt (-21 / 25) (22 / 25) (22 / 25) (96 / 25) (1e-6 : ℝ)).eig1
      (eigvals Real.sqrt (-21 / 25) (22 / 25) (22 / 25) (96 / 25) (1e-6 : ℝ)).eig2| ≤ 1e-5 := by
  have := (C175_axes (a := 3) (b := 2) (d := 0) (a' := -21 / 25) (b' := 22 / 25) (d' := 96 / 25) sqrtFn_real (tol := (1e-6 : ℝ)) (by norm_num)
    (c := 3 / 5) (s := 4 / 5) (by norm_num) (by norm_num) (by norm_num) (.inl (by norm_num))).1
  refine this.trans ?_
  norm_num [maxAbs, abs_of_pos, abs_of_neg]

/-- Case for C175: how the principal stresses of the plate in tension depend on the solver. -/
example : ∃ c : ℝ, 0 ≤ c ∧ ∀ (sp de : Sol.Solver ℝ) (ε : ℝ) res E S res' E' S', 0 ≤ ε →
    Gui.solidsAutoStrains Real.sqrt sp de (tensionPlate (4 : ℝ) 2 1000 (1 / 4) 10 2 1) false = .ok (res, E, S) →
    Gui.solidsAutoStrains Real.sqrt cramerR cramerR (tensionPlate (4 : ℝ) 2 1000 (1 / 4) 10 2 1) false = .ok (res', E', S') →
    ∀ ms, Members Real.sqrt (tensionPlate (4 : ℝ) 2 1000 (1 / 4) 10 2 1) ms →
    NearEquilibrium (tensionPlate (4 : ℝ) 2 1000 (1 / 4) 10 2 1).cons 2 (tensionPlate (4 : ℝ) 2 1000 (1 / 4) 10 2 1).loads ms ε (fieldOf res.disp) →
    ∀ k (σ σ' : Fin 3 → ℝ) (v v' : Eig ℝ), (∀ i, S k i = some (σ i)) → (∀ i, S' k i = some (σ' i)) →
      principalRow Real.sqrt [σ 0, σ 1, σ 2] = .ok v → principalRow Real.sqrt [σ' 0, σ' 1, σ' 2] = .ok v' →
      |max v.eig1 v.eig2 - max v'.eig1 v'.eig2| ≤ c * ε + 1e-6 * (max 2 (maxAbs (σ 0) (σ 2) (σ 1)) + max 2 (maxAbs (σ' 0) (σ' 2) (σ' 1))) := by
  obtain ⟨ms, hm⟩ := C97_mesh (sq := Real.sqrt) (plate_grid (4 : ℝ) 2 1000 (1 / 4) 10 2 1) (by norm_num) (by norm_num) (by norm_num) (by norm_num)
    (by simp)
  have hst := (C95_stable_iff sqrtFn_real hm (plate_wf _ _ _ _ _ _ _)).2 (plate_supported (by omega) (by norm_num))
  obtain ⟨c, hc, hall⟩ := C175_solver sqrtFn_real (plate_wf _ _ _ _ _ _ _) hm.members hst
  refine ⟨c, hc, fun sp de ε res E S res' E' S' hε h h' ms' hms' hN k σ σ' v v' g1 g2 g3 g4 => ?_⟩
  obtain rfl := members_unique hm.members hms'
  exact (hall sp de cramerR cramerR _ ε res E S res' E' S' cramerR_ok hε h h' hN k σ σ' v v' g1 g2 g3 g4).1

end demo

end SolidsPy
