import Verif.Proofs.Numbering
import Mathlib.Data.Set.Card

/-! # C01, C02, C03: equation numbering (`eqcounter`) -/

set_option linter.unusedSectionVars false

namespace SolidsPy
open Spec Assem

variable {K : Type} [Field K] [LinearOrder K] [IsStrictOrderedRing K] [FloorRing K]

/-- C01. Every free degree of freedom gets a number below `neq`, and every number below `neq` is
given to exactly one free degree of freedom. -/
theorem C01_numbering_bijective {cons : Table K} {nd neq : ℕ} {bc : List (List ℤ)}
    (h : eqcounter cons nd = .ok (neq, bc)) :
    (∀ i j, Free cons nd i j → ∃ k : ℕ, k < neq ∧ entry bc i j = some (k : ℤ)) ∧
    (∀ k < neq, ∃ i j, Free cons nd i j ∧ entry bc i j = some (k : ℤ) ∧
      ∀ i' j', Free cons nd i' j' → entry bc i' j' = some (k : ℤ) → i' = i ∧ j' = j) := by
  constructor
  · intro i j hf
    obtain ⟨h1, h2⟩ := free_entry h hf
    exact ⟨_, h2, h1⟩
  · intro k hk
    obtain ⟨i, j, hf, rfl⟩ := exists_free h hk
    refine ⟨i, j, hf, (free_entry h hf).1, fun i' j' hf' he => ?_⟩
    rw [(free_entry h hf').1] at he
    exact rank_inj hf' hf (by simpa using he)

/-- C01. Numbers increase in row-major order. -/
theorem C01_numbering_row_major {cons : Table K} {nd neq : ℕ} {bc : List (List ℤ)}
    (h : eqcounter cons nd = .ok (neq, bc)) {i j i' j' : ℕ} {a b : ℤ}
    (hf : Free cons nd i j) (hf' : Free cons nd i' j') (hb : Before i j i' j')
    (ha : entry bc i j = some a) (hb' : entry bc i' j' = some b) : a < b := by
  rw [(free_entry h hf).1, Option.some.injEq] at ha
  rw [(free_entry h hf').1, Option.some.injEq] at hb'
  rw [← ha, ← hb']
  exact_mod_cast rank_lt hf hb

/-- C01. `neq` is the number of free degrees of freedom. -/
theorem C01_neq_is_free_count {cons : Table K} {nd neq : ℕ} {bc : List (List ℤ)}
    (h : eqcounter cons nd = .ok (neq, bc)) :
    neq = Set.ncard {p : ℕ × ℕ | Free cons nd p.1 p.2} := by
  have hbij : Set.BijOn (fun p : ℕ × ℕ => rank cons nd p.1 p.2)
      {p : ℕ × ℕ | Free cons nd p.1 p.2} (Set.Iio neq) := by
    refine ⟨fun p hp => (free_entry h hp).2, fun p hp q hq he => ?_, fun k hk => ?_⟩
    · exact Prod.ext_iff.2 (rank_inj hp hq he)
    · obtain ⟨i, j, hf, hr⟩ := exists_free h hk
      exact ⟨(i, j), hf, hr⟩
  rw [← hbij.injOn.ncard_image, hbij.image_eq]
  have : (Set.Iio neq) = ((Finset.range neq : Finset ℕ) : Set ℕ) := by
    ext; simp
  rw [this, Set.ncard_coe_finset, Finset.card_range]

/-- Case for C01: three nodes, one fixed in x, one fixed entirely. -/
example : eqcounter ([[0, 0], [-1, 0], [-1, -1], [0, 0]] : Table ℚ) 2 =
    .ok (5, [[0, 1], [-1, 2], [-1, -1], [3, 4]]) := by decide +kernel

/-- C02. Entries with an integer code other than 0, and all columns past `ndof_node`, are kept
(as integers), and the array keeps its shape. -/
theorem C02_constrained_entries_kept {cons : Table K} {nd neq : ℕ} {bc : List (List ℤ)}
    (h : eqcounter cons nd = .ok (neq, bc)) :
    bc.map List.length = cons.map List.length ∧
    ∀ i j (z : ℤ), entry cons i j = some (z : K) → (z ≠ 0 ∨ nd ≤ j) → entry bc i j = some z := by
  refine ⟨(eqcounter_shape h).1, fun i j z hx hz => ?_⟩
  rw [eqcounter_entry h hx, pyTrunc_intCast, if_neg]
  rintro ⟨h1, h2⟩
  rcases hz with hz | hz
  · exact hz h2
  · omega

/-- C02. With fractional codes: an entry outside (-1, 1), or past `ndof_node`, becomes its integer
part (rounded towards zero) and nothing else. -/
theorem C02_fractional_entries_truncated {cons : Table K} {nd neq : ℕ} {bc : List (List ℤ)}
    (h : eqcounter cons nd = .ok (neq, bc)) {i j : ℕ} {x : K} (hx : entry cons i j = some x)
    (hc : x ≤ -1 ∨ 1 ≤ x ∨ nd ≤ j) :
    ∃ z : ℤ, entry bc i j = some z ∧ (0 ≤ x → (z : K) ≤ x ∧ x < z + 1) ∧
      (x ≤ 0 → (z : K) - 1 < x ∧ x ≤ z) := by
  refine ⟨pyTrunc x, ?_, ?_, ?_⟩
  · rw [eqcounter_entry h hx, if_neg]
    rintro ⟨h1, h2⟩
    rw [pyTrunc_eq_zero] at h2
    rcases hc with hc | hc | hc
    · linarith
    · linarith
    · omega
  · intro h0
    unfold pyTrunc
    rw [if_pos h0]
    exact ⟨Int.floor_le x, Int.lt_floor_add_one x⟩
  · intro h0
    unfold pyTrunc
    split
    · have : x = 0 := by linarith
      subst this
      simp
    · exact ⟨by linarith [Int.ceil_lt_add_one x], Int.le_ceil x⟩

/-- C02. `eqcounter` succeeds exactly when every row has at least `ndof_node` columns, and otherwise
raises `IndexError`. -/
theorem C02_eqcounter_success (cons : Table K) (nd : ℕ) :
    ((∀ r ∈ cons, nd ≤ r.length) → ∃ r, eqcounter cons nd = .ok r) ∧
    ((∃ r ∈ cons, r.length < nd) → eqcounter cons nd = .error .indexError) := by
  constructor
  · intro h
    obtain ⟨⟨a, b⟩, hr⟩ := numberRows_exists (nd := nd) (t := truncTab cons) (n := 0) (by
      intro r hr
      simp only [truncTab, List.mem_map] at hr
      obtain ⟨r', hr', rfl⟩ := hr
      simpa using h r' hr')
    exact ⟨(b, a), by simp [eqcounter, hr, pure, Except.pure]⟩
  · rintro ⟨r, hr, hl⟩
    have := numberRows_error (nd := nd) (t := truncTab cons) (n := 0)
      ⟨r.map pyTrunc, List.mem_map_of_mem hr, by simpa using hl⟩
    simp [eqcounter, this]

/-- Cases for C02: extra column kept, too few columns rejected. -/
example : eqcounter ([[0, 0, 0], [-1, 0, -1]] : Table ℚ) 2 = .ok (3, [[0, 1, 0], [-1, 2, -1]]) ∧
    eqcounter ([[0], [0]] : Table ℚ) 2 = .error .indexError := by decide +kernel

/-- C03 (true part). A code at most -1 never becomes an equation number. -/
theorem C03_negative_codes_never_numbered_partial {cons : Table K} {nd neq : ℕ} {bc : List (List ℤ)}
    (h : eqcounter cons nd = .ok (neq, bc)) {i j : ℕ} {x : K} (hx : entry cons i j = some x)
    (hneg : x ≤ -1) :
    ∃ z, entry bc i j = some z ∧ z < 0 ∧
      ∀ i' j', Free cons nd i' j' → entry bc i' j' ≠ some z := by
  have hz : pyTrunc x < 0 := by
    unfold pyTrunc
    rw [if_neg (by linarith [zero_lt_one (α := K)])]
    have : (⌈x⌉ : ℤ) ≤ -1 := Int.ceil_le.2 (by simpa using hneg)
    omega
  refine ⟨pyTrunc x, ?_, hz, fun i' j' hf he => ?_⟩
  · rw [eqcounter_entry h hx, if_neg (by omega)]
  · rw [(free_entry h hf).1, Option.some.injEq] at he
    omega

/-- C03 (violation, for every array). A positive code whose integer part is below `neq` ends up equal
to the equation number of a free degree of freedom. -/
theorem C03_positive_code_aliases {cons : Table K} {nd neq : ℕ} {bc : List (List ℤ)}
    (h : eqcounter cons nd = .ok (neq, bc)) {i j : ℕ} {x : K} (hx : entry cons i j = some x)
    (hpos : 1 ≤ x) (hlt : x < neq) :
    ∃ z i' j', entry bc i j = some z ∧ Free cons nd i' j' ∧ entry bc i' j' = some z ∧
      ¬ Free cons nd i j := by
  have h0 : (0 : K) ≤ x := by linarith [zero_lt_one (α := K)]
  have hz : pyTrunc x = ⌊x⌋ := by unfold pyTrunc; rw [if_pos h0]
  have hf0 : 0 ≤ ⌊x⌋ := Int.floor_nonneg.2 h0
  have hf1 : 1 ≤ ⌊x⌋ := Int.le_floor.2 (by simpa using hpos)
  have hf2 : ⌊x⌋ < (neq : ℤ) := Int.floor_lt.2 (by simpa using hlt)
  obtain ⟨i', j', hf, hr⟩ := exists_free h (k := ⌊x⌋.toNat) (by omega)
  refine ⟨⌊x⌋, i', j', ?_, hf, ?_, ?_⟩
  · rw [eqcounter_entry h hx, if_neg (by rw [hz]; omega), hz]
  · rw [(free_entry h hf).1, hr]
    congr 1
    omega
  · rintro ⟨_, y, hy, hy1, hy2⟩
    rw [hx, Option.some.injEq] at hy
    subst hy
    linarith

/-- C03 (negation of the intended property). There is a constraint array in which a constrained
degree of freedom receives the equation number of a free one. -/
theorem C03_fails_for_positive_codes :
    ¬ ∀ (cons : Table ℚ) (nd neq : ℕ) (bc : List (List ℤ)), eqcounter cons nd = .ok (neq, bc) →
      ∀ i j i' j' z, j < nd → (∃ x, entry cons i j = some x) → ¬ Free cons nd i j →
        Free cons nd i' j' → entry bc i j = some z → entry bc i' j' ≠ some z := by
  intro H
  have hr : eqcounter ([[0, 0], [1, 0]] : Table ℚ) 2 = .ok (3, [[0, 1], [1, 2]]) := by
    decide +kernel
  refine H _ 2 3 _ hr 1 0 0 1 1 (by decide) ⟨1, rfl⟩ ?_ ?_ rfl rfl
  · rintro ⟨_, x, hx, _, h2⟩
    have : (1 : ℚ) = x := by simpa [entry] using hx
    subst this
    exact absurd h2 (by norm_num)
  · exact ⟨by decide, 0, rfl, by norm_num, by norm_num⟩

/-- Case for C03 (true part): codes -1 and -2 next to free entries. -/
example : eqcounter ([[-1, 0], [-2, 0]] : Table ℚ) 2 = .ok (2, [[-1, 0], [-2, 1]]) := by
  decide +kernel

end SolidsPy
