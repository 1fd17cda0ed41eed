import Verif.Model.Assem
import Verif.Proofs.Py
import Verif.Spec.Numbering

/-! Lemmas about `eqcounter`. -/

set_option linter.unusedSectionVars false

namespace SolidsPy
namespace Assem
open Spec

/-- Number of zeros. -/
def zeros (l : List ℤ) : ℕ := l.countP fun x => x = 0

@[simp] theorem zeros_nil : zeros [] = 0 := rfl

theorem zeros_cons (x : ℤ) (l : List ℤ) : zeros (x :: l) = (if x = 0 then 1 else 0) + zeros l := by
  unfold zeros
  by_cases h : x = 0 <;> simp [h, add_comm]

theorem numberRow_spec {nd : ℕ} {row row' : List ℤ} {n n' : ℕ}
    (h : numberRow nd row n = .ok (row', n')) :
    nd ≤ row.length ∧ row'.length = row.length ∧ n' = n + zeros (row.take nd) ∧
    ∀ j x, row[j]? = some x →
      row'[j]? = some (if j < nd ∧ x = 0 then ((n + zeros (row.take j) : ℕ) : ℤ) else x) := by
  induction nd generalizing row row' n n' with
  | zero =>
    simp only [numberRow, Except.ok.injEq, Prod.mk.injEq] at h
    obtain ⟨rfl, rfl⟩ := h
    simp
  | succ nd ih =>
    cases row with
    | nil => simp [numberRow] at h
    | cons x xs =>
      simp only [numberRow] at h
      by_cases hx : x = 0
      · rw [if_pos hx, bind_ok] at h
        obtain ⟨⟨ys, m⟩, hy, h⟩ := h
        rw [pure_ok, Prod.mk.injEq] at h
        obtain ⟨rfl, rfl⟩ := h
        obtain ⟨h1, h2, h3, h4⟩ := ih hy
        refine ⟨by simpa using h1, by simp [h2], ?_, ?_⟩
        · simp only [List.take_succ_cons, zeros_cons, hx, if_true, h3]
          omega
        · intro j y hj
          cases j with
          | zero =>
            simp only [List.getElem?_cons_zero, Option.some.injEq] at hj
            subst hj
            simp [hx]
          | succ j =>
            rw [List.getElem?_cons_succ] at hj ⊢
            rw [h4 j y hj]
            simp only [List.take_succ_cons, zeros_cons, hx, if_true,
              Nat.add_lt_add_iff_right]
            congr 1
            split
            · push_cast; ring
            · rfl
      · rw [if_neg hx, bind_ok] at h
        obtain ⟨⟨ys, m⟩, hy, h⟩ := h
        rw [pure_ok, Prod.mk.injEq] at h
        obtain ⟨rfl, rfl⟩ := h
        obtain ⟨h1, h2, h3, h4⟩ := ih hy
        refine ⟨by simpa using h1, by simp [h2], ?_, ?_⟩
        · simp [List.take_succ_cons, zeros_cons, hx, h3]
        · intro j y hj
          cases j with
          | zero =>
            simp only [List.getElem?_cons_zero, Option.some.injEq] at hj
            subst hj
            simp [hx]
          | succ j =>
            rw [List.getElem?_cons_succ] at hj ⊢
            rw [h4 j y hj]
            simp [List.take_succ_cons, zeros_cons, hx]

theorem numberRow_exists {nd : ℕ} {row : List ℤ} {n : ℕ} (h : nd ≤ row.length) :
    ∃ r, numberRow nd row n = .ok r := by
  induction nd generalizing row n with
  | zero => exact ⟨_, rfl⟩
  | succ nd ih =>
    cases row with
    | nil => simp at h
    | cons x xs =>
      simp only [numberRow]
      have h' : nd ≤ xs.length := by simpa using h
      split
      · obtain ⟨⟨a, b⟩, hr⟩ := ih (n := n + 1) h'
        rw [hr]
        exact ⟨_, rfl⟩
      · obtain ⟨⟨a, b⟩, hr⟩ := ih (n := n) h'
        rw [hr]
        exact ⟨_, rfl⟩

theorem numberRow_error {nd : ℕ} {row : List ℤ} {n : ℕ} (h : row.length < nd) :
    numberRow nd row n = .error .indexError := by
  induction nd generalizing row n with
  | zero => simp at h
  | succ nd ih =>
    cases row with
    | nil => rfl
    | cons x xs =>
      simp only [numberRow]
      have h' : xs.length < nd := by simpa using h
      split <;> rw [ih h'] <;> rfl

/-- Zeros in the first `nd` columns of all rows. -/
def zerosTab (nd : ℕ) (t : List (List ℤ)) : ℕ := (t.map fun r => zeros (r.take nd)).sum

@[simp] theorem zerosTab_nil (nd : ℕ) : zerosTab nd [] = 0 := rfl

@[simp] theorem zerosTab_cons (nd : ℕ) (r : List ℤ) (t : List (List ℤ)) :
    zerosTab nd (r :: t) = zeros (r.take nd) + zerosTab nd t := by simp [zerosTab]

theorem numberRows_spec {nd : ℕ} {t t' : List (List ℤ)} {n n' : ℕ}
    (h : numberRows nd t n = .ok (t', n')) :
    (∀ r ∈ t, nd ≤ r.length) ∧ t'.map List.length = t.map List.length ∧
    n' = n + zerosTab nd t ∧
    ∀ i row, t[i]? = some row → ∃ row', t'[i]? = some row' ∧ ∀ j x, row[j]? = some x →
      row'[j]? = some (if j < nd ∧ x = 0 then
        ((n + zerosTab nd (t.take i) + zeros (row.take j) : ℕ) : ℤ) else x) := by
  induction t generalizing t' n n' with
  | nil =>
    simp only [numberRows, Except.ok.injEq, Prod.mk.injEq] at h
    obtain ⟨rfl, rfl⟩ := h
    simp
  | cons r t ih =>
    simp only [numberRows, bind_ok, pure_ok] at h
    obtain ⟨⟨r', m⟩, hr, ⟨ts, m'⟩, ht, h⟩ := h
    rw [Prod.mk.injEq] at h
    obtain ⟨rfl, rfl⟩ := h
    obtain ⟨a1, a2, a3, a4⟩ := numberRow_spec hr
    obtain ⟨b1, b2, b3, b4⟩ := ih ht
    simp only at a3 b3 ht
    refine ⟨?_, by simp [a2, b2], by simp [b3, a3, add_assoc], ?_⟩
    · intro x hx
      rcases List.mem_cons.1 hx with rfl | hx
      · exact a1
      · exact b1 x hx
    · intro i row hi
      cases i with
      | zero =>
        simp only [List.getElem?_cons_zero, Option.some.injEq] at hi
        subst hi
        exact ⟨r', by simp, by simpa using a4⟩
      | succ i =>
        rw [List.getElem?_cons_succ] at hi
        obtain ⟨row', h1, h2⟩ := b4 i row hi
        refine ⟨row', by simpa using h1, fun j x hj => ?_⟩
        rw [h2 j x hj]
        simp only [List.take_succ_cons, zerosTab_cons, a3]
        congr 1
        split
        · push_cast; ring
        · rfl

theorem numberRows_exists {nd : ℕ} {t : List (List ℤ)} {n : ℕ} (h : ∀ r ∈ t, nd ≤ r.length) :
    ∃ r, numberRows nd t n = .ok r := by
  induction t generalizing n with
  | nil => exact ⟨_, rfl⟩
  | cons r t ih =>
    simp only [numberRows]
    obtain ⟨⟨a, b⟩, hr⟩ := numberRow_exists (n := n) (h r (by simp))
    obtain ⟨⟨c, d⟩, hs⟩ := ih (n := b) fun x hx => h x (by simp [hx])
    rw [hr, ok_bind]
    simp only [hs, ok_bind]
    exact ⟨_, rfl⟩

theorem numberRows_error {nd : ℕ} {t : List (List ℤ)} {n : ℕ} (h : ∃ r ∈ t, r.length < nd) :
    numberRows nd t n = .error .indexError := by
  induction t generalizing n with
  | nil => simp at h
  | cons r t ih =>
    simp only [numberRows]
    by_cases hr : r.length < nd
    · rw [numberRow_error hr, error_bind]
    · obtain ⟨⟨a, b⟩, hx⟩ := numberRow_exists (n := n) (not_lt.1 hr)
      rw [hx, ok_bind]
      simp only
      rw [ih (by
        obtain ⟨x, hx, hl⟩ := h
        rcases List.mem_cons.1 hx with rfl | hx
        · exact absurd hl hr
        · exact ⟨x, hx, hl⟩), error_bind]

/-- The `k`-th element satisfying `p`. -/
theorem exists_countP {l : List ℤ} {k : ℕ} (h : k < zeros l) :
    ∃ j, l[j]? = some 0 ∧ zeros (l.take j) = k := by
  induction l generalizing k with
  | nil => simp at h
  | cons x xs ih =>
    by_cases hx : x = 0
    · cases k with
      | zero => exact ⟨0, by simp [hx], by simp⟩
      | succ k =>
        rw [zeros_cons, if_pos hx] at h
        obtain ⟨j, h1, h2⟩ := ih (k := k) (by omega)
        exact ⟨j + 1, by simpa using h1, by simp [zeros_cons, hx, h2, add_comm]⟩
    · rw [zeros_cons, if_neg hx, zero_add] at h
      obtain ⟨j, h1, h2⟩ := ih h
      exact ⟨j + 1, by simpa using h1, by simp [zeros_cons, hx, h2]⟩

theorem exists_zerosTab {nd : ℕ} {t : List (List ℤ)} {k : ℕ} (h : k < zerosTab nd t) :
    ∃ i row j, t[i]? = some row ∧ j < nd ∧ row[j]? = some 0 ∧
      zerosTab nd (t.take i) + zeros (row.take j) = k := by
  induction t generalizing k with
  | nil => simp at h
  | cons r t ih =>
    by_cases hk : k < zeros (r.take nd)
    · obtain ⟨j, h1, h2⟩ := exists_countP hk
      have hj : j < nd := by
        by_contra hj
        rw [List.getElem?_take, if_neg hj] at h1
        simp at h1
      refine ⟨0, r, j, by simp, hj, ?_, ?_⟩
      · rwa [List.getElem?_take_of_lt hj] at h1
      · rw [List.take_take, min_eq_left hj.le] at h2
        simpa using h2
    · have h' : k - zeros (r.take nd) < zerosTab nd t := by
        rw [zerosTab_cons] at h
        omega
      obtain ⟨i, row, j, h1, h2, h3, h4⟩ := ih h'
      refine ⟨i + 1, row, j, by simpa using h1, h2, h3, ?_⟩
      rw [List.take_succ_cons, zerosTab_cons]
      omega

end Assem
end SolidsPy

namespace SolidsPy
namespace Assem
open Spec

theorem entry_some {α : Type} {t : List (List α)} {i j : ℕ} {x : α} :
    entry t i j = some x ↔ ∃ row, t[i]? = some row ∧ row[j]? = some x := by
  unfold entry
  cases t[i]? <;> simp

section
variable {K : Type} [Field K] [LinearOrder K] [IsStrictOrderedRing K] [FloorRing K]

/-- The integer table built by `astype(int)`. -/
abbrev truncTab (cons : Table K) : List (List ℤ) := cons.map (List.map pyTrunc)

theorem eqcounter_ok {cons : Table K} {nd neq : ℕ} {bc : List (List ℤ)}
    (h : eqcounter cons nd = .ok (neq, bc)) : numberRows nd (truncTab cons) 0 = .ok (bc, neq) := by
  unfold eqcounter at h
  rw [bind_ok] at h
  obtain ⟨⟨a, b⟩, h1, h2⟩ := h
  rw [pure_ok, Prod.mk.injEq] at h2
  obtain ⟨rfl, rfl⟩ := h2
  exact h1

/-- Number of free entries before row `i`, column `j`. -/
def rank (cons : Table K) (nd i j : ℕ) : ℕ :=
  zerosTab nd ((truncTab cons).take i) + zeros ((((truncTab cons)[i]?).getD []).take j)

theorem eqcounter_entry {cons : Table K} {nd neq : ℕ} {bc : List (List ℤ)}
    (h : eqcounter cons nd = .ok (neq, bc)) {i j : ℕ} {x : K} (hx : entry cons i j = some x) :
    entry bc i j = some (if j < nd ∧ pyTrunc x = 0 then (rank cons nd i j : ℤ) else pyTrunc x) := by
  obtain ⟨_, _, _, h4⟩ := numberRows_spec (eqcounter_ok h)
  obtain ⟨row, hi, hj⟩ := entry_some.1 hx
  have hi' : (truncTab cons)[i]? = some (row.map pyTrunc) := by simp [truncTab, hi]
  obtain ⟨row', h5, h6⟩ := h4 i _ hi'
  refine entry_some.2 ⟨row', h5, ?_⟩
  rw [h6 j (pyTrunc x) (by simp [hj])]
  simp only [rank, hi', Option.getD_some, zero_add]

theorem eqcounter_neq {cons : Table K} {nd neq : ℕ} {bc : List (List ℤ)}
    (h : eqcounter cons nd = .ok (neq, bc)) : neq = zerosTab nd (truncTab cons) := by
  obtain ⟨_, _, h3, _⟩ := numberRows_spec (eqcounter_ok h)
  simpa using h3

theorem eqcounter_shape {cons : Table K} {nd neq : ℕ} {bc : List (List ℤ)}
    (h : eqcounter cons nd = .ok (neq, bc)) :
    bc.map List.length = cons.map List.length ∧ ∀ r ∈ cons, nd ≤ r.length := by
  obtain ⟨h1, h2, _, _⟩ := numberRows_spec (eqcounter_ok h)
  refine ⟨by rw [h2]; simp [truncTab, Function.comp_def], fun r hr => ?_⟩
  have := h1 (r.map pyTrunc) (List.mem_map_of_mem hr)
  simpa using this

theorem zeros_take_lt {l : List ℤ} {j k : ℕ} (hj : l[j]? = some 0) (hk : j < k) :
    zeros (l.take j) < zeros (l.take k) := by
  induction l generalizing j k with
  | nil => simp at hj
  | cons x xs ih =>
    obtain ⟨k, rfl⟩ : ∃ k', k = k' + 1 := ⟨k - 1, by omega⟩
    cases j with
    | zero =>
      simp only [List.getElem?_cons_zero, Option.some.injEq] at hj
      simp [zeros_cons, hj]
    | succ j =>
      rw [List.getElem?_cons_succ] at hj
      have := ih hj (show j < k by omega)
      simp only [List.take_succ_cons, zeros_cons]
      omega

theorem zeros_take_le {l : List ℤ} {j k : ℕ} (hk : j ≤ k) :
    zeros (l.take j) ≤ zeros (l.take k) := by
  induction l generalizing j k with
  | nil => simp
  | cons x xs ih =>
    cases j with
    | zero => simp
    | succ j =>
      obtain ⟨k, rfl⟩ : ∃ k', k = k' + 1 := ⟨k - 1, by omega⟩
      have := ih (show j ≤ k by omega)
      simp only [List.take_succ_cons, zeros_cons]
      omega

theorem zerosTab_take_succ {nd : ℕ} {t : List (List ℤ)} {i : ℕ} {row : List ℤ}
    (h : t[i]? = some row) : zerosTab nd (t.take (i + 1)) = zerosTab nd (t.take i) + zeros (row.take nd) := by
  induction t generalizing i with
  | nil => simp at h
  | cons r t ih =>
    cases i with
    | zero =>
      simp only [List.getElem?_cons_zero, Option.some.injEq] at h
      simp [h]
    | succ i =>
      rw [List.getElem?_cons_succ] at h
      rw [List.take_succ_cons, zerosTab_cons, ih h, List.take_succ_cons, zerosTab_cons]
      omega

theorem zerosTab_take_mono {nd : ℕ} {t : List (List ℤ)} {i k : ℕ} (h : i ≤ k) :
    zerosTab nd (t.take i) ≤ zerosTab nd (t.take k) := by
  induction t generalizing i k with
  | nil => simp
  | cons r t ih =>
    cases i with
    | zero => simp
    | succ i =>
      obtain ⟨k, rfl⟩ : ∃ k', k = k' + 1 := ⟨k - 1, by omega⟩
      have := ih (show i ≤ k by omega)
      simp only [List.take_succ_cons, zerosTab_cons]
      omega

theorem zerosTab_take_le {nd : ℕ} {t : List (List ℤ)} {i : ℕ} :
    zerosTab nd (t.take i) ≤ zerosTab nd t := by
  by_cases h : i ≤ t.length
  · have := zerosTab_take_mono (nd := nd) (t := t) h
    rwa [List.take_length] at this
  · rw [List.take_of_length_le (by omega)]

theorem free_trunc {cons : Table K} {nd i j : ℕ} (h : Free cons nd i j) :
    j < nd ∧ ∃ row, (truncTab cons)[i]? = some row ∧ row[j]? = some 0 := by
  obtain ⟨hj, x, hx, h1, h2⟩ := h
  obtain ⟨row, hi, hr⟩ := entry_some.1 hx
  exact ⟨hj, row.map pyTrunc, by simp [truncTab, hi], by
    simp [hr, pyTrunc_eq_zero.2 ⟨h1, h2⟩]⟩

theorem trunc_free {cons : Table K} {nd i j : ℕ} {row : List ℤ} (hj : j < nd)
    (hi : (truncTab cons)[i]? = some row) (hr : row[j]? = some 0) : Free cons nd i j := by
  simp only [truncTab, List.getElem?_map, Option.map_eq_some_iff] at hi
  obtain ⟨r, hr', rfl⟩ := hi
  simp only [List.getElem?_map, Option.map_eq_some_iff] at hr
  obtain ⟨x, hx, hx0⟩ := hr
  exact ⟨hj, x, entry_some.2 ⟨r, hr', hx⟩, (pyTrunc_eq_zero.1 hx0)⟩

theorem rank_lt {cons : Table K} {nd i j i' j' : ℕ} (h : Free cons nd i j)
    (hb : Before i j i' j') : rank cons nd i j < rank cons nd i' j' := by
  obtain ⟨hj, row, hi, hr⟩ := free_trunc h
  unfold rank
  rw [hi, Option.getD_some]
  rcases hb with hb | ⟨rfl, hb⟩
  · have h1 := zerosTab_take_mono (nd := nd) (t := truncTab cons) (show i + 1 ≤ i' by omega)
    rw [zerosTab_take_succ hi] at h1
    have h2 := zeros_take_lt hr hj
    omega
  · rw [hi, Option.getD_some]
    have := zeros_take_lt hr hb
    omega

theorem free_entry {cons : Table K} {nd neq : ℕ} {bc : List (List ℤ)}
    (h : eqcounter cons nd = .ok (neq, bc)) {i j : ℕ} (hf : Free cons nd i j) :
    entry bc i j = some (rank cons nd i j : ℤ) ∧ rank cons nd i j < neq := by
  obtain ⟨hj, x, hx, h1, h2⟩ := hf
  have hf : Free cons nd i j := ⟨hj, x, hx, h1, h2⟩
  refine ⟨?_, ?_⟩
  · rw [eqcounter_entry h hx, if_pos ⟨hj, pyTrunc_eq_zero.2 ⟨h1, h2⟩⟩]
  · rw [eqcounter_neq h]
    obtain ⟨_, row, hi, hr⟩ := free_trunc hf
    unfold rank
    rw [hi, Option.getD_some]
    have h3 := zeros_take_lt hr hj
    have h4 := zerosTab_take_le (nd := nd) (t := truncTab cons) (i := i + 1)
    rw [zerosTab_take_succ hi] at h4
    omega

theorem exists_free {cons : Table K} {nd neq : ℕ} {bc : List (List ℤ)}
    (h : eqcounter cons nd = .ok (neq, bc)) {k : ℕ} (hk : k < neq) :
    ∃ i j, Free cons nd i j ∧ rank cons nd i j = k := by
  rw [eqcounter_neq h] at hk
  obtain ⟨i, row, j, h1, h2, h3, h4⟩ := exists_zerosTab hk
  refine ⟨i, j, trunc_free h2 h1 h3, ?_⟩
  unfold rank
  rw [h1, Option.getD_some, h4]

theorem rank_inj {cons : Table K} {nd i j i' j' : ℕ} (h : Free cons nd i j)
    (h' : Free cons nd i' j') (he : rank cons nd i j = rank cons nd i' j') : i = i' ∧ j = j' := by
  by_contra hne
  have : Before i j i' j' ∨ Before i' j' i j := by
    unfold Before
    omega
  rcases this with hb | hb
  · have := rank_lt h hb
    omega
  · have := rank_lt h' hb
    omega

end
end Assem
end SolidsPy
