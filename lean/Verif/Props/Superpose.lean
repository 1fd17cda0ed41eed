import Verif.Props.Static

/-! # When loads superpose (C14) -/

set_option linter.unusedSectionVars false

namespace SolidsPy
open Spec Assem

section
variable {K : Type} [Field K] [LinearOrder K] [IsStrictOrderedRing K] [FloorRing K]

theorem last_named {n : ℕ} {p : ℕ} (l : Table K) : (∀ L ∈ l, ¬ Names n L p) ∨
    ∃ pre L post, l = pre ++ L :: post ∧ Names n L p ∧ ∀ L' ∈ post, ¬ Names n L' p := by
  classical
  induction l with
  | nil => exact .inl fun _ h => by simp at h
  | cons a l ih =>
    rcases ih with h | ⟨pre, L, post, rfl, h1, h2⟩
    · by_cases ha : Names n a p
      · exact .inr ⟨[], a, l, rfl, ha, h⟩
      · refine .inl fun L hL => ?_
        rcases List.mem_cons.1 hL with rfl | hL
        · exact ha
        · exact h L hL
    · exact .inr ⟨a :: pre, L, post, rfl, h1, h2⟩

/-- The vector holds the load of each free degree of freedom. -/
theorem load_vector_isLoad {cons : Table K} {nd neq : ℕ} {bc : List (List ℤ)} {l : Table K} {r : Fin neq → K}
    (h : eqcounter cons nd = .ok (neq, bc)) (hv : ValidCons cons nd) (hl : loadasem l bc neq nd = .ok r) {p j : ℕ}
    (hf : Free cons nd p j) {i : Fin neq} (hi : entry bc p j = some (i : ℤ)) {x : K} (hx : IsLoad cons.length l p j x) : r i = x := by
  obtain ⟨e1, e2⟩ := C13_load_vector h hv hl hf hi
  rcases hx with ⟨h0, rfl⟩ | ⟨pre, L, post, e, h1, h2, h3⟩
  · exact e1 h0
  · have := e2 pre L post e h1 h2
    rw [h3, Option.some.injEq] at this
    exact this.symm

theorem isLoad_of_vector {cons : Table K} {nd neq : ℕ} {bc : List (List ℤ)} {l : Table K} {r : Fin neq → K}
    (h : eqcounter cons nd = .ok (neq, bc)) (hv : ValidCons cons nd) (hl : loadasem l bc neq nd = .ok r) {p j : ℕ}
    (hf : Free cons nd p j) {i : Fin neq} (hi : entry bc p j = some (i : ℤ)) : IsLoad cons.length l p j (r i) := by
  obtain ⟨e1, e2⟩ := C13_load_vector h hv hl hf hi
  rcases last_named (n := cons.length) (p := p) l with h0 | ⟨pre, L, post, e, h1, h2⟩
  · exact .inl ⟨h0, e1 h0⟩
  · exact .inr ⟨pre, L, post, e, h1, h2, e2 _ _ _ e h1 h2⟩

/-- C14, exactly. The vector of two concatenated lists is the sum of their vectors if and only if every free degree of freedom of
a node named in the second list has load 0 in the first. -/
theorem C14_superposition_iff_partial {cons : Table K} {nd neq : ℕ} {bc : List (List ℤ)} {l1 l2 : Table K} {r1 r2 r : Fin neq → K}
    (h : eqcounter cons nd = .ok (neq, bc)) (hv : ValidCons cons nd) (h1 : loadasem l1 bc neq nd = .ok r1)
    (h2 : loadasem l2 bc neq nd = .ok r2) (h12 : loadasem (l1 ++ l2) bc neq nd = .ok r) :
    r = r1 + r2 ↔ ∀ p j, Free cons nd p j → (∃ L ∈ l2, Names cons.length L p) → IsLoad cons.length l1 p j 0 := by
  have key : ∀ p j (i : Fin neq), Free cons nd p j → entry bc p j = some (i : ℤ) →
      ((∃ L ∈ l2, Names cons.length L p) → r i = r2 i) ∧ ((∀ L ∈ l2, ¬ Names cons.length L p) → r i = r1 i ∧ r2 i = 0) := by
    intro p j i hf hi
    have a1 := isLoad_of_vector h hv h1 hf hi
    have a2 := isLoad_of_vector h hv h2 hf hi
    constructor
    · rintro ⟨L, hL, hn⟩
      rcases a2 with ⟨h0, _⟩ | ⟨pre, L', post, e, b1, b2, b3⟩
      · exact absurd hn (h0 L hL)
      · refine load_vector_isLoad h hv h12 hf hi (.inr ⟨l1 ++ pre, L', post, by rw [e]; simp, b1, b2, b3⟩)
    · intro h0
      have e2 : r2 i = 0 := load_vector_isLoad h hv h2 hf hi (.inl ⟨h0, rfl⟩)
      refine ⟨?_, e2⟩
      rcases a1 with ⟨g0, e⟩ | ⟨pre, L', post, e, b1, b2, b3⟩
      · rw [e]
        refine load_vector_isLoad h hv h12 hf hi (.inl ⟨fun L hL => ?_, rfl⟩)
        rcases List.mem_append.1 hL with hL | hL
        · exact g0 L hL
        · exact h0 L hL
      · refine load_vector_isLoad h hv h12 hf hi (.inr ⟨pre, L', post ++ l2, by rw [e]; simp, b1, fun L hL => ?_, b3⟩)
        rcases List.mem_append.1 hL with hL | hL
        · exact b2 L hL
        · exact h0 L hL
  constructor
  · intro e p j hf hex
    obtain ⟨hg, hlt⟩ := free_entry h hf
    have hi : entry bc p j = some ((⟨_, hlt⟩ : Fin neq) : ℤ) := hg
    have a := (key p j ⟨_, hlt⟩ hf hi).1 hex
    rw [e, Pi.add_apply] at a
    have : r1 ⟨_, hlt⟩ = 0 := by linarith
    rw [← this]
    exact isLoad_of_vector h hv h1 hf hi
  · intro H
    funext i
    obtain ⟨p, j, hf, hr⟩ := exists_free h i.2
    have hi : entry bc p j = some (i : ℤ) := by rw [(free_entry h hf).1, hr]
    rw [Pi.add_apply]
    by_cases hex : ∃ L ∈ l2, Names cons.length L p
    · rw [(key p j i hf hi).1 hex, load_vector_isLoad h hv h1 hf hi (H p j hf hex), zero_add]
    · push Not at hex
      obtain ⟨a, b⟩ := (key p j i hf hi).2 hex
      rw [a, b, add_zero]

/-- Cases: a node named in both lists spoils the sum only where its first load is not 0. -/
example : eqcounter ([[0, 0], [0, -1]] : Table ℚ) 2 = .ok (3, [[0, 1], [2, -1]]) ∧
    (loadasem ([[0, 3, 0]] : Table ℚ) [[0, 1], [2, -1]] 3).map List.ofFn = .ok [3, 0, 0] ∧
    (loadasem ([[0, 0, 4], [1, 5, 6]] : Table ℚ) [[0, 1], [2, -1]] 3).map List.ofFn = .ok [0, 4, 5] ∧
    (loadasem ([[0, 3, 0], [0, 0, 4], [1, 5, 6]] : Table ℚ) [[0, 1], [2, -1]] 3).map List.ofFn = .ok [0, 4, 5] ∧
    (loadasem ([[0, 0, 4], [1, 5, 6], [1, 0, 7]] : Table ℚ) [[0, 1], [2, -1]] 3).map List.ofFn = .ok [0, 4, 0] := by
  decide +kernel

end
end SolidsPy
