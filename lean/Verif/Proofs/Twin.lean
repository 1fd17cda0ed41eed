import Verif.Props.Success

/-! Two models that differ in coordinates or materials, element by element. Linearity of the element
forms. -/

set_option linter.unusedSectionVars false

namespace SolidsPy
open Spec Assem Matrix

section
variable {K : Type} [Field K]

theorem form_sub_left (m : Member K) (v w u : ℕ → ℕ → K) :
    m.form 2 (fun p j => v p j - w p j) u = m.form 2 v u - m.form 2 w u := by
  simp only [Member.form, sub_mul, Finset.sum_sub_distrib]

theorem form_sub_right (m : Member K) (v w u : ℕ → ℕ → K) :
    m.form 2 u (fun p j => v p j - w p j) = m.form 2 u v - m.form 2 u w := by
  simp only [Member.form, Member.force, mul_sub, Finset.sum_sub_distrib]

theorem forms_sub (ms : List (Member K)) (hs : ∀ m ∈ ms, ∀ v u, m.form 2 v u = m.form 2 u v)
    (v u : ℕ → ℕ → K) :
    (ms.map fun m => m.form 2 (fun p j => v p j - u p j) (fun p j => v p j - u p j)).sum =
      (ms.map fun m => m.form 2 v v).sum - 2 * (ms.map fun m => m.form 2 v u).sum +
        (ms.map fun m => m.form 2 u u).sum := by
  induction ms with
  | nil => simp
  | cons m ms ih =>
    simp only [List.map_cons, List.sum_cons]
    rw [ih fun m' hm' => hs m' (List.mem_cons_of_mem _ hm'), form_sub_left, form_sub_right,
      form_sub_right, hs m List.mem_cons_self u v]
    ring

/-- The internal force at a degree of freedom is the work of the element forms on the unit field there. -/
theorem internal_eq_form {n : ℕ} {ms : List (Member K)} (hn : ∀ m ∈ ms, ∀ p ∈ m.nodes, p < n)
    (u : ℕ → ℕ → K) {p j : ℕ} (hp : p < n) (hj : j < 2) :
    internal 2 ms u p j = (ms.map fun m => m.form 2 (fun p' j' => if p' = p ∧ j' = j then 1 else 0) u).sum := by
  rw [← virtual_work hn, Finset.sum_eq_single p, Finset.sum_eq_single j]
  · simp
  · intro b _ hb
    simp [hb]
  · intro hc
    exact absurd (Finset.mem_range.2 hj) hc
  · intro b _ hb
    simp [hb]
  · intro hc
    exact absurd (Finset.mem_range.2 hp) hc

theorem internal_smul (ms : List (Member K)) (c : K) (u : ℕ → ℕ → K) (p j : ℕ) :
    internal 2 ms (fun p j => c * u p j) p j = c * internal 2 ms u p j := by
  unfold internal
  rw [← List.sum_map_mul_left]
  congr 1
  refine List.map_congr_left fun m _ => ?_
  rw [Finset.mul_sum]
  refine Finset.sum_congr rfl fun a _ => ?_
  split
  · simp only [Member.force, Finset.mul_sum]
    refine Finset.sum_congr rfl fun b _ => Finset.sum_congr rfl fun c _ => ?_
    ring
  · rw [mul_zero]

end

section
variable {K : Type} [Field K] [LinearOrder K] [IsStrictOrderedRing K] [FloorRing K]
variable {sq : K → K}

theorem holds_unique {n d : ℕ} {A : NdArr K} {M N : Matrix (Fin n × Fin d) (Fin n × Fin d) K} (h : Holds A M)
    (h' : Holds A N) : M = N := by
  ext p q
  have := h.2 p q
  rw [h'.2 p q, Except.ok.injEq] at this
  exact this.symm

theorem returns_unique {n d : ℕ} {f : Uel K} {X : Matrix (Fin n) (Fin d) K} {params : List K} {k m k' m'}
    (h : Returns f X params k m) (h' : Returns f X params k' m') : k' = k ∧ m' = m := by
  obtain ⟨A, B, h1, h2, h3⟩ := h
  obtain ⟨A', B', h1', h2', h3'⟩ := h'
  rw [h1, Except.ok.injEq, Prod.mk.injEq] at h1'
  obtain ⟨rfl, rfl⟩ := h1'
  exact ⟨holds_unique h2' h2, holds_unique h3' h3⟩

theorem forall₂_resolves_unique {n : ℕ} {is : List ℤ} {ps qs : List ℕ} (h : List.Forall₂ (Resolves n) is ps)
    (h' : List.Forall₂ (Resolves n) is qs) : qs = ps := by
  induction h generalizing qs with
  | nil => cases h'; rfl
  | cons a _ ih =>
    cases h' with
    | cons b t => rw [resolves_unique b a, ih t]

/-- One row of the element table in two models of the same size. -/
theorem members_twin {mats nodes mats' nodes' : Table K} {el : List ℤ} {m m' : Member K}
    (h : IsMember (Routine sq) mats nodes el m) (h' : IsMember (Routine sq) mats' nodes' el m')
    (h3 : ∀ r ∈ nodes, r.length = 3) (h3' : ∀ r ∈ nodes', r.length = 3)
    (hty : ∀ ty, el[1]? = some ty → ty ∈ [(1 : ℤ), 2, 3, 4] ∨ (ty = 6 ∧ (el.drop 3).length = 2))
    (hl : mats'.length = mats.length) (hn : nodes'.length = nodes.length) :
    m'.nodes = m.nodes ∧ ∃ ty mi, ∃ q : ℕ, ∃ params params' n f X X' k k' mm mm', el[1]? = some ty ∧
      Uel.eleFun sq ty = .ok f ∧ el[2]? = some mi ∧ Resolves mats.length mi q ∧
      mats[q]? = some params ∧ mats'[q]? = some params' ∧ Structural sq n f ∧
      Returns (n := n) (d := 2) f X params k mm ∧ Placed nodes m X k ∧
      Returns (n := n) (d := 2) f X' params' k' mm' ∧ Placed nodes' m' X' k' := by
  have hnn : m'.nodes = m.nodes := by
    obtain ⟨_, _, _, _, _, _, _, -, -, -, a5, -⟩ := h
    obtain ⟨_, _, _, _, _, _, _, -, -, -, b5, -⟩ := h'
    rw [hn] at b5
    exact forall₂_resolves_unique a5 b5
  refine ⟨hnn, ?_⟩
  obtain ⟨ty, mi, q, params, n, f, X, k, mm, a1, a2, a3, a4, a5, a6, a7, a8⟩ := member_placed h h3 hty
  obtain ⟨ty', mi', q', params', n', f', X', k', mm', b1, b2, b3, b4, b5, b6, b7, b8⟩ :=
    member_placed h' h3' hty
  rw [a1, Option.some.injEq] at b1
  subst b1
  rw [a2, Except.ok.injEq] at b2
  subst b2
  rw [a3, Option.some.injEq] at b3
  subst b3
  rw [hl] at b4
  obtain rfl := resolves_unique a4 b4
  obtain rfl : n' = n := by rw [← a8.size, ← b8.size, hnn]
  exact ⟨ty, mi, q, params, params', n', f, X, X', k, k', mm, mm', a1, a2, a3, a4, a5, b5, a6, a7, a8, b7, b8⟩

theorem Placed.coord_unique {nodes : Table K} {n : ℕ} {m m' : Member K} {X X' : Matrix (Fin n) (Fin 2) K}
    {k k'} (h : Placed nodes m X k) (h' : Placed nodes m' X' k') (hn : m'.nodes = m.nodes) : X' = X := by
  ext a i
  have := h'.coord a i
  rw [hn, h.coord a i, Option.some.injEq] at this
  exact this.symm

theorem pick_congr {n : ℕ} {m m' : Member K} (hn : m'.nodes = m.nodes) (u : ℕ → ℕ → K) :
    m'.pick n u = m.pick n u := by
  funext q
  unfold Member.pick
  rw [hn]

end
end SolidsPy
