import Verif.Proofs.Loads
import Verif.Model.Gui

/-! # C13 - C17: loads, displacement completion, retrieval, solver dispatch -/

set_option linter.unusedSectionVars false

namespace SolidsPy
open Spec Assem

section
variable {K : Type} [Field K] [LinearOrder K] [IsStrictOrderedRing K] [FloorRing K]

/-- C13. With the documented codes and the array from `eqcounter`, the right hand side entry of a free
degree of freedom `(p, j)` is column `j + 1` of the last load row naming node `p`, and 0 if no row
names it. -/
theorem C13_load_vector {cons : Table K} {nd neq : ℕ} {bc : List (List ℤ)} {loads : Table K}
    {rhs : Fin neq → K} (h : eqcounter cons nd = .ok (neq, bc)) (hv : ValidCons cons nd)
    (hl : loadasem loads bc neq nd = .ok rhs) {p j : ℕ} (hf : Free cons nd p j) {i : Fin neq}
    (hi : entry bc p j = some (i : ℤ)) :
    ((∀ L ∈ loads, ¬ Names cons.length L p) → rhs i = 0) ∧
    (∀ pre L post, loads = pre ++ L :: post → Names cons.length L p →
      (∀ L' ∈ post, ¬ Names cons.length L' p) → L[j + 1]? = some (rhs i)) := by
  have hbl : bc.length = cons.length := by
    have := congrArg List.length (eqcounter_shape h).1
    simpa using this
  have := loads_fold_effect hl (owns_of_eqcounter h hv hf hi i.2)
  rwa [hbl] at this

/-- C13. For any boundary condition array: an equation that belongs to one degree of freedom `(p, j)`
only (first hypothesis: `(p, j)` is sent to `i`; second: nothing else is) gets the value of the last
load row naming the node. -/
theorem C13_load_vector_any_bc {nd neq : ℕ} {bc : List (List ℤ)} {loads : Table K}
    {rhs : Fin neq → K} (hl : loadasem loads bc neq nd = .ok rhs) {p j : ℕ} {i : Fin neq}
    (hj : j < nd) (hd : DofEq bc neq p j i)
    (hu : ∀ p' j', j' < nd → DofEq bc neq p' j' i → p' = p ∧ j' = j) :
    ((∀ L ∈ loads, ¬ Names bc.length L p) → rhs i = 0) ∧
    (∀ pre L post, loads = pre ++ L :: post → Names bc.length L p →
      (∀ L' ∈ post, ¬ Names bc.length L' p) → L[j + 1]? = some (rhs i)) :=
  loads_fold_effect hl ⟨hj, hd, hu⟩

/-- C13. With the documented codes `loadasem` succeeds whenever every load row has `ndof_node + 1`
columns and names an existing node. -/
theorem C13_load_success {cons : Table K} {nd neq : ℕ} {bc : List (List ℤ)} {loads : Table K}
    (h : eqcounter cons nd = .ok (neq, bc)) (hv : ValidCons cons nd)
    (hw : ∀ L ∈ loads, nd + 1 ≤ L.length ∧ ∃ p, Names cons.length L p) :
    ∃ rhs, loadasem loads bc neq nd = .ok rhs := by
  have hbl : bc.length = cons.length := by
    have := congrArg List.length (eqcounter_shape h).1
    simpa using this
  have hrange : ∀ p j g, j < nd → entry bc p j = some g → g = -1 ∨ (0 ≤ g ∧ g < neq) := by
    intro p j g hj hg
    obtain ⟨row, h1, h2⟩ := entry_some.1 hg
    have hex : ∃ x, entry cons p j = some x := by
      have hlen := congrArg (fun l => l[p]?) (eqcounter_shape h).1
      simp only [List.getElem?_map, h1, Option.map_some] at hlen
      cases hc : cons[p]? with
      | none => rw [hc] at hlen; simp at hlen
      | some r =>
        rw [hc] at hlen
        simp only [Option.map_some, Option.some.injEq] at hlen
        have hlt : j < r.length := by
          rw [← hlen]
          exact (List.getElem?_eq_some_iff.1 h2).1
        exact ⟨r[j], entry_some.2 ⟨r, hc, List.getElem?_eq_getElem hlt⟩⟩
    obtain ⟨x, hx⟩ := hex
    rcases hv p j x hj hx with rfl | rfl
    · have hf' : Free cons nd p j := ⟨hj, 0, hx, by linarith [zero_lt_one (α := K)], zero_lt_one⟩
      obtain ⟨e1, e2⟩ := free_entry h hf'
      rw [hg, Option.some.injEq] at e1
      right
      omega
    · left
      have e1 := eqcounter_entry h hx
      have : pyTrunc (-1 : K) = -1 := by
        have := pyTrunc_intCast (K := K) (-1)
        simpa using this
      rw [this, if_neg (by omega), hg, Option.some.injEq] at e1
      exact e1
  have step : ∀ (v : Fin neq → K) (L : List K), L ∈ loads → ∃ v', loadRow bc nd v L = .ok v' := by
    intro v L hL
    obtain ⟨hlen, p, hp⟩ := hw L hL
    obtain ⟨x, hx, hr⟩ := names_iff.1 hp
    rw [← hbl] at hr
    have hbp : bc[p]? = some (bc[p]'hr.1) := List.getElem?_eq_getElem hr.1
    have hg : pyGet bc (pyTrunc x) = .ok (bc[p]'hr.1) := pyGet_resolves.2 ⟨p, hr, hbp⟩
    unfold loadRow
    rw [pyGet_zero.2 hx, ok_bind, hg, ok_bind]
    have hbw : nd ≤ (bc[p]'hr.1).length := by
      have h1 := (eqcounter_shape h)
      have hlen := congrArg (fun l => l[p]?) h1.1
      simp only [List.getElem?_map, hbp, Option.map_some] at hlen
      have hcp : cons[p]? = some (cons[p]'(by rw [← hbl]; exact hr.1)) :=
        List.getElem?_eq_getElem (by rw [← hbl]; exact hr.1)
      rw [hcp, Option.map_some, Option.some.injEq] at hlen
      rw [hlen]
      exact h1.2 _ (List.getElem_mem _)
    have inner : ∀ (ds : List ℕ) (v : Fin neq → K), (∀ d ∈ ds, d < nd) →
        ∃ v', ds.foldlM (loadDof (bc[p]'hr.1) L) v = .ok v' := by
      intro ds
      induction ds with
      | nil => exact fun v _ => ⟨v, rfl⟩
      | cons d ds ih =>
        intro v hds
        have hd : d < nd := hds d (by simp)
        rw [List.foldlM_cons]
        have hbd : (bc[p]'hr.1)[d]? = some ((bc[p]'hr.1)[d]'(by omega)) :=
          List.getElem?_eq_getElem (by omega)
        have hone : ∃ v', loadDof (bc[p]'hr.1) L v d = .ok v' := by
          unfold loadDof
          rw [pyGet_nat.2 hbd, ok_bind]
          by_cases hm : (bc[p]'hr.1)[d]'(by omega) ≠ -1
          · rw [if_pos hm]
            have hLd : L[d + 1]? = some (L[d + 1]'(by omega)) := List.getElem?_eq_getElem (by omega)
            have : pyGet L ((d : ℤ) + 1) = .ok (L[d + 1]'(by omega)) := by
              have := pyGet_nat.2 hLd
              simpa using this
            rw [this, ok_bind]
            rcases hrange p d _ hd (entry_some.2 ⟨_, hbp, hbd⟩) with h0 | ⟨h0, h1⟩
            · exact absurd h0 hm
            · obtain ⟨k, hk⟩ := pyFin_exists (n := neq).2 ⟨by omega, h1⟩
              exact ⟨_, by unfold setAt; rw [hk]; rfl⟩
          · exact ⟨v, by rw [if_neg hm]; rfl⟩
        obtain ⟨v', hv'⟩ := hone
        rw [hv', ok_bind]
        exact ih v' fun d hd => hds d (by simp [hd])
    exact inner _ v fun d hd => List.mem_range.1 hd
  have outer : ∀ (ls : Table K) (v : Fin neq → K), (∀ L ∈ ls, L ∈ loads) →
      ∃ v', ls.foldlM (loadRow bc nd) v = .ok v' := by
    intro ls
    induction ls with
    | nil => exact fun v _ => ⟨v, rfl⟩
    | cons L ls ih =>
      intro v hls
      rw [List.foldlM_cons]
      obtain ⟨v', hv'⟩ := step v L (hls L (by simp))
      rw [hv', ok_bind]
      exact ih v' fun L hL => hls L (by simp [hL])
  exact outer loads _ fun _ h => h

/-- Case for C13: node 1 is loaded twice, the last row wins; the load on the fixed dof disappears. -/
example : (loadasem ([[1, 5, 6], [0, 7, 8], [1, 1, 2]] : Table ℚ) [[-1, 0], [1, 2]] 3).map List.ofFn =
    .ok [8, 1, 2] ∧ eqcounter ([[-1, 0], [0, 0]] : Table ℚ) 2 = .ok (3, [[-1, 0], [1, 2]]) := by
  decide +kernel

/-- C14 (true part). If no node is named by both lists, the vector of the concatenated list is the sum
of the two vectors. -/
theorem C14_disjoint_superposition_partial {cons : Table K} {nd neq : ℕ} {bc : List (List ℤ)}
    {l1 l2 : Table K} {r1 r2 r : Fin neq → K} (h : eqcounter cons nd = .ok (neq, bc))
    (hv : ValidCons cons nd) (h1 : loadasem l1 bc neq nd = .ok r1)
    (h2 : loadasem l2 bc neq nd = .ok r2) (h12 : loadasem (l1 ++ l2) bc neq nd = .ok r)
    (hd : ∀ p, ∀ L1 ∈ l1, ∀ L2 ∈ l2, ¬ (Names cons.length L1 p ∧ Names cons.length L2 p)) :
    r = r1 + r2 := by
  classical
  funext i
  obtain ⟨p, j, hf, hr⟩ := exists_free h i.2
  have hi : entry bc p j = some (i : ℤ) := by rw [(free_entry h hf).1, hr]
  have e1 := C13_load_vector h hv h1 hf hi
  have e2 := C13_load_vector h hv h2 hf hi
  have e12 := C13_load_vector h hv h12 hf hi
  have split : ∀ (l : Table K), (∃ L ∈ l, Names cons.length L p) →
      ∃ pre L post, l = pre ++ L :: post ∧ Names cons.length L p ∧
        ∀ L' ∈ post, ¬ Names cons.length L' p := by
    intro l
    induction l with
    | nil => simp
    | cons a l ih =>
      intro hex
      by_cases hl : ∃ L ∈ l, Names cons.length L p
      · obtain ⟨pre, L, post, rfl, h3, h4⟩ := ih hl
        exact ⟨a :: pre, L, post, rfl, h3, h4⟩
      · obtain ⟨L, hL, hn⟩ := hex
        rcases List.mem_cons.1 hL with rfl | hL
        · exact ⟨[], L, l, rfl, hn, fun L' hL' hn' => hl ⟨L', hL', hn'⟩⟩
        · exact absurd ⟨L, hL, hn⟩ hl
  rw [Pi.add_apply]
  by_cases hl2 : ∃ L ∈ l2, Names cons.length L p
  · have hn1 : ∀ L ∈ l1, ¬ Names cons.length L p := by
      intro L hL hn
      obtain ⟨L2, hL2, hn2⟩ := hl2
      exact hd p L hL L2 hL2 ⟨hn, hn2⟩
    obtain ⟨pre, L, post, rfl, h3, h4⟩ := split l2 hl2
    have a := e2.2 pre L post rfl h3 h4
    have b := e12.2 (l1 ++ pre) L post (by simp) h3 h4
    rw [a, Option.some.injEq] at b
    rw [e1.1 hn1, zero_add, b]
  · have hn2 : ∀ L ∈ l2, ¬ Names cons.length L p := fun L hL hn => hl2 ⟨L, hL, hn⟩
    rw [e2.1 hn2, add_zero]
    by_cases hl1 : ∃ L ∈ l1, Names cons.length L p
    · obtain ⟨pre, L, post, rfl, h3, h4⟩ := split l1 hl1
      have a := e1.2 pre L post rfl h3 h4
      have b := e12.2 pre L (post ++ l2) (by simp) h3 (by
        intro L' hL'
        rcases List.mem_append.1 hL' with hL' | hL'
        · exact h4 L' hL'
        · exact hn2 L' hL')
      rw [a, Option.some.injEq] at b
      exact b.symm
    · have hn1 : ∀ L ∈ l1, ¬ Names cons.length L p := fun L hL hn => hl1 ⟨L, hL, hn⟩
      rw [e1.1 hn1]
      apply e12.1
      intro L hL
      rcases List.mem_append.1 hL with hL | hL
      · exact hn1 L hL
      · exact hn2 L hL

/-- C14 (negation of the intended property). Two load lists on the same node do not superpose: the
second overwrites the first. -/
theorem C14_superposition_fails :
    ¬ ∀ (l1 l2 : Table ℚ) (bc : List (List ℤ)) (neq : ℕ) (r1 r2 r : Fin neq → ℚ),
      loadasem l1 bc neq = .ok r1 → loadasem l2 bc neq = .ok r2 →
      loadasem (l1 ++ l2) bc neq = .ok r → r = r1 + r2 := by
  intro H
  have key : ∀ l : Table ℚ, ∀ w : List ℚ,
      (loadasem l [[0, 1]] 2).map List.ofFn = .ok w → ∃ v, loadasem l [[0, 1]] 2 = .ok v ∧ List.ofFn v = w := by
    intro l w hw
    cases hc : loadasem l [[0, 1]] 2 with
    | error e => rw [hc] at hw; simp [Except.map] at hw
    | ok v => rw [hc] at hw; exact ⟨v, rfl, by simpa [Except.map] using hw⟩
  obtain ⟨v1, a1, b1⟩ := key [[0, 3, 0]] [3, 0] (by decide +kernel)
  obtain ⟨v2, a2, b2⟩ := key [[0, 4, 0]] [4, 0] (by decide +kernel)
  obtain ⟨v3, a3, b3⟩ := key ([[0, 3, 0]] ++ [[0, 4, 0]]) [4, 0] (by decide +kernel)
  have := H _ _ _ _ v1 v2 v3 a1 a2 a3
  have e1 : v1 0 = 3 := by simpa [List.ofFn_succ] using congrArg (fun l => l.head?) b1
  have e2 : v2 0 = 4 := by simpa [List.ofFn_succ] using congrArg (fun l => l.head?) b2
  have e3 : v3 0 = 4 := by simpa [List.ofFn_succ] using congrArg (fun l => l.head?) b3
  have h0 := congrFun this 0
  rw [Pi.add_apply, e1, e2, e3] at h0
  norm_num at h0

/-- C14. Linearity in the values, with repeated nodes allowed: combining the value columns of two load
tables with the same node column combines the vectors. Holds for every boundary condition array. -/
theorem C14_linear_in_values {neq nd : ℕ} {bc : List (List ℤ)} (a b : K)
    (rows : List (K × List K × List K)) (hlen : ∀ t ∈ rows, t.2.1.length = t.2.2.length)
    {r1 r2 : Fin neq → K}
    (h1 : loadasem (rows.map fun t => t.1 :: t.2.1) bc neq nd = .ok r1)
    (h2 : loadasem (rows.map fun t => t.1 :: t.2.2) bc neq nd = .ok r2) :
    loadasem (rows.map fun t => t.1 :: List.zipWith (fun x y => a * x + b * y) t.2.1 t.2.2) bc neq nd =
      .ok (a • r1 + b • r2) := by
  have inner : ∀ (ds : List ℕ) (row : List ℤ) (id : K) (x y : List K), x.length = y.length →
      ∀ v1 v2 w1 w2 : Fin neq → K, ds.foldlM (loadDof row (id :: x)) v1 = .ok w1 →
      ds.foldlM (loadDof row (id :: y)) v2 = .ok w2 →
      ds.foldlM (loadDof row (id :: List.zipWith (fun x y => a * x + b * y) x y)) (a • v1 + b • v2) =
        .ok (a • w1 + b • w2) := by
    intro ds row id x y hxy
    induction ds with
    | nil =>
      intro v1 v2 w1 w2 h1 h2
      rw [List.foldlM_nil, pure_ok] at *
      rw [h1, h2]
    | cons d ds ih =>
      intro v1 v2 w1 w2 h1 h2
      rw [List.foldlM_cons, bind_ok] at h1 h2
      obtain ⟨u1, hu1, h1⟩ := h1
      obtain ⟨u2, hu2, h2⟩ := h2
      rw [List.foldlM_cons]
      have : loadDof row (id :: List.zipWith (fun x y => a * x + b * y) x y) (a • v1 + b • v2) d =
          .ok (a • u1 + b • u2) := by
        unfold loadDof at hu1 hu2 ⊢
        rw [bind_ok] at hu1 hu2
        obtain ⟨g, hg, hu1⟩ := hu1
        obtain ⟨g', hg', hu2⟩ := hu2
        rw [hg, Except.ok.injEq] at hg'
        subst hg'
        rw [hg, ok_bind]
        by_cases hne : g ≠ -1
        · rw [if_pos hne] at hu1 hu2 ⊢
          rw [bind_ok] at hu1 hu2
          obtain ⟨x1, hx1, hu1⟩ := hu1
          obtain ⟨x2, hx2, hu2⟩ := hu2
          have e : ∀ (l : List K) (z : K), pyGet (id :: l) ((d : ℤ) + 1) = .ok z ↔ l[d]? = some z := by
            intro l z
            have := pyGet_nat (l := id :: l) (n := d + 1) (x := z)
            simpa using this
          rw [e] at hx1 hx2
          have hz : (List.zipWith (fun x y => a * x + b * y) x y)[d]? = some (a * x1 + b * x2) := by
            rw [List.getElem?_zipWith, hx1, hx2]
          rw [(e _ _).2 hz, ok_bind]
          unfold setAt at hu1 hu2 ⊢
          rw [bind_ok] at hu1 hu2
          obtain ⟨k, hk, hu1⟩ := hu1
          obtain ⟨k', hk', hu2⟩ := hu2
          rw [hk, Except.ok.injEq] at hk'
          subst hk'
          rw [hk, ok_bind, pure_ok]
          rw [pure_ok] at hu1 hu2
          subst hu1 hu2
          funext r
          simp only [Pi.add_apply, Pi.smul_apply, smul_eq_mul]
          split <;> rfl
        · rw [if_neg hne, pure_ok] at hu1 hu2 ⊢
          rw [hu1, hu2]
      rw [this, ok_bind]
      exact ih u1 u2 w1 w2 h1 h2
  have outer : ∀ (v1 v2 w1 w2 : Fin neq → K),
      (rows.map fun t => t.1 :: t.2.1).foldlM (loadRow bc nd) v1 = .ok w1 →
      (rows.map fun t => t.1 :: t.2.2).foldlM (loadRow bc nd) v2 = .ok w2 →
      (rows.map fun t => t.1 :: List.zipWith (fun x y => a * x + b * y) t.2.1 t.2.2).foldlM
        (loadRow bc nd) (a • v1 + b • v2) = .ok (a • w1 + b • w2) := by
    clear h1 h2
    induction rows with
    | nil =>
      intro v1 v2 w1 w2 h1 h2
      simp only [List.map_nil, List.foldlM_nil, pure_ok] at *
      rw [h1, h2]
    | cons t rows ih =>
      intro v1 v2 w1 w2 h1 h2
      rw [List.map_cons, List.foldlM_cons, bind_ok] at h1 h2
      obtain ⟨u1, hu1, h1⟩ := h1
      obtain ⟨u2, hu2, h2⟩ := h2
      rw [List.map_cons, List.foldlM_cons]
      have : loadRow bc nd (a • v1 + b • v2)
          (t.1 :: List.zipWith (fun x y => a * x + b * y) t.2.1 t.2.2) = .ok (a • u1 + b • u2) := by
        unfold loadRow at hu1 hu2 ⊢
        simp only [bind_ok] at hu1 hu2
        obtain ⟨i1, hi1, row, hrow, hu1⟩ := hu1
        obtain ⟨i2, hi2, row2, hrow2, hu2⟩ := hu2
        rw [pyGet_zero] at hi1 hi2
        simp only [List.getElem?_cons_zero, Option.some.injEq] at hi1 hi2
        subst hi1
        rw [← hi2, hrow, Except.ok.injEq] at hrow2
        subst hrow2
        have h0 : pyGet (t.1 :: List.zipWith (fun x y => a * x + b * y) t.2.1 t.2.2) 0 = .ok t.1 := by
          rw [pyGet_zero]; rfl
        rw [h0, ok_bind, hrow, ok_bind]
        exact inner _ row t.1 t.2.1 t.2.2 (hlen t (by simp)) _ _ _ _ hu1 hu2
      rw [this, ok_bind]
      exact ih (fun t ht => hlen t (by simp [ht])) u1 u2 w1 w2 h1 h2
  have := outer (fun _ => 0) (fun _ => 0) r1 r2 h1 h2
  have hz : (a • (fun _ => 0 : Fin neq → K) + b • (fun _ => 0 : Fin neq → K)) = fun _ => 0 := by
    funext i
    simp
  rw [hz] at this
  exact this

/-- Cases for C14: disjoint lists add. -/
example : (loadasem ([[0, 5, 6], [1, 1, 2]] : Table ℚ) [[-1, 0], [1, 2]] 3).map List.ofFn = .ok [6, 1, 2] ∧
    (loadasem ([[0, 5, 6]] : Table ℚ) [[-1, 0], [1, 2]] 3).map List.ofFn = .ok [6, 0, 0] ∧
    (loadasem ([[1, 1, 2]] : Table ℚ) [[-1, 0], [1, 2]] 3).map List.ofFn = .ok [0, 1, 2] := by
  decide +kernel

end

/-! ## C15 -/

section
variable {K : Type} [Field K]

/-- C15. `complete_disp` returns one row of `ndof_node` values per node; a degree of freedom with code
-1 gets 0, any other one gets the component of the solution its entry names. -/
theorem C15_completion_entries {neq : ℕ} {bc : List (List ℤ)} {nn nd : ℕ} {sol : Fin neq → K}
    {full : Table K} (h : Post.completeDisp bc nn sol nd = .ok full) :
    (full.length = nn ∧ ∀ r ∈ full, r.length = nd) ∧
    ∀ p < nn, ∀ j < nd,
      (entry bc p j = some (-1) → entry full p j = some 0) ∧
      (∀ i : Fin neq, DofEq bc neq p j i → entry full p j = some (sol i)) := by
  refine ⟨Post.completeDisp_shape h, fun p hp j hj => ?_⟩
  obtain ⟨g, x, hg, hx, hc⟩ := Post.completeDisp_entry h hp hj
  constructor
  · intro h1
    rw [hg, Option.some.injEq] at h1
    rcases hc with ⟨_, h2⟩ | ⟨h2, _⟩
    · rw [hx, h2]
    · exact absurd h1 h2
  · rintro i ⟨g', hg', hne, hr⟩
    rw [hg, Option.some.injEq] at hg'
    subst hg'
    rcases hc with ⟨h2, _⟩ | ⟨_, k, hk, hxk⟩
    · exact absurd h2 hne
    · have : k = i := Fin.ext (resolves_unique hk hr)
      rw [hx, hxk, this]

variable [LinearOrder K] [IsStrictOrderedRing K] [FloorRing K]

/-- C15. With the array from `eqcounter`, every solution component appears at its degree of freedom
(and only free degrees of freedom own equations), so the reduced vector can be read back. -/
theorem C15_read_back {cons : Table K} {nd neq : ℕ} {bc : List (List ℤ)} {sol : Fin neq → K}
    {full : Table K} (h : eqcounter cons nd = .ok (neq, bc))
    (hf : Post.completeDisp bc cons.length sol nd = .ok full) (i : Fin neq) :
    ∃ p j, Free cons nd p j ∧ entry bc p j = some (i : ℤ) ∧ entry full p j = some (sol i) := by
  obtain ⟨p, j, hfree, hr⟩ := exists_free h i.2
  have hi : entry bc p j = some (i : ℤ) := by rw [(free_entry h hfree).1, hr]
  have hp : p < cons.length := by
    obtain ⟨_, x, hx, _⟩ := hfree
    obtain ⟨row, h1, _⟩ := entry_some.1 hx
    exact (List.getElem?_eq_some_iff.1 h1).1
  exact ⟨p, j, hfree, hi, ((C15_completion_entries hf).2 p hp j hfree.1).2 i
    ⟨i, hi, by omega, i.2, Or.inl rfl⟩⟩

/-- C15. Two different solutions give different completed displacements. -/
theorem C15_injective {cons : Table K} {nd neq : ℕ} {bc : List (List ℤ)} {s1 s2 : Fin neq → K}
    {full : Table K} (h : eqcounter cons nd = .ok (neq, bc))
    (h1 : Post.completeDisp bc cons.length s1 nd = .ok full)
    (h2 : Post.completeDisp bc cons.length s2 nd = .ok full) : s1 = s2 := by
  funext i
  obtain ⟨p, j, hf, hi, e1⟩ := C15_read_back h h1 i
  have hp : p < cons.length := by
    obtain ⟨_, x, hx, _⟩ := hf
    obtain ⟨row, h1, _⟩ := entry_some.1 hx
    exact (List.getElem?_eq_some_iff.1 h1).1
  have e2 := ((C15_completion_entries h2).2 p hp j hf.1).2 i ⟨i, hi, by omega, i.2, Or.inl rfl⟩
  rw [e1, Option.some.injEq] at e2
  exact e2

/-- C15. With the documented codes completion always succeeds, and every constrained degree of freedom
comes out 0. -/
theorem C15_constrained_zero {cons : Table K} {nd neq : ℕ} {bc : List (List ℤ)}
    (h : eqcounter cons nd = .ok (neq, bc)) (hv : ValidCons cons nd) (sol : Fin neq → K) :
    ∃ full, Post.completeDisp bc cons.length sol nd = .ok full ∧
      ∀ p j, j < nd → entry cons p j = some (-1) → entry full p j = some 0 := by
  have hm1 : pyTrunc (-1 : K) = -1 := by
    have := pyTrunc_intCast (K := K) (-1)
    simpa using this
  have hbl : bc.length = cons.length := by
    have := congrArg List.length (eqcounter_shape h).1
    simpa using this
  obtain ⟨full, hfull⟩ := Post.completeDisp_exists (sol := sol) (bc := bc) (nn := cons.length)
    (nd := nd) (by
      intro p hp j hj
      have hw := (eqcounter_shape h).2 (cons[p]) (List.getElem_mem hp)
      have hx : entry cons p j = some (cons[p][j]'(by omega)) :=
        entry_some.2 ⟨cons[p], List.getElem?_eq_getElem hp, List.getElem?_eq_getElem (by omega)⟩
      rcases hv p j _ hj hx with h0 | h0
      · have hf : Free cons nd p j := ⟨hj, 0, by rw [hx, h0], by linarith [zero_lt_one (α := K)],
          zero_lt_one⟩
        obtain ⟨e1, e2⟩ := free_entry h hf
        exact ⟨_, e1, Or.inr ⟨⟨_, e2⟩, e2, Or.inl rfl⟩⟩
      · rw [h0] at hx
        refine ⟨-1, ?_, Or.inl rfl⟩
        rw [eqcounter_entry h hx, if_neg (by omega), hm1]) (by omega)
  refine ⟨full, hfull, fun p j hj hx => ?_⟩
  have hp : p < cons.length := by
    obtain ⟨row, h1, _⟩ := entry_some.1 hx
    exact (List.getElem?_eq_some_iff.1 h1).1
  refine ((C15_completion_entries hfull).2 p hp j hj).1 ?_
  rw [eqcounter_entry h hx, if_neg (by omega), hm1]

/-- Case for C15. -/
example : Post.completeDisp [[-1, 0], [1, 2]] 2 (![7, 8, 9] : Fin 3 → ℚ) = .ok [[0, 7], [8, 9]] := by
  decide +kernel

end

/-! ## C16 -/

section
variable {K : Type} [Field K]

/-- C16. What is computed for element `e`: its routine, on its own nodes' columns after the id, and its
own material row. -/
theorem C16_retriever_value {eleFun : ℤ → Py (Uel K)} {elements : List (List ℤ)} {mats nodes : Table K}
    {e : ℕ} {uel : Option (Uel K)} {loc : NdArr K × NdArr K} :
    retriever eleFun elements mats nodes e uel = .ok loc ↔
    ∃ el ty mi params rows f, elements[e]? = some el ∧ el[1]? = some ty ∧ el[2]? = some mi ∧
      (∃ k, Resolves mats.length mi k ∧ mats[k]? = some params) ∧
      List.Forall₂ (fun g row => ∃ k, Resolves nodes.length g k ∧ nodes[k]? = some row) (el.drop 3) rows ∧
      (uel = some f ∨ (uel = none ∧ eleFun ty = .ok f)) ∧
      f (rows.map (List.drop 1)) params = .ok loc := by
  unfold retriever
  cases uel with
  | none =>
    simp only [bind_ok, pyGet_nat, pyGet_one, pyGet_two]
    constructor
    · rintro ⟨el, h1, ty, h2, mi, h3, params, h4, rows, h5, f, h6, h7⟩
      refine ⟨el, ty, mi, params, rows, f, h1, h2, h3, pyGet_resolves.1 h4, ?_, Or.inr (by simpa using h6),
        h7⟩
      exact (mapM_ok.1 h5).imp fun g row hg => pyGet_resolves.1 hg
    · rintro ⟨el, ty, mi, params, rows, f, h1, h2, h3, h4, h5, h6, h7⟩
      refine ⟨el, h1, ty, h2, mi, h3, params, pyGet_resolves.2 h4, rows, ?_, f, ?_, h7⟩
      · exact mapM_ok.2 (h5.imp fun g row hg => pyGet_resolves.2 hg)
      · rcases h6 with h6 | ⟨_, h6⟩
        · simp at h6
        · exact h6
  | some u =>
    simp only [bind_ok, pyGet_nat, pyGet_one, pyGet_two, pure_ok]
    constructor
    · rintro ⟨el, h1, ty, h2, mi, h3, params, h4, rows, h5, f, h6, h7⟩
      refine ⟨el, ty, mi, params, rows, f, h1, h2, h3, pyGet_resolves.1 h4, ?_,
        Or.inl (by rw [h6]), h7⟩
      exact (mapM_ok.1 h5).imp fun g row hg => pyGet_resolves.1 hg
    · rintro ⟨el, ty, mi, params, rows, f, h1, h2, h3, h4, h5, h6, h7⟩
      refine ⟨el, h1, ty, h2, mi, h3, params, pyGet_resolves.2 h4, rows, ?_, f, ?_, h7⟩
      · exact mapM_ok.2 (h5.imp fun g row hg => pyGet_resolves.2 hg)
      · rcases h6 with h6 | ⟨h6, _⟩
        · exact Option.some.inj h6
        · simp at h6

/-- C16. Changing other elements, other material rows, other nodes, or the id column of the node table
does not change the local matrices (or the exception) of element `e`. Ids are non-negative and in
range in both versions. -/
theorem C16_retriever_local {eleFun : ℤ → Py (Uel K)} {elements elements' : List (List ℤ)}
    {mats mats' nodes nodes' : Table K} {e e' : ℕ} {uel : Option (Uel K)} {el : List ℤ} {m : ℕ}
    (he : elements[e]? = some el) (he' : elements'[e']? = some el) (hm : el[2]? = some (m : ℤ))
    (hmats : m < mats.length) (hmats' : mats'[m]? = mats[m]?)
    (hnodes : ∀ g ∈ el.drop 3, ∃ n : ℕ, g = n ∧ n < nodes.length ∧ n < nodes'.length ∧
      (nodes'[n]?).map (List.drop 1) = (nodes[n]?).map (List.drop 1)) :
    retriever eleFun elements' mats' nodes' e' uel = retriever eleFun elements mats nodes e uel := by
  have hget : ∀ (a b : Table K) (k : ℕ), a[k]? = b[k]? → k < b.length →
      pyGet a (k : ℤ) = pyGet b (k : ℤ) := by
    intro a b k hk hl
    have h2 : b[k]? = some (b[k]) := List.getElem?_eq_getElem hl
    rw [pyGet_nat.2 h2, pyGet_nat.2 (hk.trans h2)]
  have hm' : pyGet el 2 = .ok (m : ℤ) := pyGet_two.2 hm
  have hmap : ∀ (l : List ℤ), (∀ g ∈ l, ∃ n : ℕ, g = n ∧ n < nodes.length ∧ n < nodes'.length ∧
      (nodes'[n]?).map (List.drop 1) = (nodes[n]?).map (List.drop 1)) →
      ∃ r r', pyGetMany nodes l = .ok r ∧ pyGetMany nodes' l = .ok r' ∧
        r'.map (List.drop 1) = r.map (List.drop 1) := by
    intro l hl
    unfold pyGetMany
    induction l with
    | nil => exact ⟨[], [], rfl, rfl, rfl⟩
    | cons g l ih =>
      obtain ⟨r, r', h1, h2, h3⟩ := ih fun g hg => hl g (by simp [hg])
      obtain ⟨n, rfl, hn, hn', heq⟩ := hl g (by simp)
      have a1 : nodes[n]? = some nodes[n] := List.getElem?_eq_getElem hn
      have a2 : nodes'[n]? = some nodes'[n] := List.getElem?_eq_getElem hn'
      rw [a1, a2, Option.map_some, Option.map_some, Option.some.injEq] at heq
      refine ⟨nodes[n] :: r, nodes'[n] :: r', ?_, ?_, ?_⟩
      · rw [List.mapM_cons, pyGet_nat.2 a1, ok_bind, h1, ok_bind]; rfl
      · rw [List.mapM_cons, pyGet_nat.2 a2, ok_bind, h2, ok_bind]; rfl
      · simp only [List.map_cons, heq, h3]
  obtain ⟨r, r', h1, h2, h3⟩ := hmap _ hnodes
  unfold retriever
  rw [pyGet_nat.2 he, pyGet_nat.2 he', ok_bind, ok_bind, hm']
  simp only [ok_bind, hget _ _ m hmats' hmats, h1, h2, h3]

/-- C16. A material or node id outside `[-n, n)` raises `IndexError`, whatever the element routine. -/
theorem C16_retriever_bad_ids {eleFun : ℤ → Py (Uel K)} {elements : List (List ℤ)}
    {mats nodes : Table K} {e : ℕ} {uel : Option (Uel K)} {el : List ℤ} {mi : ℤ}
    (he : elements[e]? = some el) (hm : el[2]? = some mi)
    (hbad : (∀ k, ¬ Resolves mats.length mi k) ∨ ∃ g ∈ el.drop 3, ∀ k, ¬ Resolves nodes.length g k) :
    retriever eleFun elements mats nodes e uel = .error .indexError := by
  have hlen : 2 < el.length := (List.getElem?_eq_some_iff.1 hm).1
  have hty : pyGet el 1 = .ok (el[1]'(by omega)) := pyGet_one.2 (List.getElem?_eq_getElem (by omega))
  unfold retriever
  rw [pyGet_nat.2 he, ok_bind, hty, ok_bind, pyGet_two.2 hm, ok_bind]
  cases hp : pyGet mats mi with
  | error err =>
    rw [pyGet_error hp]
    rfl
  | ok params =>
    rw [ok_bind]
    rcases hbad with hbad | ⟨g, hg, hbad⟩
    · obtain ⟨k, hk, _⟩ := pyGet_resolves.1 hp
      exact absurd hk (hbad k)
    · cases hr : pyGetMany nodes (el.drop 3) with
      | ok rows =>
        obtain ⟨row, hrow⟩ := mapM_exists.1 ⟨rows, hr⟩ g hg
        obtain ⟨k, hk, _⟩ := pyGet_resolves.1 hrow
        exact absurd hk (hbad k)
      | error err =>
        have : ∀ (l : List ℤ) (err : PyErr), pyGetMany nodes l = .error err → err = .indexError := by
          intro l
          unfold pyGetMany
          induction l with
          | nil => intro err h; simp [pure, Except.pure] at h
          | cons a l ih =>
            intro err h
            rw [List.mapM_cons] at h
            cases ha : pyGet nodes a with
            | error e' =>
              rw [ha, error_bind, Except.error.injEq] at h
              rw [← h]
              exact pyGet_error ha
            | ok x =>
              rw [ha, ok_bind] at h
              cases hl : l.mapM (pyGet nodes) with
              | error e' =>
                rw [hl, error_bind, Except.error.injEq] at h
                rw [← h]
                exact ih _ hl
              | ok xs =>
                rw [hl, ok_bind] at h
                simp [pure, Except.pure] at h
        rw [this _ err hr]
        rfl

/-- Case for C16: the second element of a two element mesh uses material row 1, nodes 1 and 2. -/
example : (retriever (fun _ => .error .valueError) [[0, 5, 0, 0, 1], [1, 5, 1, 1, 2]] [[10], [4]]
    ([[0, 0], [1, 1], [2, 3]] : Table ℚ) 1 (some fun coord params =>
      .ok (.vec 2 fun i => ((coord.getD i []).getD 0 0), .vec 1 fun _ => params.getD 0 0))).map
      (fun r => match r with | (.vec _ f, .vec _ g) => (List.ofFn f, List.ofFn g) | _ => ([], [])) =
    .ok ([1, 3], [4]) := by decide +kernel

end

/-! ## C17 -/

/-- C17. `static_sol` returns what the sparse solver returns for CSR matrices, what the dense solver
returns for arrays, and `TypeError` otherwise, whatever the solvers are. -/
theorem C17_solver_dispatch {K : Type} (sp de : Sol.Solver K) (kind : Sol.MatKind) {n : ℕ}
    (M : Matrix (Fin n) (Fin n) K) (b : Fin n → K) :
    (kind = .csr → Sol.staticSol sp de kind M b = sp n M b) ∧
    (kind = .ndarray → Sol.staticSol sp de kind M b = de n M b) ∧
    (kind ≠ .csr → kind ≠ .ndarray → Sol.staticSol sp de kind M b = .error .typeError) := by
  cases kind <;> simp [Sol.staticSol]

/-- C17. The other solver is not consulted: replacing it changes nothing. -/
theorem C17_other_solver_unused {K : Type} (sp sp' de de' : Sol.Solver K) {n : ℕ}
    (M : Matrix (Fin n) (Fin n) K) (b : Fin n → K) :
    Sol.staticSol sp de .csr M b = Sol.staticSol sp de' .csr M b ∧
    Sol.staticSol sp de .ndarray M b = Sol.staticSol sp' de .ndarray M b ∧
    Sol.staticSol sp de .other M b = Sol.staticSol sp' de' .other M b := ⟨rfl, rfl, rfl⟩

/-- Case for C17. -/
example : Sol.staticSol (fun _ _ b => .ok b) (fun _ _ _ => .error .linAlg) .csr
    (1 : Matrix (Fin 1) (Fin 1) ℚ) (fun _ => 3) = .ok (fun _ => 3) := rfl

end SolidsPy
