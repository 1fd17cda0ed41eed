import Verif.Proofs.Dme
import Verif.Spec.Loads
import Verif.Model.Post

/-! Lemmas about `loadasem` and `complete_disp`. -/

set_option linter.unusedSectionVars false

namespace SolidsPy
open Spec

section
variable {K : Type} [Field K] [LinearOrder K] [IsStrictOrderedRing K] [FloorRing K]

/-- `pyTrunc` is the integer part. -/
theorem pyTrunc_iff {x : K} {z : ℤ} : pyTrunc x = z ↔
    ((0 ≤ x ∧ (z : K) ≤ x ∧ x < z + 1) ∨ (x ≤ 0 ∧ (z : K) - 1 < x ∧ x ≤ z)) := by
  unfold pyTrunc
  split
  · rename_i h
    rw [Int.floor_eq_iff]
    constructor
    · rintro ⟨h1, h2⟩
      exact Or.inl ⟨h, h1, h2⟩
    · rintro (⟨_, h1, h2⟩ | ⟨h0, h1, h2⟩)
      · exact ⟨h1, h2⟩
      · have hx : x = 0 := le_antisymm h0 h
        subst hx
        have hz1 : (z : K) < 1 := by linarith
        have hz : z < 1 := by exact_mod_cast hz1
        have hz0 : 0 ≤ z := by exact_mod_cast h2
        have : z = 0 := by omega
        subst this
        simp
  · rename_i h
    rw [Int.ceil_eq_iff]
    constructor
    · rintro ⟨h1, h2⟩
      exact Or.inr ⟨by linarith, h1, h2⟩
    · rintro (⟨h0, _⟩ | ⟨_, h1, h2⟩)
      · exact absurd h0 h
      · exact ⟨h1, h2⟩

theorem names_iff {n : ℕ} {load : List K} {p : ℕ} :
    Names n load p ↔ ∃ x, load[0]? = some x ∧ Resolves n (pyTrunc x) p := by
  constructor
  · rintro ⟨x, z, h1, h2, h3⟩
    rw [← pyTrunc_iff] at h3
    subst h3
    exact ⟨x, h1, h2⟩
  · rintro ⟨x, h1, h2⟩
    exact ⟨x, pyTrunc x, h1, h2, pyTrunc_iff.1 rfl⟩

namespace Assem

theorem resolves_unique {n : ℕ} {i : ℤ} {k k' : ℕ} (h : Resolves n i k) (h' : Resolves n i k') :
    k = k' := by
  unfold Resolves at h h'
  omega

/-- Equation `i` belongs to degree of freedom `(p, j)` only. -/
def Owns (bc : List (List ℤ)) (neq nd p j i : ℕ) : Prop :=
  j < nd ∧ DofEq bc neq p j i ∧ ∀ p' j', j' < nd → DofEq bc neq p' j' i → p' = p ∧ j' = j

theorem setAt_ok {neq : ℕ} {v v' : Fin neq → K} {g : ℤ} {x : K} (h : setAt v g x = .ok v')
    (i : Fin neq) : v' i = if Resolves neq g i then x else v i := by
  unfold setAt at h
  rw [bind_ok] at h
  obtain ⟨a, ha, h⟩ := h
  rw [pure_ok] at h
  subst h
  rw [pyFin_ok] at ha
  have : i = a ↔ Resolves neq g i := by
    have := i.2
    have := a.2
    rw [Fin.ext_iff]
    unfold Resolves
    omega
  simp only [this]

theorem loadDofs_effect {neq : ℕ} {row : List ℤ} {load : List K} {ds : List ℕ} {v v' : Fin neq → K}
    (h : ds.foldlM (loadDof row load) v = .ok v') (i : Fin neq) :
    ((∀ d ∈ ds, ∀ g, row[d]? = some g → g ≠ -1 → ¬ Resolves neq g i) → v' i = v i) ∧
    (∀ j ∈ ds, (∃ g, row[j]? = some g ∧ g ≠ -1 ∧ Resolves neq g i) →
      (∀ d ∈ ds, ∀ g, row[d]? = some g → g ≠ -1 → Resolves neq g i → d = j) →
      load[j + 1]? = some (v' i)) := by
  induction ds generalizing v with
  | nil =>
    rw [List.foldlM_nil, pure_ok] at h
    subst h
    simp
  | cons d ds ih =>
    rw [List.foldlM_cons, bind_ok] at h
    obtain ⟨w, hw, h⟩ := h
    obtain ⟨ih1, ih2⟩ := ih h
    unfold loadDof at hw
    rw [bind_ok] at hw
    obtain ⟨g, hg, hw⟩ := hw
    rw [pyGet_nat] at hg
    have hstep : (g ≠ -1 ∧ Resolves neq g i → load[d + 1]? = some (w i)) ∧
        (¬ (g ≠ -1 ∧ Resolves neq g i) → w i = v i) := by
      by_cases hne : g ≠ -1
      · rw [if_pos hne, bind_ok] at hw
        obtain ⟨x, hx, hw⟩ := hw
        have hx' : load[d + 1]? = some x := by
          rw [← pyGet_nat]
          simpa using hx
        have := setAt_ok hw i
        constructor
        · rintro ⟨_, hr⟩
          rw [this, if_pos hr, hx']
        · intro hn
          rw [this, if_neg fun hr => hn ⟨hne, hr⟩]
      · rw [if_neg hne, pure_ok] at hw
        subst hw
        exact ⟨fun h => absurd h.1 hne, fun _ => rfl⟩
    constructor
    · intro hall
      rw [ih1 fun d' hd' => hall d' (by simp [hd'])]
      exact hstep.2 fun ⟨h1, h2⟩ => hall d (by simp) g hg h1 h2
    · intro j hj hhit huniq
      rcases List.mem_cons.1 hj with rfl | hj'
      · obtain ⟨g', hg', hne, hr⟩ := hhit
        have : g' = g := by rw [hg, Option.some.injEq] at hg'; exact hg'.symm
        subst this
        by_cases hmem : ∃ d ∈ ds, ∃ g, row[d]? = some g ∧ g ≠ -1 ∧ Resolves neq g i
        · obtain ⟨d', hd', g'', hg'', hne', hr'⟩ := hmem
          have hdj := huniq d' (by simp [hd']) g'' hg'' hne' hr'
          subst hdj
          exact ih2 d' hd' ⟨g'', hg'', hne', hr'⟩ fun d hd => huniq d (by simp [hd])
        · push Not at hmem
          rw [ih1 fun d hd g hg hne => hmem d hd g hg hne]
          exact hstep.1 ⟨hne, hr⟩
      · exact ih2 j hj' hhit fun d hd => huniq d (by simp [hd])

theorem loadRow_effect {neq nd : ℕ} {bc : List (List ℤ)} {load : List K} {v v' : Fin neq → K}
    (h : loadRow bc nd v load = .ok v') {i : Fin neq} {p j : ℕ} (ho : Owns bc neq nd p j i) :
    (Names bc.length load p → load[j + 1]? = some (v' i)) ∧
    (¬ Names bc.length load p → v' i = v i) := by
  unfold loadRow at h
  simp only [bind_ok] at h
  obtain ⟨x, hx, row, hrow, h⟩ := h
  rw [pyGet_zero] at hx
  obtain ⟨p', hp', hrow'⟩ := pyGet_resolves.1 hrow
  obtain ⟨e1, e2⟩ := loadDofs_effect h i
  obtain ⟨hj, hd, huniq⟩ := ho
  have hentry : ∀ d g, row[d]? = some g → entry bc p' d = some g := by
    intro d g hg
    exact entry_some.2 ⟨row, hrow', hg⟩
  constructor
  · intro hn
    obtain ⟨x', hx', hr⟩ := names_iff.1 hn
    rw [hx, Option.some.injEq] at hx'
    subst hx'
    have hpp := resolves_unique hr hp'
    subst hpp
    obtain ⟨g, hg, hne, hr2⟩ := hd
    obtain ⟨row2, hr1, hr3⟩ := entry_some.1 hg
    rw [hrow', Option.some.injEq] at hr1
    subst hr1
    refine e2 j (List.mem_range.2 hj) ⟨g, hr3, hne, hr2⟩ fun d hd g hg hne hr => ?_
    exact (huniq _ d (List.mem_range.1 hd) ⟨g, hentry d g hg, hne, hr⟩).2
  · intro hn
    apply e1
    intro d hd g hg hne hr
    have := (huniq p' d (List.mem_range.1 hd) ⟨g, hentry d g hg, hne, hr⟩).1
    subst this
    exact hn (names_iff.2 ⟨x, hx, hp'⟩)

theorem loads_fold_effect {neq nd : ℕ} {bc : List (List ℤ)} {loads : Table K} {v v' : Fin neq → K}
    (h : loads.foldlM (loadRow bc nd) v = .ok v') {i : Fin neq} {p j : ℕ}
    (ho : Owns bc neq nd p j i) :
    ((∀ L ∈ loads, ¬ Names bc.length L p) → v' i = v i) ∧
    (∀ pre L post, loads = pre ++ L :: post → Names bc.length L p →
      (∀ L' ∈ post, ¬ Names bc.length L' p) → L[j + 1]? = some (v' i)) := by
  induction loads generalizing v with
  | nil =>
    rw [List.foldlM_nil, pure_ok] at h
    subst h
    simp
  | cons a loads ih =>
    rw [List.foldlM_cons, bind_ok] at h
    obtain ⟨w, hw, h⟩ := h
    obtain ⟨ih1, ih2⟩ := ih h
    obtain ⟨s1, s2⟩ := loadRow_effect hw ho
    constructor
    · intro hall
      rw [ih1 fun L hL => hall L (by simp [hL])]
      exact s2 (hall a (by simp))
    · intro pre L post heq hn hpost
      cases pre with
      | nil =>
        simp only [List.nil_append, List.cons.injEq] at heq
        obtain ⟨rfl, rfl⟩ := heq
        rw [ih1 hpost]
        exact s1 hn
      | cons b pre =>
        simp only [List.cons_append, List.cons.injEq] at heq
        exact ih2 pre L post heq.2 hn hpost

/-- With the documented codes, every equation has exactly one owner. -/
theorem owns_of_eqcounter {cons : Table K} {nd neq : ℕ} {bc : List (List ℤ)}
    (h : eqcounter cons nd = .ok (neq, bc)) (hv : ValidCons cons nd) {p j i : ℕ} (hf : Free cons nd p j)
    (he : entry bc p j = some (i : ℤ)) (hi : i < neq) : Owns bc neq nd p j i := by
  refine ⟨hf.1, ⟨i, he, by omega, hi, Or.inl rfl⟩, fun p' j' hj' hd => ?_⟩
  obtain ⟨g, hg, hne, hr⟩ := hd
  have hs := (eqcounter_shape h).1
  -- the entry of `cons` exists
  obtain ⟨row, h1, h2⟩ := entry_some.1 hg
  have hex : ∃ x, entry cons p' j' = some x := by
    have hlen := congrArg (fun l => l[p']?) hs
    simp only [List.getElem?_map, h1, Option.map_some] at hlen
    cases hc : cons[p']? with
    | none => rw [hc] at hlen; simp at hlen
    | some r =>
      rw [hc] at hlen
      simp only [Option.map_some, Option.some.injEq] at hlen
      have hlt : j' < r.length := by
        rw [← hlen]
        exact (List.getElem?_eq_some_iff.1 h2).1
      exact ⟨r[j'], entry_some.2 ⟨r, hc, List.getElem?_eq_getElem hlt⟩⟩
  obtain ⟨x, hx⟩ := hex
  rcases hv p' j' x hj' hx with rfl | rfl
  · have hf' : Free cons nd p' j' := ⟨hj', 0, hx, by linarith [zero_lt_one (α := K)], zero_lt_one⟩
    have e1 := (free_entry h hf').1
    have e2 := (free_entry h hf).1
    rw [hg, Option.some.injEq] at e1
    rw [he, Option.some.injEq] at e2
    have h3 := (free_entry h hf').2
    have : rank cons nd p' j' = rank cons nd p j := by
      unfold Resolves at hr
      omega
    exact rank_inj hf' hf this
  · have e1 := eqcounter_entry h hx
    have : pyTrunc (-1 : K) = -1 := by
      have := pyTrunc_intCast (K := K) (-1)
      simpa using this
    rw [this, if_neg (by omega), hg, Option.some.injEq] at e1
    exact absurd e1 hne

end Assem
end

namespace Post
variable {K : Type} [Field K]

theorem completeDisp_entry {neq : ℕ} {bc : List (List ℤ)} {nn nd : ℕ} {sol : Fin neq → K}
    {full : Table K} (h : completeDisp bc nn sol nd = .ok full) {p j : ℕ} (hp : p < nn) (hj : j < nd) :
    ∃ g x, entry bc p j = some g ∧ entry full p j = some x ∧
      ((g = -1 ∧ x = 0) ∨ (g ≠ -1 ∧ ∃ i : Fin neq, Resolves neq g i ∧ x = sol i)) := by
  unfold completeDisp at h
  obtain ⟨row, hrow, hr⟩ := mapM_getElem? h (i := p) (a := p) (by simp [hp])
  rw [bind_ok] at hr
  obtain ⟨bcRow, hb, hr⟩ := hr
  rw [pyGet_nat] at hb
  unfold completeRow at hr
  obtain ⟨x, hx, hc⟩ := mapM_getElem? hr (i := j) (a := j) (by simp [hj])
  rw [bind_ok] at hc
  obtain ⟨g, hg, hc⟩ := hc
  rw [pyGet_nat] at hg
  refine ⟨g, x, Assem.entry_some.2 ⟨bcRow, hb, hg⟩, Assem.entry_some.2 ⟨row, hrow, hx⟩, ?_⟩
  by_cases hm : g = -1
  · rw [if_pos hm, pure_ok] at hc
    exact Or.inl ⟨hm, hc.symm⟩
  · rw [if_neg hm, bind_ok] at hc
    obtain ⟨k, hk, hc⟩ := hc
    rw [pure_ok] at hc
    refine Or.inr ⟨hm, k, ?_, hc.symm⟩
    rw [pyFin_ok] at hk
    have := k.2
    unfold Resolves
    omega

theorem completeDisp_shape {neq : ℕ} {bc : List (List ℤ)} {nn nd : ℕ} {sol : Fin neq → K}
    {full : Table K} (h : completeDisp bc nn sol nd = .ok full) :
    full.length = nn ∧ ∀ r ∈ full, r.length = nd := by
  unfold completeDisp at h
  refine ⟨by simpa using mapM_length h, fun r hr => ?_⟩
  obtain ⟨i, hi, rfl⟩ := List.mem_iff_getElem.1 hr
  have hl : i < nn := by
    have := mapM_length h
    simp at this
    omega
  obtain ⟨row, hrow, hr⟩ := mapM_getElem? h (i := i) (a := i) (by simp [hl])
  rw [List.getElem?_eq_getElem hi, Option.some.injEq] at hrow
  rw [hrow]
  rw [bind_ok] at hr
  obtain ⟨bcRow, hb, hr⟩ := hr
  unfold completeRow at hr
  simpa using mapM_length hr

theorem completeDisp_exists {neq : ℕ} {bc : List (List ℤ)} {nn nd : ℕ} {sol : Fin neq → K}
    (h : ∀ p < nn, ∀ j < nd, ∃ g, entry bc p j = some g ∧
      (g = -1 ∨ ∃ i : Fin neq, Resolves neq g i)) (hb : nn ≤ bc.length) :
    ∃ full, completeDisp bc nn sol nd = .ok full := by
  unfold completeDisp
  rw [mapM_exists]
  intro p hp
  rw [List.mem_range] at hp
  have hbp : bc[p]? = some (bc[p]'(by omega)) := List.getElem?_eq_getElem (by omega)
  rw [pyGet_nat.2 hbp, ok_bind]
  unfold completeRow
  rw [mapM_exists]
  intro j hj
  rw [List.mem_range] at hj
  obtain ⟨g, hg, hres⟩ := h p hp j hj
  obtain ⟨row, h1, h2⟩ := Assem.entry_some.1 hg
  rw [hbp, Option.some.injEq] at h1
  rw [← h1] at h2
  rw [pyGet_nat.2 h2, ok_bind]
  by_cases hm : g = -1
  · exact ⟨0, by rw [if_pos hm]; rfl⟩
  · rcases hres with hres | ⟨i, hi⟩
    · exact absurd hres hm
    · have : pyFin neq g = .ok i := by
        rw [pyFin_ok]
        unfold Resolves at hi
        omega
      exact ⟨sol i, by rw [if_neg hm, this]; rfl⟩

end Post
end SolidsPy
