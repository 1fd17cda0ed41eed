import Verif.Proofs.Twin

/-! Elements on a changed table of nodes, and the weak form of equilibrium. -/

set_option linter.unusedSectionVars false

namespace SolidsPy
open Spec Assem Matrix

section
variable {K : Type} [Field K] [LinearOrder K] [IsStrictOrderedRing K] [FloorRing K]
variable {sq : K → K} {d : Gui.Data K} {ms : List (Member K)}

/-- The row `el` over another table of nodes, where its routine accepts the new coordinates. -/
theorem member_moved {mats nodes nodes' : Table K} {el : List ℤ} {m : Member K} {n : ℕ}
    (h : IsMember (Routine sq) mats nodes el m) (hl : nodes'.length = nodes.length) (h3 : ∀ r ∈ nodes', r.length = 3)
    {ty mi : ℤ} {q : ℕ} {params : List K} {f : Uel K} {X X' : Matrix (Fin n) (Fin 2) K} {k k' mm'}
    (hty : el[1]? = some ty) (hf : Uel.eleFun sq ty = .ok f) (hmi : el[2]? = some mi) (hq : Resolves mats.length mi q)
    (hp : mats[q]? = some params) (hpl : Placed nodes m X k) (hr : Returns f X' params k' mm')
    (hc : ∀ (a : Fin n) (i : Fin 2), entry nodes' (m.nodes.getD a 0) (i + 1) = some (X' a i)) :
    ∃ m', IsMember (Routine sq) mats nodes' el m' ∧ m'.nodes = m.nodes ∧ Placed nodes' m' X' k' := by
  obtain ⟨A, B, hAB, hA, hB⟩ := hr
  obtain ⟨_, _, _, _, _, _, _, -, -, -, a5, a6, -⟩ := h
  obtain ⟨rows, hrows⟩ : ∃ rows, List.Forall₂ (fun p row => nodes'[p]? = some row) m.nodes rows := by
    have hin : ∀ p ∈ m.nodes, p < nodes'.length := by
      intro p hp
      obtain ⟨i, hi, rfl⟩ := List.mem_iff_getElem.1 hp
      have := a5.get (i := i) (by rw [a5.length_eq]; exact hi) hi
      rw [hl]
      exact this.1
    clear hpl hc a5 a6
    generalize m.nodes = l at hin
    induction l with
    | nil => exact ⟨[], .nil⟩
    | cons p l ih =>
      obtain ⟨rows, hrows⟩ := ih fun q hq => hin q (List.mem_cons_of_mem _ hq)
      exact ⟨_, .cons (List.getElem?_eq_getElem (hin p List.mem_cons_self)) hrows⟩
  have hlen : rows.length = n := hrows.length_eq.symm.trans hpl.size
  have hX : rows.map (List.drop 1) = matRows X' := by
    apply List.ext_getElem
    · simp [matRows, hlen]
    · intro a ha ha'
      have ha : a < rows.length := by simpa using ha
      have han : a < n := by omega
      have hm : a < m.nodes.length := by rw [hpl.size]; exact han
      have e1 := hrows.get (i := a) hm ha
      simp only [List.get_eq_getElem] at e1
      have hw := h3 _ (List.mem_of_getElem? e1)
      have c0 := hc ⟨a, han⟩ 0
      have c1 := hc ⟨a, han⟩ 1
      simp only [List.getD_eq_getElem?_getD, List.getElem?_eq_getElem hm, Option.getD_some] at c0 c1
      obtain ⟨r0, hr0, x0⟩ := entry_some.1 c0
      obtain ⟨r1, hr1, x1⟩ := entry_some.1 c1
      rw [e1, Option.some.injEq] at hr0 hr1
      subst hr0
      rw [← hr1] at x1
      simp only [List.getElem_map, matRows, List.getElem_ofFn]
      generalize rows[a] = r at hw x0 x1
      match r, hw with
      | [i, x, y], _ =>
        simp at x0 x1
        simp [List.ofFn_succ, x0, x1]
  have hm : IsMember (Routine sq) mats nodes' el ⟨m.nodes, cell A⟩ := by
    refine ⟨ty, mi, params, rows, f, A, B, hty, hmi, ⟨q, hq, hp⟩, ?_, hrows, hf, ?_, rfl⟩
    · rw [hl]
      exact a5
    · rw [hX]
      exact hAB
  exact ⟨_, hm, rfl, placed_of_rows hrows hX rfl hA⟩

/-- Equilibrium in weak form: internal and external work agree on all admissible fields. -/
theorem equilibrium_weak (hwf : WellFormed d) (hms : Members sq d ms) {F U : ℕ → ℕ → K} (hF : LoadField d F) :
    Equilibrium d.cons 2 d.loads ms U ↔ Admissible d.cons 2 U ∧ ∀ V, Admissible d.cons 2 V →
      ∑ p ∈ Finset.range d.nodes.length, ∑ j ∈ Finset.range 2, V p j * F p j = (ms.map fun m => m.form 2 V U).sum := by
  constructor
  · intro h
    exact ⟨h.1, fun V hV => load_work hwf hms hF h hV⟩
  · rintro ⟨ha, H⟩
    refine ⟨ha, fun p j hf => ?_⟩
    have hp := free_lt hf
    rw [hwf.size] at hp
    have hV : Admissible d.cons 2 (fun p' j' => if p' = p ∧ j' = j then (1 : K) else 0) := by
      intro p' j' _ _ hf'
      dsimp only
      rw [if_neg]
      rintro ⟨rfl, rfl⟩
      exact hf' hf
    have := H _ hV
    rw [← internal_eq_form (members_inn hms) U hp hf.1] at this
    have h2 : ∑ p' ∈ Finset.range d.nodes.length, ∑ j' ∈ Finset.range 2,
        (if p' = p ∧ j' = j then (1 : K) else 0) * F p' j' = F p j := by
      rw [Finset.sum_eq_single p, Finset.sum_eq_single j]
      · simp
      · intro b _ hb
        simp [hb]
      · intro hc
        exact absurd (Finset.mem_range.2 hf.1) hc
      · intro b _ hb
        simp [hb]
      · intro hc
        exact absurd (Finset.mem_range.2 hp) hc
    rw [← this, h2, hwf.size]
    exact hF p j hp hf.1

/-- Stability in weak form. -/
theorem stable_weak (hwf : WellFormed d) (hms : Members sq d ms) :
    Stable d.cons 2 ms ↔ ∀ U, Admissible d.cons 2 U →
      (∀ V, Admissible d.cons 2 V → (ms.map fun m => m.form 2 V U).sum = 0) → ∀ p < d.nodes.length, ∀ j < 2, U p j = 0 := by
  constructor
  · intro hst U hU H p hp j hj
    refine hst U hU (fun p j hf => ?_) p j (by rw [hwf.size]; exact hp) hj
    have hp := free_lt hf
    rw [hwf.size] at hp
    rw [internal_eq_form (members_inn hms) U hp hf.1]
    apply H
    intro p' j' _ _ hf'
    dsimp only
    rw [if_neg]
    rintro ⟨rfl, rfl⟩
    exact hf' hf
  · intro H U hU hz p j hp hj
    refine H U hU (fun V hV => ?_) p (by rw [← hwf.size]; exact hp) j hj
    rw [← virtual_work (members_inn hms)]
    refine Finset.sum_eq_zero fun p hp => Finset.sum_eq_zero fun j hj => ?_
    rw [Finset.mem_range] at hp hj
    by_cases hf : Free d.cons 2 p j
    · rw [hz p j hf, mul_zero]
    · rw [hV p j (by rw [hwf.size]; exact hp) hj hf, zero_mul]

theorem forms_congr (hms : Members sq d ms) {V V' U U' : ℕ → ℕ → K}
    (hV : ∀ p < d.nodes.length, ∀ j < 2, V p j = V' p j) (hU : ∀ p < d.nodes.length, ∀ j < 2, U p j = U' p j) :
    (ms.map fun m => m.form 2 V U).sum = (ms.map fun m => m.form 2 V' U').sum := by
  rw [← virtual_work (members_inn hms), ← virtual_work (members_inn hms)]
  refine Finset.sum_congr rfl fun p hp => Finset.sum_congr rfl fun j hj => ?_
  rw [Finset.mem_range] at hp hj
  rw [hV p hp j hj, internal_congr (members_inn hms) fun p hp j hj => hU p hp j hj]

/-- The map `T` of nodal fields carries the model `d` to the model `d'`: admissible fields to admissible fields, with the internal work
multiplied by `a`. -/
structure Carries (T : (ℕ → ℕ → K) → ℕ → ℕ → K) (a : K) (d d' : Gui.Data K) (ms ms' : List (Member K)) : Prop where
  size : d'.nodes.length = d.nodes.length
  adm : ∀ V, Admissible d.cons 2 V → Admissible d'.cons 2 (T V)
  onto : ∀ V', Admissible d'.cons 2 V' → ∃ V, Admissible d.cons 2 V ∧ ∀ p < d.nodes.length, ∀ j < 2, V' p j = T V p j
  zero : ∀ V, (∀ p < d.nodes.length, ∀ j < 2, V p j = 0) → ∀ p < d.nodes.length, ∀ j < 2, T V p j = 0
  form : ∀ V U, (ms'.map fun m => m.form 2 (T V) (T U)).sum = a * (ms.map fun m => m.form 2 V U).sum

theorem Carries.equilibrium {d' : Gui.Data K} {ms' : List (Member K)} {T : (ℕ → ℕ → K) → ℕ → ℕ → K} {a : K}
    (h : Carries T a d d' ms ms') (hwf : WellFormed d) (hwf' : WellFormed d') (hms : Members sq d ms)
    (hms' : Members sq d' ms') {F F' U : ℕ → ℕ → K} (hF : LoadField d F) (hF' : LoadField d' F')
    (hwork : ∀ V, Admissible d.cons 2 V →
      ∑ p ∈ Finset.range d.nodes.length, ∑ j ∈ Finset.range 2, T V p j * F' p j =
      a * ∑ p ∈ Finset.range d.nodes.length, ∑ j ∈ Finset.range 2, V p j * F p j)
    (hU : Equilibrium d.cons 2 d.loads ms U) : Equilibrium d'.cons 2 d'.loads ms' (T U) := by
  obtain ⟨h1, h2⟩ := (equilibrium_weak hwf hms hF).1 hU
  refine (equilibrium_weak hwf' hms' hF').2 ⟨h.adm U h1, fun V' hV' => ?_⟩
  obtain ⟨V, hV, e⟩ := h.onto V' hV'
  rw [forms_congr hms' (V' := T V) (U' := T U) (fun p hp => e p (by rw [← h.size]; exact hp)) (fun _ _ _ _ => rfl),
    h.form, ← h2 V hV, ← hwork V hV, h.size]
  refine Finset.sum_congr rfl fun p hp => Finset.sum_congr rfl fun j hj => ?_
  rw [Finset.mem_range] at hp hj
  rw [e p hp j hj]

theorem Carries.stable {d' : Gui.Data K} {ms' : List (Member K)} {T : (ℕ → ℕ → K) → ℕ → ℕ → K} {a : K} (ha : a ≠ 0)
    (h : Carries T a d d' ms ms') (hwf : WellFormed d) (hwf' : WellFormed d') (hms : Members sq d ms)
    (hms' : Members sq d' ms') (hst : Stable d.cons 2 ms) : Stable d'.cons 2 ms' := by
  rw [stable_weak hwf' hms']
  intro U' hU' H p hp j hj
  obtain ⟨U, hU, e⟩ := h.onto U' hU'
  rw [h.size] at hp
  rw [e p hp j hj]
  refine h.zero U ?_ p hp j hj
  refine (stable_weak hwf hms).1 hst U hU fun V hV => ?_
  have := H (T V) (h.adm V hV)
  rw [forms_congr hms' (V' := T V) (U' := T U) (fun _ _ _ _ => rfl) (fun p hp => e p (by rw [← h.size]; exact hp)),
    h.form] at this
  exact (mul_eq_zero.1 this).resolve_left ha

/-- Two runs on models so related return related displacements. -/
theorem Carries.disp {sp de : Sol.Solver K} {d' : Gui.Data K} {ms' : List (Member K)} {T : (ℕ → ℕ → K) → ℕ → ℕ → K} {a : K}
    (ha : a ≠ 0) (h : Carries T a d d' ms ms') (hwf : WellFormed d) (hwf' : WellFormed d') (hms : Members sq d ms)
    (hms' : Members sq d' ms') (hsp : SolverOk sp) (hst : Stable d.cons 2 ms) {F F' : ℕ → ℕ → K} (hF : LoadField d F)
    (hF' : LoadField d' F')
    (hwork : ∀ V, Admissible d.cons 2 V →
      ∑ p ∈ Finset.range d.nodes.length, ∑ j ∈ Finset.range 2, T V p j * F' p j =
      a * ∑ p ∈ Finset.range d.nodes.length, ∑ j ∈ Finset.range 2, V p j * F p j)
    {plot plot' : Bool} {res res' : Gui.Result K} (h1 : Gui.solidsAuto sq sp de d plot = .ok res)
    (h2 : Gui.solidsAuto sq sp de d' plot' = .ok res') :
    ∀ p < d.nodes.length, ∀ j < 2, entry res'.disp p j = some (T (fieldOf res.disp) p j) := by
  intro p hp j hj
  have he := (C18_nodal_equilibrium hwf hsp hms hst h1).2
  exact C19_only_equilibrium hwf' hsp hms' (h.stable ha hwf hwf' hms hms' hst) h2
    (h.equilibrium hwf hwf' hms hms' hF hF' hwork he) p j (by rw [h.size]; exact hp) hj

end
end SolidsPy
