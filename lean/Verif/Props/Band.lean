import Verif.Props.MassGlobal
import Verif.Props.Grid
import Verif.Props.Numbering

/-! # C143: the assembled matrices couple only nodes of a common element; their band -/

set_option linter.unusedSectionVars false

namespace SolidsPy
open Spec Assem

section
variable {K : Type} [Field K] [LinearOrder K] [IsStrictOrderedRing K] [FloorRing K]

theorem setup_coupling {fn : ℤ → Uel K → Prop} {cons : Table K} {elements : List (List ℤ)} {mats nodes : Table K} {nd neq : ℕ}
    {bc : List (List ℤ)} {Kg : Matrix (Fin neq) (Fin neq) K} {ms : List (Member K)}
    (s : Setup fn cons elements mats nodes nd neq bc Kg ms) {i k : Fin neq} (h : Kg i k ≠ 0) {p j q c : ℕ} (hp : Free cons nd p j)
    (hi : entry bc p j = some ((i : ℕ) : ℤ)) (hq : Free cons nd q c) (hk : entry bc q c = some ((k : ℕ) : ℤ)) :
    ∃ m ∈ ms, p ∈ m.nodes ∧ q ∈ m.nodes := by
  by_contra hno
  push Not at hno
  apply h
  have key := s.mul (Pi.single k 1) (fun q' c' => if q' = q ∧ c' = c then 1 else 0) (fun p' hp' j' hj' => ?_) p j i hp
    ⟨_, hi, by omega, ⟨i.2, .inl rfl⟩⟩
  · rw [Matrix.mulVec_single_one] at key
    change Kg i k = _ at key
    rw [key]
    unfold internal
    apply List.sum_eq_zero
    intro x hx
    obtain ⟨m, hm, rfl⟩ := List.mem_map.1 hx
    refine Finset.sum_eq_zero fun a _ => ?_
    split
    · next ha =>
      unfold Member.force
      refine Finset.sum_eq_zero fun b hb => Finset.sum_eq_zero fun c' _ => ?_
      dsimp only
      rw [if_neg, mul_zero]
      rintro ⟨e, -⟩
      rw [Finset.mem_range] at hb
      rw [List.getD_eq_getElem?_getD, List.getElem?_eq_getElem hb, Option.getD_some] at e
      exact hno m hm (List.mem_of_getElem? ha) (e ▸ List.getElem_mem hb)
    · rfl
  · have own := owns_of_eqcounter s.eq s.valid hq hk k.2
    constructor
    · intro i' hi'
      by_cases e : i' = k
      · subst e
        rw [if_pos (own.2.2 p' j' hj' hi'), Pi.single_eq_same]
      · rw [Pi.single_eq_of_ne e, if_neg]
        rintro ⟨rfl, rfl⟩
        exact e (Fin.ext (dofEq_unique hi' ⟨_, hk, by omega, ⟨k.2, .inl rfl⟩⟩))
    · intro hno'
      rw [if_neg]
      rintro ⟨rfl, rfl⟩
      exact hno' k ⟨_, hk, by omega, ⟨k.2, .inl rfl⟩⟩

/-- The equation numbers of two free degrees of freedom differ by no more than their places in the list of all degrees of freedom. -/
theorem number_gap {cons : Table K} {nd neq : ℕ} {bc : List (List ℤ)} (h : eqcounter cons nd = .ok (neq, bc)) {p j q c : ℕ}
    {i k : Fin neq} (hp : Free cons nd p j) (hi : entry bc p j = some ((i : ℕ) : ℤ)) (hq : Free cons nd q c)
    (hk : entry bc q c = some ((k : ℕ) : ℤ)) (hik : i ≤ k) : (k : ℕ) - i + (nd * p + j) ≤ nd * q + c := by
  have hex : ∀ i : Fin neq, ∃ x : ℕ × ℕ, Free cons nd x.1 x.2 ∧ entry bc x.1 x.2 = some ((i : ℕ) : ℤ) := fun i => by
    obtain ⟨p, j, h1, h2, -⟩ := (C01_numbering_bijective h).2 i i.2
    exact ⟨(p, j), h1, h2⟩
  choose f f1 f2 using hex
  have at' : ∀ {p j} {i : Fin neq}, Free cons nd p j → entry bc p j = some ((i : ℕ) : ℤ) → f i = (p, j) := by
    intro p j i h1 h2
    obtain ⟨p', j', _, _, e⟩ := (C01_numbering_bijective h).2 i i.2
    have a := e _ _ (f1 i) (f2 i)
    have b := e _ _ h1 h2
    exact Prod.ext (a.1.trans b.1.symm) (a.2.trans b.2.symm)
  have step : ∀ {i k : Fin neq}, i < k → nd * (f i).1 + (f i).2 < nd * (f k).1 + (f k).2 := by
    intro i k hik
    by_contra hno
    have hb : Before (f k).1 (f k).2 (f i).1 (f i).2 ∨ f k = f i := by
      have j1 := (f1 i).1
      have j2 := (f1 k).1
      unfold Before
      rcases Nat.lt_trichotomy (f k).1 (f i).1 with e | e | e
      · exact .inl (.inl e)
      · rw [e] at hno
        rcases Nat.lt_or_ge (f k).2 (f i).2 with e' | e'
        · exact .inl (.inr ⟨e, e'⟩)
        · exact .inr (Prod.ext e (by omega))
      · exfalso
        have : nd * ((f i).1 + 1) ≤ nd * (f k).1 := Nat.mul_le_mul_left _ e
        rw [Nat.mul_add] at this
        omega
    rcases hb with hb | hb
    · have := C01_numbering_row_major h (f1 k) (f1 i) hb (f2 k) (f2 i)
      have : (k : ℕ) < i := by exact_mod_cast this
      exact absurd hik (by rw [Fin.lt_def]; omega)
    · have := f2 k
      rw [hb, f2 i, Option.some.injEq] at this
      have : (i : ℕ) = k := by exact_mod_cast this
      exact absurd hik (by rw [Fin.lt_def]; omega)
  have key : ∀ t (ht : (i : ℕ) + t < neq), t + (nd * (f i).1 + (f i).2) ≤ nd * (f ⟨i + t, ht⟩).1 + (f ⟨i + t, ht⟩).2 := by
    intro t
    induction t with
    | zero => intro _; simp
    | succ t ih =>
      intro ht
      have a := ih (by omega)
      have b := step (i := ⟨i + t, by omega⟩) (k := ⟨i + (t + 1), ht⟩) (by rw [Fin.lt_def]; dsimp only; omega)
      omega
  have hik' : (i : ℕ) ≤ k := hik
  have := key (k - i) (by omega)
  have e : (⟨(i : ℕ) + (k - i), by omega⟩ : Fin neq) = k := Fin.ext (by dsimp only; omega)
  rw [e, at' hp hi, at' hq hk] at this
  exact this

variable {sq : K → K} {d : Gui.Data K} {op bc : List (List ℤ)} {neq : ℕ} {Kg Mg : Matrix (Fin neq) (Fin neq) K}

/-- The row of an element table names both nodes. -/
def Spec.RowHas (n : ℕ) (el : List ℤ) (p q : ℕ) : Prop := (∃ x ∈ el.drop 3, Resolves n x p) ∧ ∃ x ∈ el.drop 3, Resolves n x q

theorem member_row {fn : ℤ → Uel K → Prop} {mats nodes : Table K} {elements : List (List ℤ)} {ms : List (Member K)}
    (hms : List.Forall₂ (IsMember fn mats nodes) elements ms) {m : Member K} (hm : m ∈ ms) {p q : ℕ} (hp : p ∈ m.nodes) (hq : q ∈ m.nodes) :
    ∃ el ∈ elements, RowHas nodes.length el p q := by
  obtain ⟨i, hi, rfl⟩ := List.mem_iff_getElem.1 hm
  have hi' : i < elements.length := by rw [hms.length_eq]; exact hi
  obtain ⟨ty, mi, params, rows, f, kl, ml, a1, a2, _, a5, _⟩ := hms.get (i := i) hi' hi
  simp only [List.get_eq_getElem] at a5
  have has : ∀ r ∈ ms[i].nodes, ∃ x ∈ elements[i].drop 3, Resolves nodes.length x r := by
    intro r hr
    obtain ⟨b, hb, rfl⟩ := List.mem_iff_getElem.1 hr
    have hb' : b < (elements[i].drop 3).length := by rw [a5.length_eq]; exact hb
    exact ⟨_, List.getElem_mem hb', a5.get hb' hb⟩
  exact ⟨_, List.getElem_mem hi', has p hp, has q hq⟩

/-- C143.  An entry of the assembled stiffness or mass matrix that is not zero belongs to degrees of freedom of nodes of a common
element. -/
theorem C143_coupling (hwf : WellFormed d) (h1 : dme d.cons d.elements = .ok (op, bc, neq))
    (h2 : assembler (Uel.eleFun sq) d.elements d.mats d.nodes neq op = .ok (Kg, Mg)) {i k : Fin neq} (h : Kg i k ≠ 0 ∨ Mg i k ≠ 0)
    {p j q c : ℕ} (hp : Free d.cons 2 p j) (hi : entry bc p j = some ((i : ℕ) : ℤ)) (hq : Free d.cons 2 q c)
    (hk : entry bc q c = some ((k : ℕ) : ℤ)) : ∃ el ∈ d.elements, RowHas d.nodes.length el p q := by
  rcases h with h | h
  · obtain ⟨ms, s⟩ := auto_setup h1 h2 hwf.codes hwf.width hwf.size
    obtain ⟨m, hm, a, b⟩ := setup_coupling s h hp hi hq hk
    exact member_row s.mem hm a b
  · obtain ⟨ms, s⟩ := mass_setup h1 h2 hwf
    obtain ⟨m, hm, a, b⟩ := setup_coupling s h hp hi hq hk
    exact member_row s.mem hm a b

/-- C143.  If the numbers of the nodes of every element differ by at most `w`, the assembled matrices have no entries more than `2 w + 1`
places away from the diagonal. -/
theorem C143_band (hwf : WellFormed d) (h1 : dme d.cons d.elements = .ok (op, bc, neq))
    (h2 : assembler (Uel.eleFun sq) d.elements d.mats d.nodes neq op = .ok (Kg, Mg)) {w : ℕ}
    (hw : ∀ el ∈ d.elements, ∀ p q, RowHas d.nodes.length el p q → p ≤ q + w) {i k : Fin neq}
    (hik : (i : ℕ) + (2 * w + 1) < k ∨ (k : ℕ) + (2 * w + 1) < i) : Kg i k = 0 ∧ Mg i k = 0 := by
  by_contra hno
  have h : Kg i k ≠ 0 ∨ Mg i k ≠ 0 := by
    by_contra h'
    push Not at h'
    exact hno h'
  have heq := (dme_ok.1 h1).1
  obtain ⟨p, j, hp, hi, -⟩ := (C01_numbering_bijective heq).2 i i.2
  obtain ⟨q, c, hq, hk, -⟩ := (C01_numbering_bijective heq).2 k k.2
  obtain ⟨el, hel, hr⟩ := C143_coupling hwf h1 h2 h hp hi hq hk
  have e1 := hw el hel p q hr
  have e2 := hw el hel q p hr.symm
  have j1 := hp.1
  have j2 := hq.1
  rcases hik with hik | hik
  · have := number_gap heq hp hi hq hk (by rw [Fin.le_def]; omega)
    omega
  · have := number_gap heq hq hk hp hi (by rw [Fin.le_def]; omega)
    omega

/-- C143.  For the meshes of `rect_grid` with `nx` elements in each row the band is `2 nx + 5`. -/
theorem C143_grid (L H : K) {nx ny : ℕ} (hels : d.elements = (Pre.rectGrid L H nx ny).2.2) (hwf : WellFormed d)
    (h1 : dme d.cons d.elements = .ok (op, bc, neq))
    (h2 : assembler (Uel.eleFun sq) d.elements d.mats d.nodes neq op = .ok (Kg, Mg)) {i k : Fin neq}
    (hik : (i : ℕ) + (2 * nx + 5) < k ∨ (k : ℕ) + (2 * nx + 5) < i) : Kg i k = 0 ∧ Mg i k = 0 := by
  refine C143_band hwf h1 h2 (w := nx + 2) (fun el hel p q hr => ?_) (by omega)
  rw [hels] at hel
  obtain ⟨e, he⟩ := List.mem_iff_getElem?.1 hel
  have hlen : e < nx * ny := by
    rw [← (C65_elements L H nx ny).2.2.1]
    exact (List.getElem?_eq_some_iff.1 he).1
  obtain ⟨b1, b2, b3⟩ := div_mod_lt hlen
  generalize e / nx = r at *
  generalize e % nx = c at *
  subst b3
  have := gridEls_getElem? (ny := ny) b1 b2
  rw [show (Pre.rectGrid L H nx ny).2.2 = Pre.gridEls nx ny from rfl, this, Option.some.injEq] at he
  subst he
  have near : ∀ p, (∃ x ∈ [((nodeNo nx r c : ℕ) : ℤ), (nodeNo nx r (c + 1) : ℕ), (nodeNo nx (r + 1) (c + 1) : ℕ), (nodeNo nx (r + 1) c : ℕ)],
      Resolves d.nodes.length x p) → nodeNo nx r c ≤ p ∧ p ≤ nodeNo nx r c + (nx + 2) := by
    rintro p ⟨x, hx, hr1, hr2⟩
    unfold nodeNo at *
    have e : (r + 1) * (nx + 1) = r * (nx + 1) + (nx + 1) := by ring
    rw [e] at hx
    simp only [List.mem_cons, List.not_mem_nil, or_false] at hx
    omega
  have a := near p hr.1
  have b := near q hr.2
  omega

end

section demo

theorem floating_wf : WellFormed floatingPlate := by
  refine ⟨?_, ?_, rfl⟩
  · intro p j x hj hx
    obtain ⟨row, h1, h2⟩ := entry_some.1 hx
    have := List.mem_of_getElem? h1
    have hr : row = [0, 0] := List.eq_of_mem_replicate this
    subst hr
    rcases (by omega : j = 0 ∨ j = 1) with rfl | rfl <;> simp at h2 <;> exact .inl h2.symm
  · intro r hr
    rw [List.eq_of_mem_replicate hr]
    rfl

/-- Case for C143: the plate of two by two rectangles has 18 equations; the first and the last are not coupled, while the corners of the
first rectangle are. -/
example : ∃ op bc, ∃ Kg Mg : Matrix (Fin 18) (Fin 18) ℚ, dme floatingPlate.cons floatingPlate.elements = .ok (op, bc, 18) ∧
    assembler (Uel.eleFun id) floatingPlate.elements floatingPlate.mats floatingPlate.nodes 18 op = .ok (Kg, Mg) ∧
    (Kg 0 17 = 0 ∧ Mg 0 17 = 0) ∧ Kg 0 9 ≠ 0 := by
  obtain ⟨x, hx⟩ := isOk_exists (x := (do
    let (op, bc, neq) ← dme floatingPlate.cons floatingPlate.elements
    let (Kg, _) ← assembler (Uel.eleFun id) floatingPlate.elements floatingPlate.mats floatingPlate.nodes neq op
    if h : neq = 18 then (if Kg ⟨0, by omega⟩ ⟨9, by omega⟩ ≠ 0 then pure () else .error .valueError) else .error .valueError : Py Unit))
      (by decide +kernel)
  obtain ⟨⟨op, bc, neq⟩, h1, hx⟩ := bind_ok.1 hx
  dsimp only at hx
  obtain ⟨⟨Kg, Mg⟩, h2, hx⟩ := bind_ok.1 hx
  dsimp only at hx
  split at hx
  case isFalse => cases hx
  rename_i hn
  subst hn
  split at hx
  case isFalse => cases hx
  rename_i h9
  exact ⟨op, bc, Kg, Mg, h1, h2, C143_grid (nx := 2) (ny := 2) (4 : ℚ) 2 rfl floating_wf h1 h2 (.inl (by decide)), h9⟩

end demo
end SolidsPy
