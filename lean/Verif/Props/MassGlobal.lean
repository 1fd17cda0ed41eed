import Verif.Props.Mass
import Verif.Props.GridModel
import Verif.Proofs.Twin

/-! # C114: the assembled mass matrix -/

set_option linter.unusedSectionVars false

namespace SolidsPy
open Spec Assem Matrix Fem Uel Pre

section
variable {K : Type} [Field K] [LinearOrder K] [IsStrictOrderedRing K] [FloorRing K]
variable {sq : K → K} {d : Gui.Data K} {ms : List (Member K)}

/-- An element routine with its two arrays exchanged. -/
def swapped (f : Uel K) : Uel K := fun c p => (f c p).map Prod.swap

theorem swapped_ok {f : Uel K} {c : Table K} {p : List K} {kl ml : NdArr K} :
    swapped f c p = .ok (ml, kl) ↔ f c p = .ok (kl, ml) := by
  unfold swapped
  cases f c p with
  | error e => simp [Except.map]
  | ok x => simp [Except.map, Prod.ext_iff, and_comm]

/-- The routine of the type, with the mass array first. -/
def MassRoutine (sq : K → K) (ty : ℤ) (f : Uel K) : Prop := ∃ f0, Uel.eleFun sq ty = .ok f0 ∧ f = swapped f0

/-- The elements of a model with their mass arrays in the place of their stiffnesses. -/
def Masses (sq : K → K) (d : Gui.Data K) (ms : List (Member K)) : Prop :=
  List.Forall₂ (IsMember (MassRoutine sq) d.mats d.nodes) d.elements ms

theorem mass_setup {op bc : List (List ℤ)} {neq : ℕ}
    {Kg Mg : Matrix (Fin neq) (Fin neq) K} (h1 : dme d.cons d.elements = .ok (op, bc, neq))
    (h2 : assembler (Uel.eleFun sq) d.elements d.mats d.nodes neq op = .ok (Kg, Mg)) (hwf : WellFormed d) :
    ∃ ms, Setup (MassRoutine sq) d.cons d.elements d.mats d.nodes 2 neq bc Mg ms := by
  obtain ⟨loc, opr, a1, a2⟩ := assembler_scatter h2
  refine setup_of_scatter (g := Prod.snd) (fun ty f coord params r hf h => ?_) h1 hwf.codes hwf.width hwf.size (by omega) a1
    (fun i j => (a2 i j).2) ?_
  · rcases hf with hf | ⟨-, hf⟩
    · simp at hf
    · exact ⟨swapped f, r.1, ⟨f, hf, rfl⟩, swapped_ok.2 h⟩
  · intro el hel ty f coord params kl ml hty hf hcl hk
    rcases hf with hf | ⟨_, hf⟩
    · simp at hf
    · obtain ⟨ty', h3, h4, _⟩ := (C05_dme_accepts_iff hwf.width).1 ⟨_, h1⟩ el hel
      rw [hty, Option.some.injEq] at h3
      subst h3
      have h5 := eleFun_rows hf hk
      refine ⟨typeDofs_unique h5 h4, rowsOf kl, ?_, h5⟩
      unfold TypeDofs at h5
      omega

/-- A plane element with its mass. -/
theorem mass_placed_of {mats nodes : Table K} {el : List ℤ} {m : Member K} (h : IsMember (MassRoutine sq) mats nodes el m)
    {ty : ℤ} (hty : el[1]? = some ty) {n : ℕ} {f : Uel K} (hf : Uel.eleFun sq ty = .ok f) (hp : PlaneElement n f) :
    ∃ mi, ∃ q : ℕ, ∃ params X k mm, el[2]? = some mi ∧ Resolves mats.length mi q ∧ mats[q]? = some params ∧
      Returns (n := n) (d := 2) f X params k mm ∧ Placed nodes m X mm := by
  obtain ⟨ty', mi, params, rows, f', kl, ml, a1, a2, ⟨q, a3, a4⟩, a5, a6, ⟨f0, hf0, rfl⟩, a8, a9⟩ := h
  rw [hty, Option.some.injEq] at a1
  subst a1
  rw [hf, Except.ok.injEq] at hf0
  subst hf0
  obtain ⟨X, k, mm, hX, hk, hm, hr⟩ := C38_plane_shape hp (swapped_ok.1 a8)
  exact ⟨mi, q, params, X, k, mm, a2, a3, a4, hr, placed_of_rows a6 hX a9 hm⟩

theorem mass_placed {mats nodes : Table K} {el : List ℤ} {m : Member K} (h : IsMember (MassRoutine sq) mats nodes el m)
    {ty : ℤ} (hty : el[1]? = some ty) (ht : ty ∈ [(1 : ℤ), 2, 3, 4]) :
    ∃ mi, ∃ q : ℕ, ∃ params n f X k mm, Uel.eleFun sq ty = .ok f ∧
      el[2]? = some mi ∧ Resolves mats.length mi q ∧ mats[q]? = some params ∧ PlaneElement n f ∧
      Returns (n := n) (d := 2) f X params k mm ∧ Placed nodes m X mm := by
  have h' := h
  obtain ⟨ty', mi, params, rows, f', kl, ml, a1, a2, a3, a5, a6, ⟨f, hf, rfl⟩, a8, a9⟩ := h'
  rw [hty, Option.some.injEq] at a1
  subst a1
  obtain ⟨n, hp⟩ := structural_of_type ht hf
  obtain ⟨mi, q, params, X, k, mm, b1, b2, b3, b4, b5⟩ := mass_placed_of h hty hf hp
  exact ⟨mi, q, params, n, f, X, k, mm, hf, b1, b2, b3, hp, b4, b5⟩

theorem masses_unique {ms' : List (Member K)} (h : Masses sq d ms) (h' : Masses sq d ms') : ms = ms' := by
  unfold Masses at h h'
  generalize d.elements = els at h h'
  induction h generalizing ms' with
  | nil => cases h'; rfl
  | cons h1 _ ih =>
    cases h' with
    | cons h2 t2 =>
      rw [ih t2]
      congr 1
      refine isMember_unique_of (fun ty f f' a b => ?_) h1 h2
      obtain ⟨f0, a1, rfl⟩ := a
      obtain ⟨f1, b1, rfl⟩ := b
      rw [a1, Except.ok.injEq] at b1
      rw [b1]

/-- C114.  The assembled mass matrix is the sum of the element mass forms on the nodal fields. -/
theorem C114_form (hwf : WellFormed d) (hms : Masses sq d ms) {op bc : List (List ℤ)}
    {neq : ℕ} {Kg Mg : Matrix (Fin neq) (Fin neq) K} (h1 : dme d.cons d.elements = .ok (op, bc, neq))
    (h2 : assembler (Uel.eleFun sq) d.elements d.mats d.nodes neq op = .ok (Kg, Mg))
    {v u : Fin neq → K} {V U : Table K} (hV : Post.completeDisp bc d.nodes.length v = .ok V)
    (hU : Post.completeDisp bc d.nodes.length u = .ok U) :
    ∑ i, v i * Mg.mulVec u i = (ms.map fun m => m.form 2 (fieldOf V) (fieldOf U)).sum := by
  obtain ⟨ms', s⟩ := mass_setup h1 h2 hwf
  obtain rfl := masses_unique hms s.mem
  rw [← hwf.size] at hV hU
  exact reduced_form s (completes_of_completeDisp hV) (completes_of_completeDisp hU)

/-- All elements are plane elements of positive density. -/
def Spec.Heavy (d : Gui.Data K) : Prop :=
  ∀ el ∈ d.elements, ∃ ty mi, ∃ q : ℕ, ∃ E nu rest, el[1]? = some ty ∧ ty ∈ [(1 : ℤ), 2, 3, 4] ∧ el[2]? = some mi ∧
    Resolves d.mats.length mi q ∧ d.mats[q]? = some (E :: nu :: rest) ∧ ∀ ρ ∈ rest.getLast?, 0 < ρ

theorem mass_form_pos {mats nodes : Table K} {el : List ℤ} {m : Member K} (h : IsMember (MassRoutine sq) mats nodes el m)
    (hh : ∃ ty mi, ∃ q : ℕ, ∃ E nu rest, el[1]? = some ty ∧ ty ∈ [(1 : ℤ), 2, 3, 4] ∧ el[2]? = some mi ∧
      Resolves mats.length mi q ∧ mats[q]? = some (E :: nu :: rest) ∧ ∀ ρ ∈ rest.getLast?, 0 < ρ) (V : ℕ → ℕ → K) :
    0 ≤ m.form 2 V V ∧ (m.form 2 V V = 0 → ∀ p ∈ m.nodes, ∀ j < 2, V p j = 0) := by
  obtain ⟨ty, mi, q, E, nu, rest, c1, c2, c3, c4, c5, c6⟩ := hh
  obtain ⟨mi', q', params, n, f, X, k, mm, a1, a2, a3, a4, a5, a6, a7⟩ := mass_placed h c1 c2
  rw [c3, Option.some.injEq] at a2
  subst a2
  obtain rfl := resolves_unique c4 a3
  rw [c5, Option.some.injEq] at a4
  subst a4
  rw [a7.form]
  have key : m.pick n V ≠ 0 → 0 < m.pick n V ⬝ᵥ mm.mulVec (m.pick n V) := fun h0 => C113_plane a5 a6 c6 h0
  by_cases h0 : m.pick n V = 0
  · rw [h0]
    refine ⟨by simp, fun _ p hp j hj => ?_⟩
    obtain ⟨a, ha, rfl⟩ := List.mem_iff_getElem.1 hp
    have := congrFun h0 (⟨a, by rw [← a7.size]; exact ha⟩, ⟨j, hj⟩)
    unfold Member.pick at this
    dsimp only at this
    rw [List.getD_eq_getElem?_getD, List.getElem?_eq_getElem ha, Option.getD_some] at this
    exact this
  · exact ⟨(key h0).le, fun h => absurd h (key h0).ne'⟩

/-- If the mass forms of the elements are definite on their nodes, the assembled mass matrix is definite exactly when every node that
can move belongs to an element. -/
theorem definite_iff_of_pos {bc : List (List ℤ)} {neq : ℕ} {Mg : Matrix (Fin neq) (Fin neq) K}
    (s : Setup (MassRoutine sq) d.cons d.elements d.mats d.nodes 2 neq bc Mg ms)
    (hpos : ∀ m ∈ ms, ∀ V, 0 ≤ m.form 2 V V ∧ (m.form 2 V V = 0 → ∀ p ∈ m.nodes, ∀ j < 2, V p j = 0)) :
    (∀ v : Fin neq → K, v ≠ 0 → 0 < ∑ i, v i * Mg.mulVec v i) ↔
      ∀ p j, Free d.cons 2 p j → ∃ el ∈ d.elements, ∃ id ∈ el.drop 3, Resolves d.nodes.length id p := by
  have hused : ∀ p, (∃ m ∈ ms, p ∈ m.nodes) ↔ ∃ el ∈ d.elements, ∃ id ∈ el.drop 3, Resolves d.nodes.length id p := by
    intro p
    have hns : ∀ {el m}, IsMember (MassRoutine sq) d.mats d.nodes el m →
        List.Forall₂ (Resolves d.nodes.length) (el.drop 3) m.nodes := by
      rintro el m ⟨ty, mi, params, rows, f, kl, ml, -, -, -, a5, -⟩
      exact a5
    constructor
    · rintro ⟨m, hm, hp⟩
      obtain ⟨e, he, rfl⟩ := List.mem_iff_getElem.1 hm
      have he' : e < d.elements.length := by rw [s.mem.length_eq]; exact he
      have h5 := hns (s.mem.get (i := e) he' he)
      obtain ⟨a, ha, rfl⟩ := List.mem_iff_getElem.1 hp
      have ha' := lt_of_lt_of_eq ha h5.length_eq.symm
      exact ⟨_, List.getElem_mem he', _, List.getElem_mem ha', h5.get (i := a) ha' ha⟩
    · rintro ⟨el, hel, id, hid, hr⟩
      obtain ⟨e, he', rfl⟩ := List.mem_iff_getElem.1 hel
      have he : e < ms.length := by rw [← s.mem.length_eq]; exact he'
      have h5 := hns (s.mem.get (i := e) he' he)
      obtain ⟨a, ha', rfl⟩ := List.mem_iff_getElem.1 hid
      have ha := lt_of_lt_of_eq ha' h5.length_eq
      refine ⟨_, List.getElem_mem he, ?_⟩
      rw [resolves_unique hr (h5.get (i := a) ha' ha)]
      exact List.getElem_mem ha
  constructor
  · intro h p j hf
    by_contra hno
    rw [← hused] at hno
    push Not at hno
    have hV : Admissible d.cons 2 fun p' j' => if p' = p ∧ j' = j then (1 : K) else 0 := by
      intro p' j' _ _ hnf
      refine if_neg ?_
      rintro ⟨rfl, rfl⟩
      exact hnf hf
    obtain ⟨v, hv⟩ := exists_reduced s.eq s.valid hV
    have h0 := reduced_form s hv hv
    have hz : ∀ m ∈ ms, m.form 2 (fun p' j' => if p' = p ∧ j' = j then (1 : K) else 0)
        (fun p' j' => if p' = p ∧ j' = j then (1 : K) else 0) = 0 := by
      intro m hm
      refine Finset.sum_eq_zero fun a ha => Finset.sum_eq_zero fun j' _ => ?_
      rw [Finset.mem_range] at ha
      dsimp only
      rw [if_neg, zero_mul]
      rintro ⟨h6, -⟩
      rw [List.getD_eq_getElem?_getD, List.getElem?_eq_getElem ha, Option.getD_some] at h6
      exact hno m hm (h6 ▸ List.getElem_mem ha)
    rw [List.map_congr_left hz] at h0
    have hv0 : v ≠ 0 := by
      rintro rfl
      rcases free_or_fixed s.eq s.valid (free_lt hf) hf.1 with ⟨_, i, hi, _⟩ | ⟨hnf, _⟩
      · have := (hv p (free_lt hf) j hf.1).1 i hi
        simp at this
      · exact hnf hf
    have := h v hv0
    rw [h0] at this
    simp at this
  · intro h v hv
    obtain ⟨V, hV⟩ := exists_completes (cons := d.cons) bc 2 v
    rw [reduced_form s hV hV]
    refine lt_of_le_of_ne (List.sum_nonneg fun y hy => ?_) fun h0 => hv ?_
    · obtain ⟨m, hm, rfl⟩ := List.mem_map.1 hy
      exact (hpos m hm V).1
    · have hz := (sum_pos_zero fun m hm => (hpos m hm V).1).1 h0.symm
      funext i
      obtain ⟨p, j, hf, hr⟩ := exists_free s.eq i.2
      have hi : DofEq bc neq p j i := ⟨i, by rw [(free_entry s.eq hf).1, hr], by omega, i.2, Or.inl rfl⟩
      rw [← (hV p (free_lt hf) j hf.1).1 i hi]
      obtain ⟨m, hm, hp⟩ := (hused p).2 (h p j hf)
      exact (hpos m hm V).2 (hz m hm) p hp j hf.1

/-- C114.  The assembled mass matrix of plane elements of positive density is positive definite exactly when every node that can
move belongs to an element. -/
theorem C114_definite_iff (hwf : WellFormed d) (hh : Heavy d) {op bc : List (List ℤ)}
    {neq : ℕ} {Kg Mg : Matrix (Fin neq) (Fin neq) K} (h1 : dme d.cons d.elements = .ok (op, bc, neq))
    (h2 : assembler (Uel.eleFun sq) d.elements d.mats d.nodes neq op = .ok (Kg, Mg)) :
    (∀ v : Fin neq → K, v ≠ 0 → 0 < ∑ i, v i * Mg.mulVec v i) ↔
      ∀ p j, Free d.cons 2 p j → ∃ el ∈ d.elements, ∃ id ∈ el.drop 3, Resolves d.nodes.length id p := by
  obtain ⟨ms, s⟩ := mass_setup h1 h2 hwf
  refine definite_iff_of_pos s fun m hm V => ?_
  obtain ⟨e, he, rfl⟩ := List.mem_iff_getElem.1 hm
  have he' : e < d.elements.length := by rw [s.mem.length_eq]; exact he
  exact mass_form_pos (s.mem.get (i := e) he' he) (hh _ (List.getElem_mem he')) V

/-- The element is a bar of positive area and density. -/
def Spec.HeavyBar (d : Gui.Data K) (el : List ℤ) : Prop :=
  el[1]? = some 6 ∧ (el.drop 3).length = 2 ∧ ∃ mi, ∃ q : ℕ, ∃ E A rest, el[2]? = some mi ∧ Resolves d.mats.length mi q ∧
    d.mats[q]? = some (E :: A :: rest) ∧ 0 < A ∧ ∀ ρ ∈ rest.getLast?, 0 < ρ

/-- A bar with its mass. -/
theorem bar_mass_placed {mats nodes : Table K} {el : List ℤ} {m : Member K} (h : IsMember (MassRoutine sq) mats nodes el m)
    (h3 : ∀ r ∈ nodes, r.length = 3) (hty : el[1]? = some 6) (hl : (el.drop 3).length = 2) :
    ∃ mi, ∃ q : ℕ, ∃ params X k mm, el[2]? = some mi ∧ Resolves mats.length mi q ∧ mats[q]? = some params ∧
      Returns (n := 2) (d := 2) (Uel.truss2D sq) X params k mm ∧ Placed nodes m X mm := by
  obtain ⟨ty, mi, params, rows, f, kl, ml, a1, a2, ⟨q, a3, a4⟩, a5, a6, ⟨f0, hf0, rfl⟩, a8, a9⟩ := h
  rw [hty, Option.some.injEq] at a1
  subst a1
  simp only [Uel.eleFun, Except.ok.injEq] at hf0
  subst hf0
  obtain ⟨X, hX⟩ := bar_coords h3 a6 (by rw [← a5.length_eq, hl])
  rw [hX] at a8
  obtain ⟨k, mm, -, hm, hr⟩ := truss_shape (swapped_ok.1 a8)
  exact ⟨mi, q, params, X, k, mm, a2, a3, a4, hr, placed_of_rows a6 hX a9 hm⟩

theorem bar_mass_pos {mats nodes : Table K} {el : List ℤ} {m : Member K} (hs : SqrtFn sq) (h : IsMember (MassRoutine sq) mats nodes el m)
    (h3 : ∀ r ∈ nodes, r.length = 3) (hty : el[1]? = some 6) (hl : (el.drop 3).length = 2)
    (hh : ∃ mi, ∃ q : ℕ, ∃ E A rest, el[2]? = some mi ∧ Resolves mats.length mi q ∧ mats[q]? = some (E :: A :: rest) ∧ 0 < A ∧
      ∀ ρ ∈ rest.getLast?, 0 < ρ) (V : ℕ → ℕ → K) :
    0 ≤ m.form 2 V V ∧ (m.form 2 V V = 0 → ∀ p ∈ m.nodes, ∀ j < 2, V p j = 0) := by
  obtain ⟨mi', q', E, A, rest, c1, c2, c3, c4, c5⟩ := hh
  obtain ⟨mi, q, params, X, k, mm, b1, b2, b3, hr, hp⟩ := bar_mass_placed h h3 hty hl
  rw [c1, Option.some.injEq] at b1
  subst b1
  obtain rfl := resolves_unique c2 b2
  rw [c3, Option.some.injEq] at b3
  subst b3
  obtain ⟨L, hL⟩ := exists_length hs ((C51_accepts_iff hs X _).1 ⟨_, _, hr⟩).1
  obtain ⟨-, rfl⟩ := (truss_returns hs hL).1 hr
  have hd : 0 < density rest := by
    unfold density
    cases h : rest.getLast? with
    | none => simp
    | some ρ => exact c5 ρ h
  have hM : 0 < A * L * density rest := by have := hL.1; positivity
  have e1 : m.form 2 V V = A * L * density rest / 6 *
      ∑ i : Fin 2, (m.pick 2 V (0, i) ^ 2 + m.pick 2 V (1, i) ^ 2 + (m.pick 2 V (0, i) + m.pick 2 V (1, i)) ^ 2) := by
    rw [hp.form]
    simp only [barM, Matrix.mulVec, dotProduct, Matrix.of_apply, Fintype.sum_prod_type, Fin.sum_univ_two]
    simp
    ring
  have hnn : ∀ i : Fin 2, 0 ≤ m.pick 2 V (0, i) ^ 2 + m.pick 2 V (1, i) ^ 2 + (m.pick 2 V (0, i) + m.pick 2 V (1, i)) ^ 2 :=
    fun i => by positivity
  have hc : 0 < A * L * density rest / 6 := by positivity
  rw [e1]
  refine ⟨mul_nonneg hc.le (Finset.sum_nonneg fun i _ => hnn i), fun h0 p hpm j hj => ?_⟩
  have h1 := (Finset.sum_eq_zero_iff_of_nonneg fun i _ => hnn i).1 ((mul_eq_zero.1 h0).resolve_left hc.ne') ⟨j, hj⟩ (Finset.mem_univ _)
  have key : ∀ a : Fin 2, m.pick 2 V (a, ⟨j, hj⟩) = 0 := by
    have q0 := sq_nonneg (m.pick 2 V (0, ⟨j, hj⟩))
    have q1 := sq_nonneg (m.pick 2 V (1, ⟨j, hj⟩))
    have q2 := sq_nonneg (m.pick 2 V (0, ⟨j, hj⟩) + m.pick 2 V (1, ⟨j, hj⟩))
    exact Fin.forall_fin_two.2 ⟨pow_eq_zero_iff (n := 2) (by omega) |>.1 (by linarith),
      pow_eq_zero_iff (n := 2) (by omega) |>.1 (by linarith)⟩
  obtain ⟨a, ha, rfl⟩ := List.mem_iff_getElem.1 hpm
  have := key ⟨a, by rw [← hp.size]; exact ha⟩
  unfold Member.pick at this
  dsimp only at this
  rw [List.getD_eq_getElem?_getD, List.getElem?_eq_getElem ha, Option.getD_some] at this
  exact this

/-- C114.  The same for models of plane elements and bars. -/
theorem C114_definite_with_bars (hs : SqrtFn sq) (hwf : WellFormed d) (h3 : ∀ r ∈ d.nodes, r.length = 3)
    (hh : ∀ el ∈ d.elements, HeavyBar d el ∨ Heavy { d with elements := [el] }) {op bc : List (List ℤ)}
    {neq : ℕ} {Kg Mg : Matrix (Fin neq) (Fin neq) K} (h1 : dme d.cons d.elements = .ok (op, bc, neq))
    (h2 : assembler (Uel.eleFun sq) d.elements d.mats d.nodes neq op = .ok (Kg, Mg)) :
    (∀ v : Fin neq → K, v ≠ 0 → 0 < ∑ i, v i * Mg.mulVec v i) ↔
      ∀ p j, Free d.cons 2 p j → ∃ el ∈ d.elements, ∃ id ∈ el.drop 3, Resolves d.nodes.length id p := by
  obtain ⟨ms, s⟩ := mass_setup h1 h2 hwf
  refine definite_iff_of_pos s fun m hm V => ?_
  obtain ⟨e, he, rfl⟩ := List.mem_iff_getElem.1 hm
  have he' : e < d.elements.length := by rw [s.mem.length_eq]; exact he
  rcases hh _ (List.getElem_mem he') with ⟨c1, c2, c3⟩ | hc
  · exact bar_mass_pos hs (s.mem.get (i := e) he' he) h3 c1 c2 c3 V
  · exact mass_form_pos (s.mem.get (i := e) he' he) (hc _ (by simp)) V

/-- `w` is the mass of a linear element: its density (the last material value after the first two, 1 without one) times the area of
the polygon of its nodes; the weights of the triangle rule add up to `0.999999999999/2`. -/
def Spec.IsMass (mats nodes : List (List K)) (el : List ℤ) (w : K) : Prop :=
  ∃ ty mi, ∃ q : ℕ, ∃ E nu rest ps, el[1]? = some ty ∧ el[2]? = some mi ∧ Resolves mats.length mi q ∧
    mats[q]? = some (E :: nu :: rest) ∧ List.Forall₂ (Resolves nodes.length) (el.drop 3) ps ∧
    ((ty = 1 ∧ w = rest.getLast?.getD 1 * polyArea (ps.map fun p => (posOf nodes p 0, posOf nodes p 1))) ∨
     (ty = 3 ∧ w = rest.getLast?.getD 1 * (999999999999 / 1000000000000 *
        polyArea (ps.map fun p => (posOf nodes p 0, posOf nodes p 1)))))

theorem const_form {n : ℕ} {mm : Matrix (Fin n × Fin 2) (Fin n × Fin 2) K} {w : K}
    (h : ∀ i j, ∑ a, ∑ b, mm (a, i) (b, j) = if i = j then w else 0) {v u : Fin n × Fin 2 → K} {c c' : Fin 2 → K}
    (hv : ∀ a j, v (a, j) = c j) (hu : ∀ a j, u (a, j) = c' j) : v ⬝ᵥ mm.mulVec u = (c ⬝ᵥ c') * w := by
  have h1 : v ⬝ᵥ mm.mulVec u = ∑ i, ∑ j, c i * c' j * ∑ a, ∑ b, mm (a, i) (b, j) := by
    unfold Matrix.mulVec dotProduct
    simp only [Fintype.sum_prod_type, hv, hu, Fin.sum_univ_two, Finset.mul_sum, ← Finset.sum_add_distrib]
    refine Finset.sum_congr rfl fun a _ => ?_
    refine Finset.sum_congr rfl fun b _ => ?_
    ring
  rw [h1]
  simp only [h, Fin.sum_univ_two, dotProduct]
  simp
  ring

theorem mass_const_of {mats nodes : Table K} {el : List ℤ} {m : Member K} {w : K} (h : IsMember (MassRoutine sq) mats nodes el m)
    {ty mi : ℤ} {q n : ℕ} {E nu : K} {rest : List K} {ps : List ℕ} {f : Uel K} {R : QRule K 2 n} (c1 : el[1]? = some ty)
    (c2 : el[2]? = some mi) (c3 : Resolves mats.length mi q) (c4 : mats[q]? = some (E :: nu :: rest))
    (c5 : List.Forall₂ (Resolves nodes.length) (el.drop 3) ps) (hf : Uel.eleFun sq ty = .ok f) (hp : PlaneElement n f)
    (hR : PlaneRule n f R) (hw : ∀ X : Matrix (Fin n) (Fin 2) K, (∀ (a : Fin n) (i : Fin 2), posOf nodes (ps.getD a 0) i = X a i) →
      ps.length = n → w = density rest * extent R X) {V U : ℕ → ℕ → K} {c c' : Fin 2 → K}
    (hV : ∀ p < nodes.length, ∀ j : Fin 2, V p j = c j) (hU : ∀ p < nodes.length, ∀ j : Fin 2, U p j = c' j) :
    m.form 2 V U = (c ⬝ᵥ c') * w := by
  have hps : ps = m.nodes := by
    obtain ⟨ty', mi', params, rows, f', kl, ml, a1, a2, a3, a5, a6, -⟩ := h
    exact forall₂_resolves_unique a5 c5
  have hlt : ∀ p ∈ m.nodes, p < nodes.length := by
    intro p hp
    rw [← hps] at hp
    obtain ⟨a, ha, rfl⟩ := List.mem_iff_getElem.1 hp
    have ha' := lt_of_lt_of_eq ha c5.length_eq.symm
    exact (c5.get (i := a) ha' ha).1
  obtain ⟨mi', q', params, X, k, mm, a2, a3, a4, a6, a7⟩ := mass_placed_of h c1 hf hp
  rw [c2, Option.some.injEq] at a2
  subst a2
  obtain rfl := resolves_unique c3 a3
  rw [c4, Option.some.injEq] at a4
  subst a4
  have hpick : ∀ {W : ℕ → ℕ → K} {e : Fin 2 → K}, (∀ p < nodes.length, ∀ j : Fin 2, W p j = e j) →
      ∀ a j, m.pick n W (a, j) = e j := by
    intro W e hW a j
    have ha : (a : ℕ) < m.nodes.length := by rw [a7.size]; exact a.2
    unfold Member.pick
    dsimp only
    rw [List.getD_eq_getElem?_getD, List.getElem?_eq_getElem ha, Option.getD_some]
    exact hW _ (hlt _ (List.getElem_mem ha)) j
  have hX : ∀ (a : Fin n) (i : Fin 2), posOf nodes (ps.getD a 0) i = X a i := by
    intro a i
    unfold posOf coordOf fieldOf
    rw [hps, a7.coord]
    rfl
  have hl : ps.length = n := by rw [hps]; exact a7.size
  rw [a7.form]
  refine const_form (fun i j => ?_) (hpick hV) (hpick hU)
  rw [C43_plane_mass hR a6, hw X hX hl]

theorem mass_const {mats nodes : Table K} {el : List ℤ} {m : Member K} {w : K} (h : IsMember (MassRoutine sq) mats nodes el m)
    (hw : IsMass mats nodes el w) {V U : ℕ → ℕ → K} {c c' : Fin 2 → K} (hV : ∀ p < nodes.length, ∀ j : Fin 2, V p j = c j)
    (hU : ∀ p < nodes.length, ∀ j : Fin 2, U p j = c' j) : m.form 2 V U = (c ⬝ᵥ c') * w := by
  obtain ⟨ty, mi, q, E, nu, rest, ps, c1, c2, c3, c4, c5, hw⟩ := hw
  rcases hw with ⟨rfl, rfl⟩ | ⟨rfl, rfl⟩
  · refine mass_const_of h c1 c2 c3 c4 c5 (f := elastQuad4) rfl .quad4 .quad4 (fun X hX hl => ?_) hV hU
    rw [C43_quad4_area, ← hX, ← hX, ← hX, ← hX, ← hX, ← hX, ← hX, ← hX]
    match ps, hl with
    | [p0, p1, p2, p3], _ =>
      simp only [List.map_cons, List.map_nil, polyArea, List.take_succ_cons, List.take_zero, List.cons_append, List.nil_append, sweep]
      unfold density
      congr 1
      simp
      ring
  · refine mass_const_of h c1 c2 c3 c4 c5 (f := elastTri3) rfl .tri3 .tri3 (fun X hX hl => ?_) hV hU
    rw [C43_tri3_area, ← hX, ← hX, ← hX, ← hX, ← hX, ← hX]
    match ps, hl with
    | [p0, p1, p2], _ =>
      simp only [List.map_cons, List.map_nil, polyArea, List.take_succ_cons, List.take_zero, List.cons_append, List.nil_append, sweep]
      unfold density
      congr 2
      simp
      ring

/-- C114.  On uniform fields (all nodes move by `c`, by `c'`) the assembled mass matrix is the total mass of the mesh. -/
theorem C114_total (hwf : WellFormed d) {op bc : List (List ℤ)} {neq : ℕ} {Kg Mg : Matrix (Fin neq) (Fin neq) K}
    (h1 : dme d.cons d.elements = .ok (op, bc, neq))
    (h2 : assembler (Uel.eleFun sq) d.elements d.mats d.nodes neq op = .ok (Kg, Mg)) {ws : List K}
    (hw : List.Forall₂ (IsMass d.mats d.nodes) d.elements ws) {v u : Fin neq → K} {V U : Table K}
    (hv : Post.completeDisp bc d.nodes.length v = .ok V) (hu : Post.completeDisp bc d.nodes.length u = .ok U)
    {c c' : Fin 2 → K} (hV : ∀ p < d.nodes.length, ∀ j : Fin 2, fieldOf V p j = c j)
    (hU : ∀ p < d.nodes.length, ∀ j : Fin 2, fieldOf U p j = c' j) :
    ∑ i, v i * Mg.mulVec u i = (c 0 * c' 0 + c 1 * c' 1) * ws.sum := by
  obtain ⟨ms, s⟩ := mass_setup h1 h2 hwf
  rw [C114_form hwf s.mem h1 h2 hv hu]
  have hm := s.mem
  clear s h1 h2
  have hd : c 0 * c' 0 + c 1 * c' 1 = c ⬝ᵥ c' := by simp [dotProduct, Fin.sum_univ_two]
  rw [hd]
  generalize d.elements = els at hm hw
  induction hm generalizing ws with
  | nil => cases hw; simp
  | cons a _ ih =>
    cases hw with
    | cons b t =>
      rw [List.map_cons, List.sum_cons, List.sum_cons, ih t, mass_const a b hV hU]
      ring

/-- C114.  A grid of rectangles of density `ρ` weighs `ρ L H`. -/
theorem C114_grid {L H E nu : K} {nx ny : ℕ} {rest : List K} (hg : GridModel d L H nx ny E nu rest) (hx : 0 < nx) (hy : 0 < ny)
    (hwf : WellFormed d) {op bc : List (List ℤ)} {neq : ℕ} {Kg Mg : Matrix (Fin neq) (Fin neq) K}
    (h1 : dme d.cons d.elements = .ok (op, bc, neq))
    (h2 : assembler (Uel.eleFun sq) d.elements d.mats d.nodes neq op = .ok (Kg, Mg)) {v u : Fin neq → K} {V U : Table K}
    (hv : Post.completeDisp bc d.nodes.length v = .ok V) (hu : Post.completeDisp bc d.nodes.length u = .ok U)
    {c c' : Fin 2 → K} (hV : ∀ p < d.nodes.length, ∀ j : Fin 2, fieldOf V p j = c j)
    (hU : ∀ p < d.nodes.length, ∀ j : Fin 2, fieldOf U p j = c' j) :
    ∑ i, v i * Mg.mulVec u i = (c 0 * c' 0 + c 1 * c' 1) * (rest.getLast?.getD 1 * (L * H)) := by
  have hw : List.Forall₂ (IsMass d.mats d.nodes) d.elements
      (d.elements.map fun _ => rest.getLast?.getD 1 * (L / nx * (H / ny))) := by
    rw [List.forall₂_map_right_iff, List.forall₂_same]
    intro el hel
    rw [hg.elements] at hel
    obtain ⟨r, q, hr, hq, h3⟩ := mem_grid hel
    have h4 := gridEls_getElem? (nx := nx) hr hq
    change (rectGrid L H nx ny).2.2[r * nx + q]? = _ at h4
    rw [h3, Option.some.injEq] at h4
    subst h4
    have hb : ∀ {r c : ℕ}, r ≤ ny → c ≤ nx → Resolves d.nodes.length (nodeNo nx r c : ℤ) (nodeNo nx r c) := by
      intro r c hr hc
      exact ⟨by rw [hg.size]; exact nodeNo_lt hr hc, .inl rfl⟩
    refine ⟨1, 0, 0, E, nu, rest, cellNodes nx r q, rfl, rfl, ⟨(List.getElem?_eq_some_iff.1 hg.material).1, .inl rfl⟩, hg.material,
      .cons (hb (by omega) (by omega)) (.cons (hb (by omega) (by omega)) (.cons (hb (by omega) (by omega))
        (.cons (hb (by omega) (by omega)) .nil))), .inl ⟨rfl, ?_⟩⟩
    congr 1
    simp only [cellNodes, List.map_cons, List.map_nil, polyArea, List.take_succ_cons, List.take_zero, List.cons_append,
      List.nil_append, sweep]
    rw [hg.pos (by omega) (by omega), hg.pos (by omega) (by omega), hg.pos (by omega) (by omega), hg.pos (by omega) (by omega)]
    simp
    ring
  rw [C114_total hwf h1 h2 hw hv hu hV hU]
  congr 1
  rw [hg.elements]
  simp only [List.map_const', List.sum_replicate, (C65_elements L H nx ny).2.2.1, nsmul_eq_mul]
  have h1 : (nx : K) ≠ 0 := by exact_mod_cast hx.ne'
  have h2 : (ny : K) ≠ 0 := by exact_mod_cast hy.ne'
  push_cast
  field_simp

end

/-- A floating plate of two by two rectangles. -/
def floatingPlate : Gui.Data ℚ := { tensionPlate 4 2 1 (1/4) 0 2 2 with cons := List.replicate 9 [0, 0], mats := [[1, 1/4, 3]] }

example : ∃ op bc, ∃ neq : ℕ, ∃ Kg Mg : Matrix (Fin neq) (Fin neq) ℚ, dme floatingPlate.cons floatingPlate.elements = .ok (op, bc, neq) ∧
    assembler (Uel.eleFun id) floatingPlate.elements floatingPlate.mats floatingPlate.nodes neq op = .ok (Kg, Mg) ∧
    (∀ v : Fin neq → ℚ, v ≠ 0 → 0 < ∑ i, v i * Mg.mulVec v i) ∧ ∑ i, Mg.mulVec (fun _ => 1) i = 48 := by
  have hwf : WellFormed floatingPlate := by
    refine ⟨?_, ?_, rfl⟩
    · intro p j x hj hx
      obtain ⟨row, h1, h2⟩ := entry_some.1 hx
      have := List.mem_of_getElem? h1
      have hr : row = [0, 0] := List.eq_of_mem_replicate this
      subst hr
      rcases (by omega : j = 0 ∨ j = 1) with rfl | rfl <;> simp at h2 <;> exact .inl h2.symm
    · intro r hr
      rw [List.eq_of_mem_replicate hr]
      rfl
  have hg : GridModel floatingPlate 4 2 2 2 1 (1/4) [3] := by
    have h := plate_grid (4 : ℚ) 2 1 (1/4) 0 2 2
    exact ⟨h.elements, rfl, h.count, h.place⟩
  obtain ⟨x, hx⟩ := isOk_exists (x := (do
    let (op, bc, neq) ← dme floatingPlate.cons floatingPlate.elements
    let (_, _) ← assembler (Uel.eleFun id) floatingPlate.elements floatingPlate.mats floatingPlate.nodes neq op
    let V ← Post.completeDisp bc floatingPlate.nodes.length (fun _ : Fin neq => (1 : ℚ))
    if V = List.replicate 9 [1, 1] then pure () else .error .valueError : Py Unit)) (by decide +kernel)
  obtain ⟨⟨op, bc, neq⟩, h1, hx⟩ := bind_ok.1 hx
  dsimp only at hx
  obtain ⟨⟨Kg, Mg⟩, h2, hx⟩ := bind_ok.1 hx
  obtain ⟨V, h3, hx⟩ := bind_ok.1 hx
  split at hx
  case isFalse => cases hx
  rename_i hV
  refine ⟨op, bc, neq, Kg, Mg, h1, h2, (C114_definite_iff hwf ?_ h1 h2).2 ?_, ?_⟩
  · intro el hel
    have h4 : ∀ el ∈ floatingPlate.elements, el[1]? = some 1 ∧ el[2]? = some 0 := by decide +kernel
    exact ⟨1, 0, 0, 1, 1/4, [3], (h4 el hel).1, by simp, (h4 el hel).2, ⟨by decide, .inl rfl⟩, rfl, by simp⟩
  · intro p j hf
    have h4 : ∀ p : ℕ, p < 9 → ∃ el ∈ floatingPlate.elements, ∃ id ∈ el.drop 3, id = (p : ℤ) := by decide +kernel
    have hp : p < 9 := free_lt hf
    obtain ⟨el, hel, id, hid, h5⟩ := h4 p hp
    exact ⟨el, hel, id, hid, hp, .inl h5⟩
  · have hc : ∀ p < floatingPlate.nodes.length, ∀ j : Fin 2, fieldOf V p j = (fun _ => 1 : Fin 2 → ℚ) j := by
      rw [hV]
      decide +kernel
    have := C114_grid hg (by omega) (by omega) hwf h1 h2 h3 h3 hc hc
    simp only [one_mul] at this
    rw [this]
    norm_num

end SolidsPy
