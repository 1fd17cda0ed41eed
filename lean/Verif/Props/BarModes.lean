import Verif.Props.MassGlobal
import Mathlib.Analysis.SpecialFunctions.Trigonometric.Bounds
import Mathlib.Analysis.SpecialFunctions.Trigonometric.Sinc
import Mathlib.Analysis.Real.Pi.Bounds
import Mathlib.LinearAlgebra.Eigenspace.Basic
import Mathlib.LinearAlgebra.Dimension.Finite

/-! # C116: natural frequencies of a uniform bar -/

set_option linter.unusedSectionVars false

namespace SolidsPy
open Spec Assem Matrix

section
variable {K : Type} [Field K] [LinearOrder K] [IsStrictOrderedRing K] [FloorRing K]
variable {sq : K → K} {d : Gui.Data K} {n : ℕ} {h E A ρ : K} {ms : List (Member K)}

/-- A line of `n` equal bars of length `h` along the first axis, with material `(E, A, ρ)`; the second component is fixed
everywhere and the first one at both ends. -/
structure UniformBar (d : Gui.Data K) (n : ℕ) (h E A ρ : K) : Prop where
  count : d.nodes.length = n + 1
  place : ∃ x y, ∀ p ≤ n, ∃ id, d.nodes[p]? = some [id, x + p * h, y]
  bars : d.elements.length = n
  bar : ∀ e < n, ∃ id, d.elements[e]? = some [id, 6, 0, (e : ℤ), (e + 1 : ℤ)]
  material : d.mats[0]? = some [E, A, ρ]
  rows : d.cons.length = n + 1
  fixed : d.cons[0]? = some [(-1 : K), -1] ∧ d.cons[n]? = some [(-1 : K), -1]
  inner : ∀ p, 0 < p → p < n → d.cons[p]? = some [(0 : K), -1]

theorem UniformBar.width (hb : UniformBar d n h E A ρ) {p : ℕ} {row : List K} (hp : d.cons[p]? = some row) :
    row = [-1, -1] ∨ row = [0, -1] := by
  have hlt : p < n + 1 := hb.rows ▸ (List.getElem?_eq_some_iff.1 hp).1
  rcases Nat.eq_zero_or_pos p with rfl | h0
  · rw [hb.fixed.1, Option.some.injEq] at hp
    exact .inl hp.symm
  · rcases Nat.lt_or_ge p n with h1 | h1
    · rw [hb.inner p h0 h1, Option.some.injEq] at hp
      exact .inr hp.symm
    · obtain rfl : p = n := by omega
      rw [hb.fixed.2, Option.some.injEq] at hp
      exact .inl hp.symm

theorem UniformBar.wf (hb : UniformBar d n h E A ρ) : WellFormed d where
  codes := by
    intro i j x hj hx
    obtain ⟨row, h1, h2⟩ := entry_some.1 hx
    rcases hb.width h1 with rfl | rfl <;> rcases (by omega : j = 0 ∨ j = 1) with rfl | rfl <;> simp at h2 <;> simp [← h2]
  width := by
    intro r hr
    obtain ⟨p, hp⟩ := List.mem_iff_getElem?.1 hr
    rcases hb.width hp with rfl | rfl <;> rfl
  size := by rw [hb.rows, hb.count]

theorem UniformBar.free_iff (hb : UniformBar d n h E A ρ) {p j : ℕ} : Free d.cons 2 p j ↔ j = 0 ∧ 0 < p ∧ p < n := by
  constructor
  · rintro ⟨hj, x, hx, h1, h2⟩
    obtain ⟨row, h3, h4⟩ := entry_some.1 hx
    have hlt : p < n + 1 := hb.rows ▸ (List.getElem?_eq_some_iff.1 h3).1
    have hj0 : j = 0 := by
      by_contra hne
      obtain rfl : j = 1 := by omega
      rcases hb.width h3 with rfl | rfl <;> simp at h4 <;> rw [← h4] at h1 <;> exact lt_irrefl _ h1
    subst hj0
    refine ⟨rfl, ?_, ?_⟩
    · rw [Nat.pos_iff_ne_zero]
      rintro rfl
      rw [hb.fixed.1, Option.some.injEq] at h3
      subst h3
      simp at h4
      rw [← h4] at h1
      exact lt_irrefl _ h1
    · refine lt_of_le_of_ne (by omega) ?_
      rintro rfl
      rw [hb.fixed.2, Option.some.injEq] at h3
      subst h3
      simp at h4
      rw [← h4] at h1
      exact lt_irrefl _ h1
  · rintro ⟨rfl, h0, h1⟩
    exact ⟨by omega, 0, entry_some.2 ⟨_, hb.inner p h0 h1, rfl⟩, by simp, by simp⟩

/-- Forces at the inner nodes of a line of two-node elements. -/
theorem line_internal (hlen : ms.length = n) (hn : ∀ e (he : e < ms.length), ms[e].nodes = [e, e + 1]) (nd : ℕ) (U : ℕ → ℕ → K)
    {p j : ℕ} (h0 : 0 < p) (h1 : p < n) :
    internal nd ms U p j = (ms[p - 1]'(by omega)).force nd U 1 j + (ms[p]'(by omega)).force nd U 0 j := by
  have key : ∀ e (he : e < ms.length), (∑ a ∈ Finset.range ms[e].nodes.length,
      if ms[e].nodes[a]? = some p then ms[e].force nd U a j else 0) =
      (if e = p then ms[e].force nd U 0 j else 0) + if e + 1 = p then ms[e].force nd U 1 j else 0 := by
    intro e he
    rw [hn e he]
    simp [Finset.sum_range_succ]
  subst hlen
  unfold internal
  rw [← sum_range_list ms ⟨[], fun _ _ => 0⟩]
  have e1 : ∀ e ∈ Finset.range ms.length, (∑ a ∈ Finset.range (ms.getD e ⟨[], fun _ _ => 0⟩).nodes.length,
      if (ms.getD e ⟨[], fun _ _ => 0⟩).nodes[a]? = some p then (ms.getD e ⟨[], fun _ _ => 0⟩).force nd U a j else 0) =
      (if e = p then (ms.getD e ⟨[], fun _ _ => 0⟩).force nd U 0 j else 0) +
        if e = p - 1 then (ms.getD e ⟨[], fun _ _ => 0⟩).force nd U 1 j else 0 := by
    intro e he
    have he : e < ms.length := Finset.mem_range.1 he
    have hg : ms.getD e ⟨[], fun _ _ => 0⟩ = ms[e] := by
      rw [List.getD_eq_getElem?_getD, List.getElem?_eq_getElem he, Option.getD_some]
    rw [hg, key e he]
    congr 1
    exact if_congr (by omega) rfl rfl
  rw [Finset.sum_congr rfl e1, Finset.sum_add_distrib, Finset.sum_ite_eq', Finset.sum_ite_eq', if_pos (by simpa using h1),
    if_pos (by rw [Finset.mem_range]; omega), add_comm]
  have hp : p < ms.length := by omega
  have hp' : p - 1 < ms.length := by omega
  rw [List.getD_eq_getElem?_getD, List.getD_eq_getElem?_getD, List.getElem?_eq_getElem hp, List.getElem?_eq_getElem hp',
    Option.getD_some, Option.getD_some]

/-- The two ends of a bar. -/
def ends (x y h : K) (e : ℕ) : Matrix (Fin 2) (Fin 2) K := !![x + e * h, y; x + (e + 1 : ℕ) * h, y]

theorem ends_length (x y : K) (hh : 0 < h) (e : ℕ) : IsLength (ends x y h e) h := by
  refine ⟨hh, ?_⟩
  simp [ends]
  ring

theorem UniformBar.member (hb : UniformBar d n h E A ρ) {fn : ℤ → Uel K → Prop} (hms : List.Forall₂ (IsMember fn d.mats d.nodes) d.elements ms) :
    ∃ x y, ∀ e (he : e < ms.length), ms[e].nodes = [e, e + 1] ∧ ∃ rows f kl ml, fn 6 f ∧ ms[e].k = cell kl ∧
      List.Forall₂ (fun p row => d.nodes[p]? = some row) ms[e].nodes rows ∧ rows.map (List.drop 1) = matRows (ends x y h e) ∧
      f (matRows (ends x y h e)) [E, A, ρ] = .ok (kl, ml) := by
  obtain ⟨x, y, hpl⟩ := hb.place
  refine ⟨x, y, fun e he => ?_⟩
  have he' : e < d.elements.length := by rw [hms.length_eq]; exact he
  have hen : e < n := by rw [← hb.bars]; exact he'
  have hm := hms.get (i := e) he' he
  rw [List.get_eq_getElem, List.get_eq_getElem] at hm
  obtain ⟨id, hid⟩ := hb.bar e hen
  rw [List.getElem?_eq_getElem he', Option.some.injEq] at hid
  rw [hid] at hm
  obtain ⟨ty, mi, params, rows, f, kl, ml, a1, a2, ⟨q, a3, a4⟩, a5, a6, a7, a8, a9⟩ := hm
  have hty : ty = 6 := by simpa using a1.symm
  have hmi : mi = 0 := by simpa using a2.symm
  subst hty hmi
  have hq : q = 0 := by
    obtain ⟨c1, c2⟩ := a3
    omega
  subst hq
  rw [hb.material, Option.some.injEq] at a4
  subst a4
  have hnodes : ms[e].nodes = [e, e + 1] := by
    refine forall₂_resolves_unique ?_ a5
    exact .cons ⟨by rw [hb.count]; omega, .inl rfl⟩ (.cons ⟨by rw [hb.count]; omega, .inl (by push_cast; rfl)⟩ .nil)
  obtain ⟨i0, r0⟩ := hpl e (by omega)
  obtain ⟨i1, r1⟩ := hpl (e + 1) (by omega)
  have hrows : rows = [[i0, x + e * h, y], [i1, x + (e + 1 : ℕ) * h, y]] := by
    rw [hnodes] at a6
    cases a6 with
    | cons b1 t1 =>
      cases t1 with
      | cons b2 t2 =>
        cases t2
        rw [r0, Option.some.injEq] at b1
        rw [r1, Option.some.injEq] at b2
        rw [← b1, ← b2]
  have hX : rows.map (List.drop 1) = matRows (ends x y h e) := by
    rw [hrows, matRows_two]
    simp [ends]
  rw [hX] at a8
  exact ⟨hnodes, rows, f, kl, ml, a7, a9, a6, hX, a8⟩

theorem UniformBar.stiff (hb : UniformBar d n h E A ρ) (hs : SqrtFn sq) (hh : 0 < h) (hms : Members sq d ms) :
    ∀ e (he : e < ms.length), ms[e].nodes = [e, e + 1] ∧ ∀ U, ms[e].force 2 U 0 0 = A * E / h * (U e 0 - U (e + 1) 0) ∧
      ms[e].force 2 U 1 0 = A * E / h * (U (e + 1) 0 - U e 0) := by
  obtain ⟨x, y, H⟩ := hb.member hms
  intro e he
  obtain ⟨hn, rows, f, kl, ml, a1, a2, a3, a4, a5⟩ := H e he
  have hf : f = Uel.truss2D sq := by
    simp only [Routine, Uel.eleFun, Except.ok.injEq] at a1
    exact a1.symm
  subst hf
  obtain ⟨k, m, c1, c2, c3⟩ := truss_shape a5
  obtain ⟨rfl, -⟩ := (truss_returns hs (ends_length x y hh e)).1 c3
  have hp := placed_of_rows a3 a4 a2 c1
  have hne := hh.ne'
  have hd : ((e + 1) * h - e * h) / h = 1 := by
    field_simp
    ring
  refine ⟨hn, fun U => ⟨?_, ?_⟩⟩
  · have := hp.force U (0, 0)
    simp only [Fin.val_zero] at this
    rw [this, barK_mulVec]
    simp [outward, pull, dotProduct, Fintype.sum_prod_type, Member.pick, hn, ends]
    rw [hd]
    ring
  · have := hp.force U (1, 0)
    simp only [Fin.val_zero, Fin.val_one] at this
    rw [this, barK_mulVec]
    simp [outward, pull, dotProduct, Fintype.sum_prod_type, Member.pick, hn, ends]
    rw [hd]
    ring

theorem UniformBar.mass (hb : UniformBar d n h E A ρ) (hs : SqrtFn sq) (hh : 0 < h) (hms : Masses sq d ms) :
    ∀ e (he : e < ms.length), ms[e].nodes = [e, e + 1] ∧ ∀ U, ms[e].force 2 U 0 0 = A * h * ρ / 6 * (2 * U e 0 + U (e + 1) 0) ∧
      ms[e].force 2 U 1 0 = A * h * ρ / 6 * (U e 0 + 2 * U (e + 1) 0) := by
  obtain ⟨x, y, H⟩ := hb.member hms
  intro e he
  obtain ⟨hn, rows, f, kl, ml, ⟨f0, a0, a1⟩, a2, a3, a4, a5⟩ := H e he
  have hf : f0 = Uel.truss2D sq := by
    simp only [Uel.eleFun, Except.ok.injEq] at a0
    exact a0.symm
  subst hf a1
  obtain ⟨k, m, c1, c2, c3⟩ := truss_shape (swapped_ok.1 a5)
  obtain ⟨-, rfl⟩ := (truss_returns hs (ends_length x y hh e)).1 c3
  have hp := placed_of_rows a3 a4 a2 c2
  refine ⟨hn, fun U => ⟨?_, ?_⟩⟩
  · have := hp.force U (0, 0)
    simp only [Fin.val_zero] at this
    rw [this]
    simp [barM, Matrix.mulVec, dotProduct, Fintype.sum_prod_type, Member.pick, hn, density]
    ring
  · have := hp.force U (1, 0)
    simp only [Fin.val_zero, Fin.val_one] at this
    rw [this]
    simp [barM, Matrix.mulVec, dotProduct, Fintype.sum_prod_type, Member.pick, hn, density]
    ring


/-- The elements of the bar are accepted. -/
theorem UniformBar.exists_members (hb : UniformBar d n h E A ρ) (hs : SqrtFn sq) (hh : 0 < h) : ∃ ms, Members sq d ms := by
  have key : ∀ el ∈ d.elements, ∃ m, IsMember (Routine sq) d.mats d.nodes el m := by
    obtain ⟨x, y, hpl⟩ := hb.place
    intro el hel
    obtain ⟨e, he, rfl⟩ := List.mem_iff_getElem.1 hel
    have hen : e < n := by rw [← hb.bars]; exact he
    obtain ⟨id, hid⟩ := hb.bar e hen
    rw [List.getElem?_eq_getElem he, Option.some.injEq] at hid
    rw [hid]
    obtain ⟨i0, r0⟩ := hpl e (by omega)
    obtain ⟨i1, r1⟩ := hpl (e + 1) (by omega)
    obtain ⟨kl, ml, h3, -⟩ := (truss_returns (E := E) (A := A) (rest := [ρ]) hs (ends_length x y hh e)).2 ⟨rfl, rfl⟩
    have hmats : 0 < d.mats.length := (List.getElem?_eq_some_iff.1 hb.material).1
    refine ⟨⟨[e, e + 1], cell kl⟩, 6, 0, [E, A, ρ], [[i0, x + e * h, y], [i1, x + (e + 1 : ℕ) * h, y]], Uel.truss2D sq, kl, ml,
      rfl, rfl, ⟨0, ⟨hmats, .inl rfl⟩, hb.material⟩, ?_, ?_, rfl, ?_, rfl⟩
    · exact .cons ⟨by rw [hb.count]; omega, .inl rfl⟩ (.cons ⟨by rw [hb.count]; omega, .inl (by push_cast; rfl)⟩ .nil)
    · exact .cons r0 (.cons r1 .nil)
    · rw [← h3, matRows_two]
      simp [ends]
  unfold Members
  generalize d.elements = els at key
  induction els with
  | nil => exact ⟨[], .nil⟩
  | cons el els ih =>
    obtain ⟨ms, h1⟩ := ih fun el hel => key el (by simp [hel])
    obtain ⟨m, h2⟩ := key el (by simp)
    exact ⟨m :: ms, .cons h2 h1⟩

theorem UniformBar.model (hb : UniformBar d n h E A ρ) : PlaneModel d where
  nodes := by
    obtain ⟨x, y, hpl⟩ := hb.place
    intro r hr
    obtain ⟨p, hp⟩ := List.mem_iff_getElem?.1 hr
    have := (List.getElem?_eq_some_iff.1 hp).1
    obtain ⟨id, h1⟩ := hpl p (by rw [hb.count] at this; omega)
    rw [hp, Option.some.injEq] at h1
    rw [h1]
    rfl
  types := by
    intro el hel ty hty
    obtain ⟨e, he, rfl⟩ := List.mem_iff_getElem.1 hel
    obtain ⟨id, hid⟩ := hb.bar e (by rw [← hb.bars]; exact he)
    rw [List.getElem?_eq_getElem he, Option.some.injEq] at hid
    rw [hid] at hty ⊢
    right
    exact ⟨by simpa using hty.symm, rfl⟩

variable {op bc : List (List ℤ)} {neq : ℕ} {Kg Mg : Matrix (Fin neq) (Fin neq) K} {v : Fin neq → K} {V : ℕ → ℕ → K}

theorem UniformBar.stiff_mul (hb : UniformBar d n h E A ρ) (hs : SqrtFn sq) (hh : 0 < h) (h1 : dme d.cons d.elements = .ok (op, bc, neq))
    (h2 : assembler (Uel.eleFun sq) d.elements d.mats d.nodes neq op = .ok (Kg, Mg)) (hV : Completes d.cons bc 2 neq v V)
    {p : ℕ} {i : Fin neq} (hp0 : 0 < p) (hp1 : p < n) (hi : DofEq bc neq p 0 i) :
    Kg.mulVec v i = A * E / h * (2 * V p 0 - V (p - 1) 0 - V (p + 1) 0) := by
  obtain ⟨ms, s⟩ := auto_setup h1 h2 hb.wf.codes hb.wf.width hb.wf.size
  have hlen : ms.length = n := by rw [← s.mem.length_eq, hb.bars]
  have hf := hb.stiff hs hh s.mem
  rw [s.mul v V hV p 0 i (hb.free_iff.2 ⟨rfl, hp0, hp1⟩) hi, line_internal hlen (fun e he => (hf e he).1) 2 V hp0 hp1,
    ((hf (p - 1) (by omega)).2 V).2, ((hf p (by omega)).2 V).1, Nat.sub_add_cancel hp0]
  ring

theorem UniformBar.mass_mul (hb : UniformBar d n h E A ρ) (hs : SqrtFn sq) (hh : 0 < h) (h1 : dme d.cons d.elements = .ok (op, bc, neq))
    (h2 : assembler (Uel.eleFun sq) d.elements d.mats d.nodes neq op = .ok (Kg, Mg)) (hV : Completes d.cons bc 2 neq v V)
    {p : ℕ} {i : Fin neq} (hp0 : 0 < p) (hp1 : p < n) (hi : DofEq bc neq p 0 i) :
    Mg.mulVec v i = A * h * ρ / 6 * (V (p - 1) 0 + 4 * V p 0 + V (p + 1) 0) := by
  obtain ⟨ms, s⟩ := mass_setup h1 h2 hb.wf
  have hlen : ms.length = n := by rw [← s.mem.length_eq, hb.bars]
  have hf := hb.mass hs hh s.mem
  rw [s.mul v V hV p 0 i (hb.free_iff.2 ⟨rfl, hp0, hp1⟩) hi, line_internal hlen (fun e he => (hf e he).1) 2 V hp0 hp1,
    ((hf (p - 1) (by omega)).2 V).2, ((hf p (by omega)).2 V).1, Nat.sub_add_cancel hp0]
  ring

/-- Every equation belongs to an inner node. -/
theorem UniformBar.owner (hb : UniformBar d n h E A ρ) (h1 : dme d.cons d.elements = .ok (op, bc, neq)) (i : Fin neq) :
    ∃ p, 0 < p ∧ p < n ∧ DofEq bc neq p 0 i := by
  have heq := (dme_ok.1 h1).1
  obtain ⟨p, j, hf, hr⟩ := exists_free heq i.2
  have he : entry bc p j = some (i : ℤ) := by rw [(free_entry heq hf).1, hr]
  obtain ⟨rfl, h3, h4⟩ := hb.free_iff.1 hf
  exact ⟨p, h3, h4, i, he, by omega, i.2, Or.inl rfl⟩

theorem UniformBar.size_le (hb : UniformBar d n h E A ρ) (h1 : dme d.cons d.elements = .ok (op, bc, neq)) : neq ≤ n - 1 := by
  choose P h3 h4 h5 using hb.owner h1
  have := Fintype.card_le_of_injective (fun i : Fin neq => (⟨P i - 1, by have := h3 i; have := h4 i; omega⟩ : Fin (n - 1))) (by
    intro i i' hii
    have : P i = P i' := by
      have := congrArg Fin.val hii
      have := h3 i
      have := h3 i'
      dsimp only at *
      omega
    have h6 := h5 i'
    rw [← this] at h6
    exact Fin.ext (dofEq_unique (h5 i) h6))
  simpa using this

theorem UniformBar.ends_zero (hb : UniformBar d n h E A ρ) (h1 : dme d.cons d.elements = .ok (op, bc, neq))
    (hV : Completes d.cons bc 2 neq v V) : V 0 0 = 0 ∧ V n 0 = 0 ∧ ∀ p ≤ n, V p 1 = 0 := by
  have heq := (dme_ok.1 h1).1
  have key : ∀ p ≤ n, ∀ j < 2, ¬ Free d.cons 2 p j → V p j = 0 := by
    intro p hp j hj hnf
    have hp' : p < d.cons.length := by rw [hb.rows]; omega
    rcases free_or_fixed heq hb.wf.codes hp' hj with ⟨hf, -⟩ | ⟨-, -, hno⟩
    · exact absurd hf hnf
    · exact (hV p hp' j hj).2 hno
  refine ⟨key 0 (by omega) 0 (by omega) ?_, key n le_rfl 0 (by omega) ?_, fun p hp => key p hp 1 (by omega) ?_⟩ <;>
    rw [hb.free_iff] <;> omega

theorem UniformBar.mass_pos (hb : UniformBar d n h E A ρ) (hs : SqrtFn sq) (hh : 0 < h) (hA : 0 < A) (hρ : 0 < ρ)
    (h1 : dme d.cons d.elements = .ok (op, bc, neq))
    (h2 : assembler (Uel.eleFun sq) d.elements d.mats d.nodes neq op = .ok (Kg, Mg)) (hv : v ≠ 0) : 0 < ∑ i, v i * Mg.mulVec v i := by
  obtain ⟨V, hV⟩ := exists_completes (cons := d.cons) bc 2 v
  obtain ⟨ms, s⟩ := mass_setup h1 h2 hb.wf
  have hlen : ms.length = n := by rw [← s.mem.length_eq, hb.bars]
  have hf := hb.mass hs hh s.mem
  obtain ⟨z0, z1, z2⟩ := hb.ends_zero h1 hV
  have hform : ∀ e (he : e < ms.length), ms[e].form 2 V V =
      A * h * ρ / 6 * (V e 0 ^ 2 + V (e + 1) 0 ^ 2 + (V e 0 + V (e + 1) 0) ^ 2) := by
    intro e he
    have h3 := z2 e (by omega)
    have h4 := z2 (e + 1) (by omega)
    unfold Member.form
    rw [(hf e he).1]
    simp [Finset.sum_range_succ, h3, h4, (hf e he).2 V]
    ring
  have hc : 0 < A * h * ρ / 6 := by positivity
  have hnn : ∀ m ∈ ms, 0 ≤ m.form 2 V V := by
    intro m hm
    obtain ⟨e, he, rfl⟩ := List.mem_iff_getElem.1 hm
    rw [hform e he]
    positivity
  rw [reduced_form s hV hV]
  refine lt_of_le_of_ne (List.sum_nonneg (by simpa using hnn)) fun h0 => hv ?_
  have hz := (sum_pos_zero hnn).1 h0.symm
  funext i
  obtain ⟨p, hp0, hp1, hi⟩ := hb.owner h1 i
  have h3 := hz _ (List.getElem_mem (by omega : p < ms.length))
  rw [hform p (by omega)] at h3
  have h4 := (mul_eq_zero.1 h3).resolve_left hc.ne'
  have h5 : V p 0 ^ 2 = 0 := by nlinarith [sq_nonneg (V p 0), sq_nonneg (V (p + 1) 0), sq_nonneg (V p 0 + V (p + 1) 0)]
  rw [← (hV p (by rw [hb.rows]; omega) 0 (by omega)).1 i hi, pow_eq_zero_iff (by omega)] at *
  exact h5

end

/-! ## Frequencies -/

theorem sq_le_chain {x : ℝ} (h0 : 0 ≤ x) (h1 : x ≤ Real.pi) :
    x ^ 2 ≤ 6 * (1 - Real.cos x) / (2 + Real.cos x) := by
  have hc := Real.neg_one_le_cos x
  rw [le_div_iff₀ (by linarith)]
  obtain ⟨t, rfl⟩ : ∃ t, x = 2 * t := ⟨x / 2, by ring⟩
  rw [Real.cos_two_mul]
  have hs := Real.sin_sq_add_cos_sq t
  have ht0 : 0 ≤ t := by linarith
  have ht1 : t ≤ Real.pi / 2 := by linarith
  have key : 3 * t ^ 2 ≤ Real.sin t ^ 2 * (3 + 2 * t ^ 2) := by
    have hp1 := Real.pi_gt_d2
    have hp2 := Real.pi_lt_d2
    by_cases ht : t ≤ 1.46
    · have h2 := Real.sin_ge_sub_cube ht0
      have h3 : 0 ≤ t - t ^ 3 / 6 := by
        have : t - t ^ 3 / 6 = t * (1 - t ^ 2 / 6) := by ring
        rw [this]
        apply mul_nonneg ht0
        nlinarith
      have h4 : (t - t ^ 3 / 6) ^ 2 ≤ Real.sin t ^ 2 := pow_le_pow_left₀ h3 h2 2
      have h5 : 0 ≤ 1 - 7 * t ^ 2 / 12 + (t ^ 2) ^ 2 / 18 := by
        have : t ^ 2 ≤ 2.14 := by nlinarith
        nlinarith [sq_nonneg t]
      have h6 : 3 * t ^ 2 ≤ (t - t ^ 3 / 6) ^ 2 * (3 + 2 * t ^ 2) := by
        have : (t - t ^ 3 / 6) ^ 2 * (3 + 2 * t ^ 2) - 3 * t ^ 2 = t ^ 4 * (1 - 7 * t ^ 2 / 12 + (t ^ 2) ^ 2 / 18) := by ring
        have : 0 ≤ t ^ 4 * (1 - 7 * t ^ 2 / 12 + (t ^ 2) ^ 2 / 18) := mul_nonneg (by positivity) h5
        linarith
      exact h6.trans (mul_le_mul_of_nonneg_right h4 (by positivity))
    · push Not at ht
      have h2 := Real.one_sub_sq_div_two_le_cos (x := Real.pi / 2 - t)
      rw [Real.cos_pi_div_two_sub] at h2
      have h3 : (0.99 : ℝ) ≤ Real.sin t := by nlinarith
      have h4 : (0.98 : ℝ) ≤ Real.sin t ^ 2 := by nlinarith
      have h5 : t ^ 2 ≤ 2.49 := by nlinarith
      nlinarith [sq_nonneg t]
  nlinarith

theorem chain_limit : Filter.Tendsto (fun x : ℝ => 6 * (1 - Real.cos x) / (2 + Real.cos x) / x ^ 2) (nhdsWithin 0 {0}ᶜ) (nhds 1) := by
  have h1 : Filter.Tendsto (fun x : ℝ => 3 * Real.sinc (x / 2) ^ 2 / (2 + Real.cos x)) (nhds 0) (nhds 1) := by
    have hc : ContinuousAt (fun x : ℝ => 3 * Real.sinc (x / 2) ^ 2 / (2 + Real.cos x)) 0 := by
      have := Real.continuous_sinc
      refine ContinuousAt.div (by fun_prop) (by fun_prop) (by simp; norm_num)
    have := hc.tendsto
    simp only [zero_div, Real.sinc_zero, Real.cos_zero] at this
    norm_num at this
    exact this
  refine (h1.mono_left nhdsWithin_le_nhds).congr' ?_
  filter_upwards [self_mem_nhdsWithin] with x hx
  have hx : x ≠ 0 := hx
  have hc := Real.neg_one_le_cos x
  have hp : 2 + Real.cos x ≠ 0 := by linarith
  have e : Real.sinc (x / 2) = Real.sin (x / 2) / (x / 2) := Real.sinc_of_ne_zero (by simpa using hx)
  have e2 : 1 - Real.cos x = 2 * Real.sin (x / 2) ^ 2 := by
    have := Real.cos_two_mul (x / 2)
    rw [show 2 * (x / 2) = x by ring] at this
    have h3 := Real.sin_sq_add_cos_sq (x / 2)
    linarith
  rw [e, e2]
  field_simp
  ring

/-- The square of the `k`-th natural frequency of a bar of `n` elements of length `h`, with consistent masses. -/
noncomputable def Spec.barFreq (n k : ℕ) (h E ρ : ℝ) : ℝ :=
  E / ρ * (6 * (1 - Real.cos (k * Real.pi / n)) / (2 + Real.cos (k * Real.pi / n)) / h ^ 2)

section
variable {sq : ℝ → ℝ} {d : Gui.Data ℝ} {n : ℕ} {h E A ρ : ℝ} {op bc : List (List ℤ)} {neq : ℕ}
  {Kg Mg : Matrix (Fin neq) (Fin neq) ℝ}

theorem angle {k n : ℕ} (hk : 0 < k) (hkn : k < n) : 0 < k * Real.pi / n ∧ k * Real.pi / n < Real.pi := by
  have hn : (0 : ℝ) < n := by exact_mod_cast (by omega : 0 < n)
  have hk' : (0 : ℝ) < k := by exact_mod_cast hk
  have := Real.pi_pos
  refine ⟨by positivity, ?_⟩
  rw [div_lt_iff₀ hn, mul_comm]
  have : (k : ℝ) < n := by exact_mod_cast hkn
  nlinarith

theorem barFreq_lt (hh : 0 < h) (hE : 0 < E) (hρ : 0 < ρ) {k k' : ℕ} (hk : 0 < k) (hkk : k < k') (hkn : k' < n) :
    barFreq n k h E ρ < barFreq n k' h E ρ := by
  obtain ⟨a0, a1⟩ := angle hk (hkk.trans hkn)
  obtain ⟨b0, b1⟩ := angle (hk.trans hkk) hkn
  have hlt : k * Real.pi / n < k' * Real.pi / n := by
    have hn : (0 : ℝ) < n := by exact_mod_cast (by omega : 0 < n)
    have : (k : ℝ) < k' := by exact_mod_cast hkk
    have := Real.pi_pos
    gcongr
  have hc := Real.strictAntiOn_cos ⟨a0.le, a1.le⟩ ⟨b0.le, b1.le⟩ hlt
  have c0 := Real.neg_one_le_cos (k * Real.pi / n)
  have c1 := Real.neg_one_le_cos (k' * Real.pi / n)
  unfold barFreq
  have key : 6 * (1 - Real.cos (k * Real.pi / n)) / (2 + Real.cos (k * Real.pi / n)) <
      6 * (1 - Real.cos (k' * Real.pi / n)) / (2 + Real.cos (k' * Real.pi / n)) := by
    rw [div_lt_div_iff₀ (by linarith) (by linarith)]
    nlinarith
  gcongr

/-- C116.  The vibration modes of the bar: sines. -/
theorem C116_modes (hb : UniformBar d n h E A ρ) (hs : SqrtFn sq) (hh : 0 < h) (hA : 0 < A) (hρ : 0 < ρ)
    (h1 : dme d.cons d.elements = .ok (op, bc, neq))
    (h2 : assembler (Uel.eleFun sq) d.elements d.mats d.nodes neq op = .ok (Kg, Mg)) {k : ℕ} (hk : 0 < k) (hkn : k < n) :
    ∃ v : Fin neq → ℝ, v ≠ 0 ∧ (∀ p (i : Fin neq), DofEq bc neq p 0 i → v i = Real.sin (k * Real.pi / n * p)) ∧
      Kg.mulVec v = barFreq n k h E ρ • Mg.mulVec v := by
  have hn : (n : ℝ) ≠ 0 := by exact_mod_cast (by omega : n ≠ 0)
  obtain ⟨a0, a1⟩ := angle hk hkn
  generalize hθ : k * Real.pi / n = θ at a0 a1
  have heq := (dme_ok.1 h1).1
  have hV : Admissible d.cons 2 fun p j => if j = 0 then Real.sin (θ * p) else 0 := by
    intro p j hp hj hnf
    rw [hb.free_iff] at hnf
    rw [hb.rows] at hp
    dsimp only
    by_cases hj0 : j = 0
    · rw [if_pos hj0]
      rcases (by omega : p = 0 ∨ p = n) with rfl | rfl
      · simp
      · rw [← hθ, div_mul_cancel₀ _ hn]
        exact Real.sin_nat_mul_pi k
    · rw [if_neg hj0]
  obtain ⟨v, hv⟩ := exists_reduced heq hb.wf.codes hV
  have hval : ∀ p (i : Fin neq), DofEq bc neq p 0 i → v i = Real.sin (θ * p) := by
    intro p i hi
    have hp : p < d.cons.length := by
      obtain ⟨g, hg, -⟩ := hi
      obtain ⟨row, h3, -⟩ := entry_some.1 hg
      have h4 := congrArg List.length (eqcounter_shape heq).1
      rw [List.length_map, List.length_map] at h4
      rw [← h4]
      exact (List.getElem?_eq_some_iff.1 h3).1
    have := (hv p hp 0 (by omega)).1 i hi
    dsimp only at this
    rw [← this, if_pos rfl]
  refine ⟨v, ?_, hval, ?_⟩
  · rintro rfl
    rcases free_or_fixed heq hb.wf.codes (p := 1) (j := 0) (by rw [hb.rows]; omega) (by omega) with ⟨-, i, hi, -⟩ | ⟨hnf, -⟩
    · have h3 := hval 1 i hi
      have h4 := Real.sin_pos_of_pos_of_lt_pi a0 a1
      simp at h3
      rw [← h3] at h4
      exact lt_irrefl _ h4
    · exact hnf (hb.free_iff.2 ⟨rfl, by omega, by omega⟩)
  · funext i
    obtain ⟨p, hp0, hp1, hi⟩ := hb.owner h1 i
    rw [Pi.smul_apply, hb.stiff_mul hs hh h1 h2 hv hp0 hp1 hi, hb.mass_mul hs hh h1 h2 hv hp0 hp1 hi, smul_eq_mul]
    simp only [if_true]
    have e1 : Real.sin (θ * ((p - 1 : ℕ) : ℝ)) = Real.sin (θ * p) * Real.cos θ - Real.cos (θ * p) * Real.sin θ := by
      rw [Nat.cast_sub hp0, ← Real.sin_sub]
      congr 1
      push_cast
      ring
    have e2 : Real.sin (θ * ((p + 1 : ℕ) : ℝ)) = Real.sin (θ * p) * Real.cos θ + Real.cos (θ * p) * Real.sin θ := by
      rw [← Real.sin_add]
      congr 1
      push_cast
      ring
    rw [e1, e2]
    unfold barFreq
    rw [hθ]
    have c0 := Real.neg_one_le_cos θ
    have : 2 + Real.cos θ ≠ 0 := by linarith
    field_simp
    ring

/-- C116.  The frequencies of the bar are these and no others. -/
theorem C116_frequencies (hb : UniformBar d n h E A ρ) (hs : SqrtFn sq) (hh : 0 < h) (hE : 0 < E) (hA : 0 < A) (hρ : 0 < ρ)
    (h1 : dme d.cons d.elements = .ok (op, bc, neq))
    (h2 : assembler (Uel.eleFun sq) d.elements d.mats d.nodes neq op = .ok (Kg, Mg)) (w : ℝ) :
    (∃ v : Fin neq → ℝ, v ≠ 0 ∧ Kg.mulVec v = w • Mg.mulVec v) ↔ ∃ k, 0 < k ∧ k < n ∧ w = barFreq n k h E ρ := by
  constructor
  · rintro ⟨v, hv, hw⟩
    by_contra hno
    push Not at hno
    have hdet : Mg.det ≠ 0 := by
      intro h0
      obtain ⟨u, hu, hu0⟩ := Matrix.exists_mulVec_eq_zero_iff.2 h0
      have := hb.mass_pos hs hh hA hρ h1 h2 hu
      rw [hu0] at this
      simp at this
    have hu : IsUnit Mg.det := isUnit_iff_ne_zero.2 hdet
    choose! m hm0 _ hmw using fun k (hk : 0 < k ∧ k < n) => C116_modes hb hs hh hA hρ h1 h2 hk.1 hk.2
    have inv : ∀ {x : Fin neq → ℝ} {c : ℝ}, Kg.mulVec x = c • Mg.mulVec x → (Mg⁻¹ * Kg).mulVec x = c • x := by
      intro x c hx
      rw [← Matrix.mulVec_mulVec, hx, Matrix.mulVec_smul, Matrix.mulVec_mulVec, Matrix.nonsing_inv_mul _ hu, Matrix.one_mulVec]
    let f : Module.End ℝ (Fin neq → ℝ) := (Mg⁻¹ * Kg).mulVecLin
    have hli := Module.End.eigenvectors_linearIndependent' f
      (fun k : Fin n => if (k : ℕ) = 0 then w else barFreq n k h E ρ) (by
        intro k k' hkk
        dsimp only at hkk
        split_ifs at hkk with a b b
        · exact Fin.ext (by omega)
        · exact absurd hkk (hno k' (by omega) k'.2)
        · exact absurd hkk.symm (hno k (by omega) k.2)
        · rcases lt_trichotomy (k : ℕ) k' with hlt | he | hlt
          · exact absurd hkk (barFreq_lt hh hE hρ (by omega) hlt k'.2).ne
          · exact Fin.ext he
          · exact absurd hkk (barFreq_lt hh hE hρ (by omega) hlt k.2).ne')
      (fun k : Fin n => if (k : ℕ) = 0 then v else m k) (by
        intro k
        rw [Module.End.hasEigenvector_iff, Module.End.mem_eigenspace_iff]
        by_cases a : (k : ℕ) = 0
        · simp only [if_pos a]
          exact ⟨inv hw, hv⟩
        · simp only [if_neg a]
          exact ⟨inv (hmw k ⟨by omega, k.2⟩), hm0 k ⟨by omega, k.2⟩⟩)
    have hcard := hli.fintype_card_le_finrank
    simp only [Fintype.card_fin, Module.finrank_fintype_fun_eq_card] at hcard
    have := hb.size_le h1
    have hpos : 0 < neq := by
      rw [Nat.pos_iff_ne_zero]
      rintro rfl
      exact hv (Subsingleton.elim _ _)
    omega
  · rintro ⟨k, hk, hkn, rfl⟩
    obtain ⟨v, hv, -, hw⟩ := C116_modes hb hs hh hA hρ h1 h2 hk hkn
    exact ⟨v, hv, hw⟩

theorem barFreq_pos (hh : 0 < h) (hE : 0 < E) (hρ : 0 < ρ) {k : ℕ} (hk : 0 < k) (hkn : k < n) : 0 < barFreq n k h E ρ := by
  obtain ⟨a0, a1⟩ := angle hk hkn
  have c0 := Real.neg_one_le_cos (k * Real.pi / n)
  have c1 := Real.strictAntiOn_cos ⟨le_rfl, Real.pi_pos.le⟩ ⟨a0.le, a1.le⟩ a0
  rw [Real.cos_zero] at c1
  unfold barFreq
  have : 0 < 1 - Real.cos (k * Real.pi / n) := by linarith
  have : 0 < 2 + Real.cos (k * Real.pi / n) := by linarith
  positivity

/-- C116.  Every mode of the `k`-th frequency is a multiple of the `k`-th sine. -/
theorem C116_shapes (hb : UniformBar d n h E A ρ) (hs : SqrtFn sq) (hh : 0 < h) (hE : 0 < E) (hA : 0 < A) (hρ : 0 < ρ)
    (h1 : dme d.cons d.elements = .ok (op, bc, neq))
    (h2 : assembler (Uel.eleFun sq) d.elements d.mats d.nodes neq op = .ok (Kg, Mg)) {k : ℕ} (hk : 0 < k) (hkn : k < n)
    {v : Fin neq → ℝ} (hv : Kg.mulVec v = barFreq n k h E ρ • Mg.mulVec v) {V : Table ℝ}
    (hV : Post.completeDisp bc d.nodes.length v = .ok V) :
    ∃ c, ∀ p ≤ n, fieldOf V p 0 = c * Real.sin (k * Real.pi / n * p) := by
  obtain ⟨m, -, hm, hmw⟩ := C116_modes hb hs hh hA hρ h1 h2 hk hkn
  have heq := (dme_ok.1 h1).1
  rw [← hb.wf.size] at hV
  have hC := completes_of_completeDisp hV
  obtain ⟨M, hM⟩ := exists_completes (cons := d.cons) bc 2 m
  obtain ⟨a0, a1⟩ := angle hk hkn
  have hs0 := (Real.sin_pos_of_pos_of_lt_pi a0 a1).ne'
  have hdof : ∀ p, 0 < p → p < n → ∃ i : Fin neq, DofEq bc neq p 0 i := by
    intro p h3 h4
    rcases free_or_fixed heq hb.wf.codes (p := p) (j := 0) (by rw [hb.rows]; omega) (by omega) with ⟨-, i, hi, -⟩ | ⟨hnf, -⟩
    · exact ⟨i, hi⟩
    · exact absurd (hb.free_iff.2 ⟨rfl, h3, h4⟩) hnf
  have hMv : ∀ p ≤ n, M p 0 = Real.sin (k * Real.pi / n * p) := by
    intro p hp
    obtain ⟨z0, z1, -⟩ := hb.ends_zero h1 hM
    rcases Nat.eq_zero_or_pos p with rfl | h3
    · simpa using z0
    · rcases Nat.lt_or_ge p n with h4 | h4
      · obtain ⟨i, hi⟩ := hdof p h3 h4
        rw [(hM p (by rw [hb.rows]; omega) 0 (by omega)).1 i hi, hm p i hi]
      · obtain rfl : p = n := by omega
        have hn : (p : ℝ) ≠ 0 := by exact_mod_cast (by omega : p ≠ 0)
        rw [z1, div_mul_cancel₀ _ hn, Real.sin_nat_mul_pi]
  obtain ⟨z0, z1, -⟩ := hb.ends_zero h1 hC
  have hM1 := hMv 1 (by omega)
  rw [Nat.cast_one, mul_one] at hM1
  have hM0 := hMv 0 (by omega)
  simp only [Nat.cast_zero, mul_zero, Real.sin_zero] at hM0
  refine ⟨fieldOf V 1 0 / Real.sin (k * Real.pi / n), ?_⟩
  have hw := barFreq_pos hh hE hρ hk hkn
  have key : ∀ p, p + 1 ≤ n → fieldOf V p 0 = fieldOf V 1 0 / Real.sin (k * Real.pi / n) * M p 0 ∧
      fieldOf V (p + 1) 0 = fieldOf V 1 0 / Real.sin (k * Real.pi / n) * M (p + 1) 0 := by
    intro p
    induction p with
    | zero =>
      intro _
      rw [z0, hM0, zero_add, hM1, div_mul_cancel₀ _ hs0]
      simp
    | succ p ih =>
      intro hp
      obtain ⟨i1, i2⟩ := ih (by omega)
      refine ⟨i2, ?_⟩
      obtain ⟨i, hi⟩ := hdof (p + 1) (by omega) (by omega)
      have r1 := congrFun hv i
      have r2 := congrFun hmw i
      rw [Pi.smul_apply, smul_eq_mul, hb.stiff_mul hs hh h1 h2 hC (by omega) (by omega) hi,
        hb.mass_mul hs hh h1 h2 hC (by omega) (by omega) hi, Nat.add_sub_cancel, i1, i2] at r1
      rw [Pi.smul_apply, smul_eq_mul, hb.stiff_mul hs hh h1 h2 hM (by omega) (by omega) hi,
        hb.mass_mul hs hh h1 h2 hM (by omega) (by omega) hi, Nat.add_sub_cancel] at r2
      generalize fieldOf V 1 0 / Real.sin (k * Real.pi / n) = c at *
      have hpos : 0 < A * E / h + barFreq n k h E ρ * (A * h * ρ / 6) := by positivity
      have : (A * E / h + barFreq n k h E ρ * (A * h * ρ / 6)) * (fieldOf V (p + 1 + 1) 0 - c * M (p + 1 + 1) 0) = 0 := by
        linear_combination -r1 + c * r2
      have := (mul_eq_zero.1 this).resolve_left hpos.ne'
      linarith
  intro p hp
  rw [← hMv p hp]
  rcases Nat.lt_or_ge p n with h4 | h4
  · exact (key p (by omega)).1
  · obtain rfl : p = n := by omega
    have := (key (p - 1) (by omega)).2
    rwa [Nat.sub_add_cancel (by omega)] at this

/-- C116.  The frequencies grow with the number of the mode; they are never below those of the continuous bar, and above them by
no more than the stated factor. -/
theorem C116_bounds {L : ℝ} (hL : n * h = L) (hh : 0 < h) (hE : 0 < E) (hρ : 0 < ρ) {k : ℕ} (hk : 0 < k) (hkn : k < n) :
    (∀ k', k < k' → k' < n → barFreq n k h E ρ < barFreq n k' h E ρ) ∧
    E / ρ * (k * Real.pi / L) ^ 2 ≤ barFreq n k h E ρ ∧
    ((k * Real.pi / n) ^ 2 < 6 → barFreq n k h E ρ ≤ E / ρ * (k * Real.pi / L) ^ 2 / (1 - (k * Real.pi / n) ^ 2 / 6)) := by
  have hn : (0 : ℝ) < n := by exact_mod_cast (by omega : 0 < n)
  obtain ⟨a0, a1⟩ := angle hk hkn
  have hx : k * Real.pi / L = k * Real.pi / n / h := by rw [← hL, div_div]
  refine ⟨fun k' h3 h4 => barFreq_lt hh hE hρ hk h3 h4, ?_, fun h6 => ?_⟩
  · rw [hx]
    unfold barFreq
    rw [div_pow]
    have := sq_le_chain a0.le a1.le
    gcongr
  · rw [hx]
    unfold barFreq
    generalize k * Real.pi / n = x at *
    have e1 : 6 * (1 - Real.cos x) / (2 + Real.cos x) ≤ x ^ 2 / (1 - x ^ 2 / 6) := by
      have c0 := Real.neg_one_le_cos x
      have c1 := Real.one_sub_sq_div_two_le_cos (x := x)
      rw [div_le_div_iff₀ (by linarith) (by linarith)]
      nlinarith [sq_nonneg x]
    have e2 : E / ρ * (x / h) ^ 2 / (1 - x ^ 2 / 6) = E / ρ * (x ^ 2 / (1 - x ^ 2 / 6) / h ^ 2) := by
      rw [div_pow]
      ring
    rw [e2]
    gcongr

/-- C116.  For a bar of given length and ever more elements, the `k`-th frequency tends to the one of the continuous bar. -/
theorem C116_converges {L : ℝ} (hL : 0 < L) (E ρ : ℝ) {k : ℕ} (hk : 0 < k) :
    Filter.Tendsto (fun n : ℕ => barFreq n k (L / n) E ρ) Filter.atTop (nhds (E / ρ * (k * Real.pi / L) ^ 2)) := by
  have hx : Filter.Tendsto (fun n : ℕ => k * Real.pi / n) Filter.atTop (nhdsWithin 0 {0}ᶜ) := by
    rw [tendsto_nhdsWithin_iff]
    refine ⟨tendsto_const_div_atTop_nhds_zero_nat _, ?_⟩
    filter_upwards [Filter.eventually_gt_atTop 0] with n hn
    have : (0 : ℝ) < n := by exact_mod_cast hn
    have : (0 : ℝ) < k := by exact_mod_cast hk
    have := Real.pi_pos
    rw [Set.mem_compl_singleton_iff]
    positivity
  have := ((chain_limit.comp hx).const_mul (E / ρ * (k * Real.pi / L) ^ 2))
  rw [mul_one] at this
  refine this.congr' ?_
  filter_upwards [Filter.eventually_gt_atTop 0] with n hn
  have hn' : (0 : ℝ) < n := by exact_mod_cast hn
  have hk' : (0 : ℝ) < k := by exact_mod_cast hk
  have hpi := Real.pi_pos
  simp only [Function.comp_apply, barFreq]
  generalize 6 * (1 - Real.cos (k * Real.pi / n)) / (2 + Real.cos (k * Real.pi / n)) = y
  field_simp

/-- C116.  The matrices are formed. -/
theorem C116_assembled (hb : UniformBar d n h E A ρ) (hs : SqrtFn sq) (hh : 0 < h) :
    ∃ op bc neq Kg Mg, dme d.cons d.elements = .ok (op, bc, neq) ∧
      assembler (Uel.eleFun sq) d.elements d.mats d.nodes neq op = .ok (Kg, Mg) := by
  obtain ⟨ms, hms⟩ := hb.exists_members hs hh
  exact plane_assembly hb.model hb.wf hms

/-- The bar of `tests/test_integration.py`, lines 129-152, with any number of elements. -/
noncomputable def testBar (n : ℕ) (h E A ρ : ℝ) : Gui.Data ℝ where
  nodes := (List.range (n + 1)).map fun p : ℕ => [(p : ℝ), p * h, 0]
  cons := (List.range (n + 1)).map fun p => if p = 0 ∨ p = n then [-1, -1] else [0, -1]
  elements := (List.range n).map fun e : ℕ => [(e : ℤ), 6, 0, e, e + 1]
  mats := [[E, A, ρ]]
  loads := []

theorem testBar_uniform (n : ℕ) (h E A ρ : ℝ) : UniformBar (testBar n h E A ρ) n h E A ρ where
  count := by simp [testBar]
  place := by
    refine ⟨0, 0, fun p hp => ⟨p, ?_⟩⟩
    unfold testBar
    dsimp only
    rw [List.getElem?_map, List.getElem?_range (show p < n + 1 by omega), Option.map_some, zero_add]
  bars := by simp [testBar]
  bar := by
    intro e he
    refine ⟨e, ?_⟩
    unfold testBar
    dsimp only
    rw [List.getElem?_map, List.getElem?_range he, Option.map_some]
  material := rfl
  rows := by simp [testBar]
  fixed := by simp [testBar]
  inner := by
    intro p h0 h1
    have : ¬ (p = 0 ∨ p = n) := by omega
    simp [testBar, List.getElem?_range (show p < n + 1 by omega), this]

/-- The six smallest frequencies of the bar of the test, within the tolerance it asks for. -/
example {k : ℕ} (hk : 0 < k) (hk6 : k ≤ 6) :
    |barFreq 512 k (Real.pi / 512) 1 1 - k ^ 2| ≤ 1 / 100 * (k : ℝ) ^ 2 ∧
    ∀ k', k < k' → k' < 512 → barFreq 512 k (Real.pi / 512) 1 1 < barFreq 512 k' (Real.pi / 512) 1 1 := by
  have hpi := Real.pi_pos
  obtain ⟨b0, b1, b2⟩ := C116_bounds (n := 512) (h := Real.pi / 512) (E := 1) (ρ := 1) (L := Real.pi) (by push_cast; ring)
    (by positivity) one_pos one_pos hk (by omega)
  refine ⟨?_, b0⟩
  have hk' : (k : ℝ) ≤ 6 := by exact_mod_cast hk6
  have hk0 : (0 : ℝ) < k := by exact_mod_cast hk
  have hx : k * Real.pi / (512 : ℕ) ≤ 1 / 20 := by
    have := Real.pi_lt_d2
    push_cast
    nlinarith
  have hx0 : 0 ≤ k * Real.pi / (512 : ℕ) := by positivity
  have hxx : (k * Real.pi / (512 : ℕ)) ^ 2 ≤ 1 / 400 := by nlinarith
  have hkp : k * Real.pi / Real.pi = k := by field_simp
  rw [hkp, div_one, one_mul] at b1 b2
  have b3 := b2 (by linarith)
  have b4 : (k : ℝ) ^ 2 / (1 - (k * Real.pi / (512 : ℕ)) ^ 2 / 6) ≤ 101 / 100 * (k : ℝ) ^ 2 := by
    rw [div_le_iff₀ (by linarith)]
    nlinarith [sq_nonneg (k : ℝ)]
  rw [abs_le]
  constructor <;> nlinarith [sq_nonneg (k : ℝ)]

example : ∃ op bc neq Kg Mg, dme (testBar 512 (Real.pi / 512) 1 1 1).cons (testBar 512 (Real.pi / 512) 1 1 1).elements =
      .ok (op, bc, neq) ∧ assembler (Uel.eleFun Real.sqrt) (testBar 512 (Real.pi / 512) 1 1 1).elements
        (testBar 512 (Real.pi / 512) 1 1 1).mats (testBar 512 (Real.pi / 512) 1 1 1).nodes neq op = .ok (Kg, Mg) ∧
      ∀ w, (∃ v : Fin neq → ℝ, v ≠ 0 ∧ Kg.mulVec v = w • Mg.mulVec v) ↔
        ∃ k, 0 < k ∧ k < 512 ∧ w = barFreq 512 k (Real.pi / 512) 1 1 := by
  have hh : 0 < Real.pi / 512 := by have := Real.pi_pos; positivity
  obtain ⟨op, bc, neq, Kg, Mg, h1, h2⟩ := C116_assembled (testBar_uniform 512 (Real.pi / 512) 1 1 1) sqrtFn_real hh
  exact ⟨op, bc, neq, Kg, Mg, h1, h2,
    C116_frequencies (testBar_uniform 512 (Real.pi / 512) 1 1 1) sqrtFn_real hh one_pos one_pos one_pos h1 h2⟩

end
end SolidsPy
