import Verif.Props.FrameModes
import Verif.Proofs.BeamRoots

/-! # C149: natural frequencies of a simply supported beam -/

set_option linter.unusedSectionVars false

namespace SolidsPy
open Spec Assem Matrix

section
variable {K : Type} [Field K] [LinearOrder K] [IsStrictOrderedRing K] [FloorRing K]
variable {sq : K → K} {cons mats nodes : Table K} {elements : List (List ℤ)} {el : List ℤ} {m : Member K} {ms : List (Member K)}
  {a b n : ℕ} {X : Matrix (Fin 2) (Fin 2) K} {h L EI EA γ ν : K}

/-- `n` equal beams of length `h` in a line along the first axis, of either kind, with bending stiffness `EI` and mass per length
`γ`.  The first and the last node may turn but not move, the others may also move across the line. -/
structure Spec.SimpleBeam (cons mats nodes : Table K) (elements : List (List ℤ)) (n : ℕ) (h EI γ : K) : Prop where
  count : nodes.length = n + 1
  number : elements.length = n
  beam : ∃ x y, ∀ e < n, ∃ el EA ν, elements[e]? = some el ∧ IsBeam mats nodes el e (e + 1) (ends x y h e) h EI EA γ ν
  rows : cons.length = n + 1
  support : ∀ p ≤ n, cons[p]? = some [(-1 : K), if p = 0 ∨ p = n then -1 else 0, 0]

theorem beam_type (hb : IsBeam mats nodes el a b X L EI EA γ ν) : el[1]? = some 7 ∨ el[1]? = some 8 := by
  obtain ⟨mi, q, params, -, -, -, ⟨h7, -⟩ | ⟨h8, -⟩⟩ := hb.material
  · exact .inl h7
  · exact .inr h8

theorem Spec.SimpleBeam.frame (hb : SimpleBeam cons mats nodes elements n h EI γ) : Frame cons nodes elements where
  codes := by
    intro i j v hj hv
    obtain ⟨row, h1, h2⟩ := entry_some.1 hv
    have hlt : i < n + 1 := hb.rows ▸ (List.getElem?_eq_some_iff.1 h1).1
    rw [hb.support i (by omega), Option.some.injEq] at h1
    subst h1
    rcases (by omega : j = 0 ∨ j = 1 ∨ j = 2) with rfl | rfl | rfl <;> simp at h2 <;> rw [← h2]
    · simp
    · split_ifs <;> simp
    · simp
  width := by
    intro r hr
    obtain ⟨i, h1⟩ := List.mem_iff_getElem?.1 hr
    have hlt : i < n + 1 := hb.rows ▸ (List.getElem?_eq_some_iff.1 h1).1
    rw [hb.support i (by omega), Option.some.injEq] at h1
    rw [← h1]
    rfl
  size := by rw [hb.rows, hb.count]
  beams := by
    intro el hel
    obtain ⟨e, he, rfl⟩ := List.mem_iff_getElem.1 hel
    obtain ⟨x, y, H⟩ := hb.beam
    obtain ⟨el, EA, ν, h1, h2⟩ := H e (by rw [← hb.number]; exact he)
    rw [List.getElem?_eq_getElem he, Option.some.injEq] at h1
    rw [h1]
    exact ⟨beam_type h2, by rw [h2.ends.length_eq]; rfl⟩

theorem Spec.SimpleBeam.free_iff (hb : SimpleBeam cons mats nodes elements n h EI γ) {p j : ℕ} :
    Free cons 3 p j ↔ (j = 1 ∧ 0 < p ∧ p < n) ∨ (j = 2 ∧ p ≤ n) := by
  constructor
  · rintro ⟨hj, v, hv, v1, v2⟩
    obtain ⟨row, h1, h2⟩ := entry_some.1 hv
    have hlt : p < n + 1 := hb.rows ▸ (List.getElem?_eq_some_iff.1 h1).1
    rw [hb.support p (by omega), Option.some.injEq] at h1
    subst h1
    rcases (by omega : j = 0 ∨ j = 1 ∨ j = 2) with rfl | rfl | rfl
    · simp at h2
      rw [← h2] at v1
      exact absurd v1 (lt_irrefl _)
    · left
      by_contra hno
      have hp : p = 0 ∨ p = n := by omega
      simp [hp] at h2
      rw [← h2] at v1
      exact absurd v1 (lt_irrefl _)
    · exact .inr ⟨rfl, by omega⟩
  · rintro (⟨rfl, h0, h1⟩ | ⟨rfl, h1⟩)
    · refine ⟨by omega, 0, entry_some.2 ⟨_, hb.support p h1.le, ?_⟩, by linarith [zero_lt_one (α := K)], zero_lt_one⟩
      have : ¬ (p = 0 ∨ p = n) := by omega
      simp [this]
    · exact ⟨by omega, 0, entry_some.2 ⟨_, hb.support p h1, rfl⟩, by linarith [zero_lt_one (α := K)], zero_lt_one⟩

/-- Transverse forces and moments at the ends of a beam. -/
structure BeamEnds (m : Member K) (e : ℕ) (h EI : K) (U : ℕ → ℕ → K) : Prop where
  f01 : m.force 3 U 0 1 = EI / h ^ 3 * (12 * (U e 1 - U (e + 1) 1) + 6 * h * (U e 2 + U (e + 1) 2))
  f02 : m.force 3 U 0 2 = EI / h ^ 2 * (6 * (U e 1 - U (e + 1) 1) + h * (4 * U e 2 + 2 * U (e + 1) 2))
  f11 : m.force 3 U 1 1 = EI / h ^ 3 * (12 * (U (e + 1) 1 - U e 1) - 6 * h * (U e 2 + U (e + 1) 2))
  f12 : m.force 3 U 1 2 = EI / h ^ 2 * (6 * (U e 1 - U (e + 1) 1) + h * (2 * U e 2 + 4 * U (e + 1) 2))

/-- Transverse inertia forces and moments at the ends of a beam. -/
structure InertiaEnds (m : Member K) (e : ℕ) (h γ : K) (U : ℕ → ℕ → K) : Prop where
  f01 : m.force 3 U 0 1 = γ * h / 420 * (156 * U e 1 + 22 * h * U e 2 + 54 * U (e + 1) 1 - 13 * h * U (e + 1) 2)
  f02 : m.force 3 U 0 2 = γ * h ^ 2 / 420 * (22 * U e 1 + 4 * h * U e 2 + 13 * U (e + 1) 1 - 3 * h * U (e + 1) 2)
  f11 : m.force 3 U 1 1 = γ * h / 420 * (54 * U e 1 + 13 * h * U e 2 + 156 * U (e + 1) 1 - 22 * h * U (e + 1) 2)
  f12 : m.force 3 U 1 2 = γ * h ^ 2 / 420 * (-13 * U e 1 - 3 * h * U e 2 - 22 * U (e + 1) 1 + 4 * h * U (e + 1) 2)

theorem beam_endForces {x y : K} {e : ℕ} (hs : SqrtFn sq) (hb : IsBeam mats nodes el e (e + 1) (ends x y h e) h EI EA γ ν)
    (hm : IsMember (Routine sq) mats nodes el m) : m.nodes = [e, e + 1] ∧ ∀ U, BeamEnds m e h EI U := by
  obtain ⟨ty, mi, params, rows, f, kl, ml, a1, a2, ⟨q, a3, a4⟩, a5, a6, a7, a8, a9⟩ := hm
  obtain ⟨mi', q', params', c1, c2, c3, c4⟩ := hb.material
  rw [c1, Option.some.injEq] at a2
  subst a2
  obtain rfl := resolves_unique c2 a3
  rw [c3, Option.some.injEq] at a4
  subst a4
  obtain ⟨hn, hX⟩ := IsBeam.rows hb a5 a6
  rw [hX] at a8
  have hne := hb.length.1.ne'
  have hx : ((ends x y h e) 1 0 - (ends x y h e) 0 0) / h = 1 := by
    simp [ends]
    field_simp
    ring
  have hy : ((ends x y h e) 1 1 - (ends x y h e) 0 1) / h = 0 := by simp [ends]
  refine ⟨hn, fun U => ?_⟩
  rcases c4 with ⟨e7, rfl, -, E, I, hp, rfl⟩ | ⟨e8, -, E, I, A, hp, rfl, rfl⟩
  · rw [e7, Option.some.injEq] at a1
    subst a1
    simp only [Routine, Uel.eleFun, Except.ok.injEq] at a7
    subst a7
    obtain ⟨A', B', d1, d2, -⟩ := (beamU_returns hs hb.length hp).2 ⟨rfl, rfl⟩
    rw [d1, Except.ok.injEq, Prod.mk.injEq] at a8
    obtain ⟨rfl, -⟩ := a8
    rw [hx, hy] at d2
    have F := force_three hn a9 d2 U
    simp only [triple_mulVec, frameU_mulVec, coreU_mulVec, frameU_transpose] at F
    have F01 := F (0, 1)
    have F02 := F (0, 2)
    have F11 := F (1, 1)
    have F12 := F (1, 2)
    simp at F01 F02 F11 F12
    constructor
    · rw [F01]; field_simp
    · rw [F02]; field_simp
    · rw [F11]; field_simp; ring
    · rw [F12]; field_simp
  · rw [e8, Option.some.injEq] at a1
    subst a1
    simp only [Routine, Uel.eleFun, Except.ok.injEq] at a7
    subst a7
    obtain ⟨A', B', d1, d2, -⟩ := (beam_returns hs hb.length hp).2 ⟨rfl, rfl⟩
    rw [d1, Except.ok.injEq, Prod.mk.injEq] at a8
    obtain ⟨rfl, -⟩ := a8
    rw [hx, hy] at d2
    have hI := hp.1
    have F := force_three hn a9 d2 U
    simp only [triple_mulVec, frame_mulVec, core_mulVec, frame_transpose] at F
    have F01 := F (0, 1)
    have F02 := F (0, 2)
    have F11 := F (1, 1)
    have F12 := F (1, 2)
    simp at F01 F02 F11 F12
    constructor
    · rw [F01]; field_simp
    · rw [F02]; field_simp
    · rw [F11]; field_simp; ring
    · rw [F12]; field_simp

theorem beam_endInertia {x y : K} {e : ℕ} (hs : SqrtFn sq) (hb : IsBeam mats nodes el e (e + 1) (ends x y h e) h EI EA γ ν)
    (hm : IsMember (MassRoutine sq) mats nodes el m) : m.nodes = [e, e + 1] ∧ ∀ U, InertiaEnds m e h γ U := by
  obtain ⟨ty, mi, params, rows, f, kl, ml, a1, a2, ⟨q, a3, a4⟩, a5, a6, ⟨f0, a7, rfl⟩, a8, a9⟩ := hm
  have a8 := swapped_ok.1 a8
  obtain ⟨mi', q', params', c1, c2, c3, c4⟩ := hb.material
  rw [c1, Option.some.injEq] at a2
  subst a2
  obtain rfl := resolves_unique c2 a3
  rw [c3, Option.some.injEq] at a4
  subst a4
  obtain ⟨hn, hX⟩ := IsBeam.rows hb a5 a6
  rw [hX] at a8
  have hne := hb.length.1.ne'
  have hx : ((ends x y h e) 1 0 - (ends x y h e) 0 0) / h = 1 := by
    simp [ends]
    field_simp
    ring
  have hy : ((ends x y h e) 1 1 - (ends x y h e) 0 1) / h = 0 := by simp [ends]
  refine ⟨hn, fun U => ?_⟩
  rcases c4 with ⟨e7, -, rfl, E, I, hp, rfl⟩ | ⟨e8, rfl, E, I, A, hp, rfl, rfl⟩
  · rw [e7, Option.some.injEq] at a1
    subst a1
    simp only [Uel.eleFun, Except.ok.injEq] at a7
    subst a7
    obtain ⟨A', B', d1, -, d2⟩ := (beamU_returns hs hb.length hp).2 ⟨rfl, rfl⟩
    rw [d1, Except.ok.injEq, Prod.mk.injEq] at a8
    obtain ⟨-, rfl⟩ := a8
    rw [hx, hy] at d2
    have F := force_three hn a9 d2 U
    simp only [triple_mulVec, frameU_mulVec, massU_mulVec, frameU_transpose] at F
    have F01 := F (0, 1)
    have F02 := F (0, 2)
    have F11 := F (1, 1)
    have F12 := F (1, 2)
    simp at F01 F02 F11 F12
    constructor
    · rw [F01]
    · rw [F02]; ring
    · rw [F11]
    · rw [F12]; ring
  · rw [e8, Option.some.injEq] at a1
    subst a1
    simp only [Uel.eleFun, Except.ok.injEq] at a7
    subst a7
    obtain ⟨A', B', d1, -, d2⟩ := (beam_returns hs hb.length hp).2 ⟨rfl, rfl⟩
    rw [d1, Except.ok.injEq, Prod.mk.injEq] at a8
    obtain ⟨-, rfl⟩ := a8
    rw [hx, hy] at d2
    have F := force_three hn a9 d2 U
    simp only [triple_mulVec, frame_mulVec, mass_mulVec, frame_transpose] at F
    have F01 := F (0, 1)
    have F02 := F (0, 2)
    have F11 := F (1, 1)
    have F12 := F (1, 2)
    simp at F01 F02 F11 F12
    constructor
    · rw [F01]
    · rw [F02]; ring
    · rw [F11]
    · rw [F12]; ring

theorem Spec.SimpleBeam.exists_members (hb : SimpleBeam cons mats nodes elements n h EI γ) (hs : SqrtFn sq) :
    ∃ ms, List.Forall₂ (IsMember (Routine sq) mats nodes) elements ms := by
  have key : ∀ el ∈ elements, ∃ m, IsMember (Routine sq) mats nodes el m := by
    intro el hel
    obtain ⟨e, he, rfl⟩ := List.mem_iff_getElem.1 hel
    obtain ⟨x, y, H⟩ := hb.beam
    obtain ⟨el, EA, ν, h1, h2⟩ := H e (by rw [← hb.number]; exact he)
    rw [List.getElem?_eq_getElem he, Option.some.injEq] at h1
    rw [h1]
    exact h2.exists_member hs
  clear hb
  induction elements with
  | nil => exact ⟨[], .nil⟩
  | cons el els ih =>
    obtain ⟨ms, h1⟩ := ih fun el hel => key el (by simp [hel])
    obtain ⟨m, h2⟩ := key el (by simp)
    exact ⟨m :: ms, .cons h2 h1⟩

theorem Spec.SimpleBeam.springs (hb : SimpleBeam cons mats nodes elements n h EI γ) (hs : SqrtFn sq)
    (hms : List.Forall₂ (IsMember (Routine sq) mats nodes) elements ms) (e : ℕ) (he : e < ms.length) :
    ms[e].nodes = [e, e + 1] ∧ ∀ U, BeamEnds ms[e] e h EI U := by
  obtain ⟨x, y, H⟩ := hb.beam
  have he' : e < elements.length := by rw [hms.length_eq]; exact he
  obtain ⟨el, EA, ν, h1, h2⟩ := H e (by rw [← hb.number]; exact he')
  have hm := hms.get (i := e) he' he
  rw [List.get_eq_getElem, List.get_eq_getElem] at hm
  rw [List.getElem?_eq_getElem he', Option.some.injEq] at h1
  rw [h1] at hm
  exact beam_endForces hs h2 hm

theorem Spec.SimpleBeam.inertias (hb : SimpleBeam cons mats nodes elements n h EI γ) (hs : SqrtFn sq)
    (hms : List.Forall₂ (IsMember (MassRoutine sq) mats nodes) elements ms) (e : ℕ) (he : e < ms.length) :
    ms[e].nodes = [e, e + 1] ∧ ∀ U, InertiaEnds ms[e] e h γ U := by
  obtain ⟨x, y, H⟩ := hb.beam
  have he' : e < elements.length := by rw [hms.length_eq]; exact he
  obtain ⟨el, EA, ν, h1, h2⟩ := H e (by rw [← hb.number]; exact he')
  have hm := hms.get (i := e) he' he
  rw [List.get_eq_getElem, List.get_eq_getElem] at hm
  rw [List.getElem?_eq_getElem he', Option.some.injEq] at h1
  rw [h1] at hm
  exact beam_endInertia hs h2 hm

/-- Force at the first node of a line of two-node elements. -/
theorem line_internal_first (hlen : ms.length = n) (hn : ∀ e (he : e < ms.length), ms[e].nodes = [e, e + 1]) (nd : ℕ) (U : ℕ → ℕ → K)
    (j : ℕ) (h0 : 0 < n) : internal nd ms U 0 j = (ms[0]'(by omega)).force nd U 0 j := by
  subst hlen
  unfold internal
  rw [← sum_range_list ms ⟨[], fun _ _ => 0⟩]
  have e1 : ∀ e ∈ Finset.range ms.length, (∑ a ∈ Finset.range (ms.getD e ⟨[], fun _ _ => 0⟩).nodes.length,
      if (ms.getD e ⟨[], fun _ _ => 0⟩).nodes[a]? = some 0 then (ms.getD e ⟨[], fun _ _ => 0⟩).force nd U a j else 0) =
        if e = 0 then (ms.getD e ⟨[], fun _ _ => 0⟩).force nd U 0 j else 0 := by
    intro e he
    have he : e < ms.length := Finset.mem_range.1 he
    have hg : ms.getD e ⟨[], fun _ _ => 0⟩ = ms[e] := by
      rw [List.getD_eq_getElem?_getD, List.getElem?_eq_getElem he, Option.getD_some]
    rw [hg, hn e he]
    simp only [List.length_cons, List.length_nil, Finset.sum_range_succ, Finset.sum_range_zero, List.getElem?_cons_zero,
      List.getElem?_cons_succ, Option.some.injEq, zero_add]
    rw [if_neg (show ¬ e + 1 = 0 by omega), add_zero]
  rw [Finset.sum_congr rfl e1, Finset.sum_ite_eq', if_pos (by rw [Finset.mem_range]; omega), List.getD_eq_getElem?_getD,
    List.getElem?_eq_getElem h0, Option.getD_some]

/-- Elastic forces across the line and moments at the nodes. -/
theorem Spec.SimpleBeam.elastic (hb : SimpleBeam cons mats nodes elements n h EI γ) (hs : SqrtFn sq) (hn : 0 < n)
    (hms : List.Forall₂ (IsMember (Routine sq) mats nodes) elements ms) (U : ℕ → ℕ → K) :
    (∀ p, 0 < p → p < n → internal 3 ms U p 1 =
      EI / h ^ 3 * (24 * U p 1 - 12 * U (p - 1) 1 - 12 * U (p + 1) 1 + 6 * h * (U (p + 1) 2 - U (p - 1) 2)) ∧
      internal 3 ms U p 2 =
      EI / h ^ 2 * (6 * (U (p - 1) 1 - U (p + 1) 1) + h * (2 * U (p - 1) 2 + 8 * U p 2 + 2 * U (p + 1) 2))) ∧
    internal 3 ms U 0 2 = EI / h ^ 2 * (6 * (U 0 1 - U 1 1) + h * (4 * U 0 2 + 2 * U 1 2)) ∧
    internal 3 ms U n 2 = EI / h ^ 2 * (6 * (U (n - 1) 1 - U n 1) + h * (2 * U (n - 1) 2 + 4 * U n 2)) := by
  have hlen : ms.length = n := by rw [← hms.length_eq, hb.number]
  have hf := hb.springs hs hms
  have hnodes := fun e he => (hf e he).1
  refine ⟨fun p hp0 hp1 => ⟨?_, ?_⟩, ?_, ?_⟩
  · rw [line_internal hlen hnodes 3 U hp0 hp1, ((hf (p - 1) (by omega)).2 U).f11, ((hf p (by omega)).2 U).f01,
      Nat.sub_add_cancel hp0]
    ring
  · rw [line_internal hlen hnodes 3 U hp0 hp1, ((hf (p - 1) (by omega)).2 U).f12, ((hf p (by omega)).2 U).f02,
      Nat.sub_add_cancel hp0]
    ring
  · rw [line_internal_first hlen hnodes 3 U 2 hn, ((hf 0 (by omega)).2 U).f02, zero_add]
  · rw [line_internal_last hlen hnodes 3 U 2 hn, ((hf (n - 1) (by omega)).2 U).f12, Nat.sub_add_cancel hn]

/-- Inertia forces across the line and moments at the nodes. -/
theorem Spec.SimpleBeam.inertial (hb : SimpleBeam cons mats nodes elements n h EI γ) (hs : SqrtFn sq) (hn : 0 < n)
    (hms : List.Forall₂ (IsMember (MassRoutine sq) mats nodes) elements ms) (U : ℕ → ℕ → K) :
    (∀ p, 0 < p → p < n → internal 3 ms U p 1 =
      γ * h / 420 * (54 * U (p - 1) 1 + 312 * U p 1 + 54 * U (p + 1) 1 + 13 * h * (U (p - 1) 2 - U (p + 1) 2)) ∧
      internal 3 ms U p 2 =
      γ * h ^ 2 / 420 * (13 * (U (p + 1) 1 - U (p - 1) 1) + h * (8 * U p 2 - 3 * U (p - 1) 2 - 3 * U (p + 1) 2))) ∧
    internal 3 ms U 0 2 = γ * h ^ 2 / 420 * (22 * U 0 1 + 4 * h * U 0 2 + 13 * U 1 1 - 3 * h * U 1 2) ∧
    internal 3 ms U n 2 = γ * h ^ 2 / 420 * (-13 * U (n - 1) 1 - 3 * h * U (n - 1) 2 - 22 * U n 1 + 4 * h * U n 2) := by
  have hlen : ms.length = n := by rw [← hms.length_eq, hb.number]
  have hf := hb.inertias hs hms
  have hnodes := fun e he => (hf e he).1
  refine ⟨fun p hp0 hp1 => ⟨?_, ?_⟩, ?_, ?_⟩
  · rw [line_internal hlen hnodes 3 U hp0 hp1, ((hf (p - 1) (by omega)).2 U).f11, ((hf p (by omega)).2 U).f01,
      Nat.sub_add_cancel hp0]
    ring
  · rw [line_internal hlen hnodes 3 U hp0 hp1, ((hf (p - 1) (by omega)).2 U).f12, ((hf p (by omega)).2 U).f02,
      Nat.sub_add_cancel hp0]
    ring
  · rw [line_internal_first hlen hnodes 3 U 2 hn, ((hf 0 (by omega)).2 U).f02, zero_add]
  · rw [line_internal_last hlen hnodes 3 U 2 hn, ((hf (n - 1) (by omega)).2 U).f12, Nat.sub_add_cancel hn]

theorem Spec.SimpleBeam.long (hb : SimpleBeam cons mats nodes elements n h EI γ) (hn : 0 < n) : 0 < h := by
  obtain ⟨x, y, H⟩ := hb.beam
  obtain ⟨el, EA, ν, -, h2⟩ := H 0 hn
  exact h2.length.1

variable {bc : List (List ℤ)} {neq : ℕ} {Kg Mg : Matrix (Fin neq) (Fin neq) K} {ks : List (Member K)}

/-- Every equation belongs to a transverse displacement of an inner node or a rotation. -/
theorem free_owner (heq : eqcounter cons 3 = .ok (neq, bc)) (i : Fin neq) :
    ∃ p j, Free cons 3 p j ∧ DofEq bc neq p j i := by
  obtain ⟨p, j, hf, hr⟩ := exists_free heq i.2
  have he : entry bc p j = some (i : ℤ) := by rw [(free_entry heq hf).1, hr]
  exact ⟨p, j, hf, i, he, by omega, i.2, Or.inl rfl⟩

theorem Spec.SimpleBeam.size_le (hb : SimpleBeam cons mats nodes elements n h EI γ) (heq : eqcounter cons 3 = .ok (neq, bc))
    (hn : 0 < n) : neq ≤ 2 * n := by
  choose P J h3 h4 using free_owner heq
  have key : ∀ i, (J i = 1 ∧ 0 < P i ∧ P i < n) ∨ (J i = 2 ∧ P i ≤ n) := fun i => hb.free_iff.1 (h3 i)
  have := Fintype.card_le_of_injective (fun i : Fin neq => (⟨if J i = 1 then P i - 1 else n - 1 + P i, by
      have := key i
      split_ifs <;> omega⟩ : Fin (2 * n))) (by
    intro i i' hii
    have h6 := h4 i'
    have hp : P i = P i' ∧ J i = J i' := by
      have h7 : (if J i = 1 then P i - 1 else n - 1 + P i) = if J i' = 1 then P i' - 1 else n - 1 + P i' := congrArg Fin.val hii
      have := key i
      have := key i'
      split_ifs at h7 <;> omega
    rw [← hp.1, ← hp.2] at h6
    exact Fin.ext (dofEq_unique (h4 i) h6))
  simpa using this

/-- The nodal values of a motion of the beam vanish where it is held. -/
theorem Spec.SimpleBeam.held (hb : SimpleBeam cons mats nodes elements n h EI γ) (heq : eqcounter cons 3 = .ok (neq, bc))
    {v : Fin neq → K} {V : ℕ → ℕ → K} (hV : Completes cons bc 3 neq v V) : V 0 1 = 0 ∧ V n 1 = 0 ∧ ∀ p ≤ n, V p 0 = 0 := by
  have key : ∀ p ≤ n, ∀ j < 3, ¬ Free cons 3 p j → V p j = 0 := by
    intro p hp j hj hnf
    have hp' : p < cons.length := by rw [hb.rows]; omega
    rcases free_or_fixed heq hb.frame.codes hp' hj with ⟨hf, -⟩ | ⟨-, -, hno⟩
    · exact absurd hf hnf
    · exact (hV p hp' j hj).2 hno
  refine ⟨key 0 (by omega) 1 (by omega) ?_, key n le_rfl 1 (by omega) ?_, fun p hp => key p hp 0 (by omega) ?_⟩ <;>
    rw [hb.free_iff] <;> omega

/-- The masses resist every motion. -/
theorem Spec.SimpleBeam.mass_pos (hb : SimpleBeam cons mats nodes elements n h EI γ) (hs : SqrtFn sq) (hn : 0 < n) (hγ : 0 < γ)
    (s : Setup (MassRoutine sq) cons elements mats nodes 3 neq bc Mg ms) {v : Fin neq → K} (hv : v ≠ 0) :
    0 < ∑ i, v i * Mg.mulVec v i := by
  obtain ⟨V, hV⟩ := exists_completes (cons := cons) bc 3 v
  have hlen : ms.length = n := by rw [← s.mem.length_eq, hb.number]
  have hf := hb.inertias hs s.mem
  have hh := hb.long hn
  obtain ⟨-, -, z⟩ := hb.held s.eq hV
  have hform : ∀ e (he : e < ms.length), ms[e].form 3 V V = γ * h / 420 *
      (105 * (V e 1 + V (e + 1) 1 + h * (V e 2 - V (e + 1) 2) / 6) ^ 2 + 7 / 12 * (h * (V e 2 - V (e + 1) 2)) ^ 2 +
        1 / 2 * (h * (V e 2 + V (e + 1) 2) + 9 * (V e 1 - V (e + 1) 1)) ^ 2 + 21 / 2 * (V e 1 - V (e + 1) 1) ^ 2) := by
    intro e he
    obtain ⟨h1, h2⟩ := hf e he
    have h2 := h2 V
    unfold Member.form
    rw [h1]
    simp [Finset.sum_range_succ, h2.f01, h2.f02, h2.f11, h2.f12, z e (by omega), z (e + 1) (by omega)]
    ring
  have hc : 0 < γ * h / 420 := by positivity
  have hnn : ∀ m ∈ ms, 0 ≤ m.form 3 V V := by
    intro m hm
    obtain ⟨e, he, rfl⟩ := List.mem_iff_getElem.1 hm
    rw [hform e he]
    positivity
  rw [reduced_form s hV hV]
  refine lt_of_le_of_ne (List.sum_nonneg (by simpa using hnn)) fun h0 => hv ?_
  have hz := (sum_pos_zero hnn).1 h0.symm
  have hzero : ∀ e < n, V e 1 = 0 ∧ V e 2 = 0 ∧ V (e + 1) 1 = 0 ∧ V (e + 1) 2 = 0 := by
    intro e he
    have h3 := hz _ (List.getElem_mem (by omega : e < ms.length))
    rw [hform e (by omega)] at h3
    have h4 := (mul_eq_zero.1 h3).resolve_left hc.ne'
    have q1 := sq_nonneg (V e 1 + V (e + 1) 1 + h * (V e 2 - V (e + 1) 2) / 6)
    have q2 := sq_nonneg (h * (V e 2 - V (e + 1) 2))
    have q3 := sq_nonneg (h * (V e 2 + V (e + 1) 2) + 9 * (V e 1 - V (e + 1) 1))
    have q4 := sq_nonneg (V e 1 - V (e + 1) 1)
    have r1 := pow_eq_zero_iff (two_ne_zero) |>.1 (by linarith : (V e 1 + V (e + 1) 1 + h * (V e 2 - V (e + 1) 2) / 6) ^ 2 = 0)
    have r2 := pow_eq_zero_iff (two_ne_zero) |>.1 (by linarith : (h * (V e 2 - V (e + 1) 2)) ^ 2 = 0)
    have r3 := pow_eq_zero_iff (two_ne_zero) |>.1 (by linarith : (h * (V e 2 + V (e + 1) 2) + 9 * (V e 1 - V (e + 1) 1)) ^ 2 = 0)
    have r4 := pow_eq_zero_iff (two_ne_zero) |>.1 (by linarith : (V e 1 - V (e + 1) 1) ^ 2 = 0)
    rw [r2] at r1
    rw [r4] at r3
    have r5 := (mul_eq_zero.1 r2).resolve_left hh.ne'
    have r6 := (mul_eq_zero.1 (by linarith : h * (V e 2 + V (e + 1) 2) = 0)).resolve_left hh.ne'
    refine ⟨?_, ?_, ?_, ?_⟩ <;> linarith
  have hall : ∀ p ≤ n, V p 1 = 0 ∧ V p 2 = 0 := by
    intro p hp
    rcases Nat.lt_or_ge p n with h4 | h4
    · exact ⟨(hzero p h4).1, (hzero p h4).2.1⟩
    · obtain rfl : p = n := by omega
      have := hzero (p - 1) (by omega)
      rw [Nat.sub_add_cancel hn] at this
      exact ⟨this.2.2.1, this.2.2.2⟩
  funext i
  obtain ⟨p, j, hfr, hi⟩ := free_owner s.eq i
  have hp : p ≤ n := by
    rcases hb.free_iff.1 hfr with ⟨-, -, h⟩ | ⟨-, h⟩ <;> omega
  rw [← (hV p (by rw [hb.rows]; omega) j hfr.1).1 i hi]
  rcases hb.free_iff.1 hfr with ⟨rfl, -⟩ | ⟨rfl, -⟩
  · exact (hall p hp).1
  · exact (hall p hp).2

end
/-! ## Frequencies -/

/-- Squares of the frequencies of a simply supported beam of `n` elements of length `h`: the lower and the upper branch. -/
noncomputable def Spec.lowFreq (n k : ℕ) (h EI γ : ℝ) : ℝ := 420 * EI / (γ * h ^ 4) * bendLow (Real.cos (k * Real.pi / n))

noncomputable def Spec.highFreq (n k : ℕ) (h EI γ : ℝ) : ℝ := 420 * EI / (γ * h ^ 4) * bendHigh (Real.cos (k * Real.pi / n))

/-- Deflections and rotations of a sine-shaped motion. -/
noncomputable def Spec.sineShape (θ h a b : ℝ) (p j : ℕ) : ℝ :=
  if j = 1 then a * Real.sin (θ * p) else if j = 2 then b * Real.cos (θ * p) / h else 0

section
variable {sq : ℝ → ℝ} {cons mats nodes : Table ℝ} {elements : List (List ℤ)} {n : ℕ} {h EI γ : ℝ} {op bc : List (List ℤ)} {neq : ℕ}
  {Kg Mg : Matrix (Fin neq) (Fin neq) ℝ} {ks ms : List (Member ℝ)}

/-- A sine whose amplitudes satisfy the two equations of the line is a mode. -/
theorem sine_mode (hb : SimpleBeam cons mats nodes elements n h EI γ) (hs : SqrtFn sq) (hn : 0 < n) (hγ : 0 < γ)
    (s : Setup (Routine sq) cons elements mats nodes 3 neq bc Kg ks) (s' : Setup (MassRoutine sq) cons elements mats nodes 3 neq bc Mg ms)
    {θ a b t : ℝ} (hθ : Real.sin (θ * n) = 0)
    (R1 : 24 * (1 - Real.cos θ) * a - 12 * Real.sin θ * b = t * ((312 + 108 * Real.cos θ) * a + 26 * Real.sin θ * b))
    (R2 : -12 * Real.sin θ * a + (8 + 4 * Real.cos θ) * b = t * (26 * Real.sin θ * a + (8 - 6 * Real.cos θ) * b)) :
    ∃ v : Fin neq → ℝ, Completes cons bc 3 neq v (sineShape θ h a b) ∧ Kg.mulVec v = (420 * EI / (γ * h ^ 4) * t) • Mg.mulVec v := by
  have hh := hb.long hn
  have hA : Admissible cons 3 (sineShape θ h a b) := by
    intro p j hp hj hnf
    rw [hb.free_iff] at hnf
    rw [hb.rows] at hp
    unfold sineShape
    rcases (by omega : j = 0 ∨ j = 1 ∨ j = 2) with rfl | rfl | rfl
    · simp
    · rcases (by omega : p = 0 ∨ p = n) with rfl | rfl
      · simp
      · simp [hθ]
    · omega
  obtain ⟨v, hv⟩ := exists_reduced s.eq hb.frame.codes hA
  refine ⟨v, hv, ?_⟩
  obtain ⟨k1, k2, k3⟩ := hb.elastic hs hn s.mem (sineShape θ h a b)
  obtain ⟨m1, m2, m3⟩ := hb.inertial hs hn s'.mem (sineShape θ h a b)
  have V1 : ∀ p, sineShape θ h a b p 1 = a * Real.sin (θ * p) := fun p => by simp [sineShape]
  have V2 : ∀ p, sineShape θ h a b p 2 = b * Real.cos (θ * p) / h := fun p => by simp [sineShape]
  have next : ∀ p : ℕ, Real.sin (θ * ((p + 1 : ℕ) : ℝ)) = Real.sin (θ * p) * Real.cos θ + Real.cos (θ * p) * Real.sin θ ∧
      Real.cos (θ * ((p + 1 : ℕ) : ℝ)) = Real.cos (θ * p) * Real.cos θ - Real.sin (θ * p) * Real.sin θ := by
    intro p
    rw [← Real.sin_add, ← Real.cos_add, show θ * ((p + 1 : ℕ) : ℝ) = θ * p + θ by push_cast; ring]
    exact ⟨rfl, rfl⟩
  have prev : ∀ p : ℕ, 0 < p → Real.sin (θ * ((p - 1 : ℕ) : ℝ)) = Real.sin (θ * p) * Real.cos θ - Real.cos (θ * p) * Real.sin θ ∧
      Real.cos (θ * ((p - 1 : ℕ) : ℝ)) = Real.cos (θ * p) * Real.cos θ + Real.sin (θ * p) * Real.sin θ := by
    intro p hp
    rw [← Real.sin_sub, ← Real.cos_sub, Nat.cast_sub hp, show θ * ((p : ℝ) - (1 : ℕ)) = θ * p - θ by push_cast; ring]
    exact ⟨rfl, rfl⟩
  have unit1 : ∀ z, 420 * EI / (γ * h ^ 4) * t * (γ * h / 420 * z) = EI / h ^ 3 * (t * z) := by
    intro z
    field_simp
  have unit2 : ∀ z, 420 * EI / (γ * h ^ 4) * t * (γ * h ^ 2 / 420 * z) = EI / h ^ 2 * (t * z) := by
    intro z
    field_simp
  funext i
  obtain ⟨p, j, hfr, hi⟩ := free_owner s.eq i
  rw [Pi.smul_apply, smul_eq_mul, s.mul v _ hv p j i hfr hi, s'.mul v _ hv p j i hfr hi]
  rcases hb.free_iff.1 hfr with ⟨rfl, h0, h1⟩ | ⟨rfl, h1⟩
  · rw [(k1 p h0 h1).1, (m1 p h0 h1).1, unit1]
    simp only [V1, V2, (next p).1, (next p).2, (prev p h0).1, (prev p h0).2]
    congr 1
    field_simp
    linear_combination Real.sin (θ * p) * R1
  · rcases Nat.eq_zero_or_pos p with rfl | h0
    · rw [k2, m2, unit2]
      simp only [V1, V2, Nat.cast_zero, Nat.cast_one, mul_zero, mul_one, Real.sin_zero, Real.cos_zero]
      congr 1
      field_simp
      linear_combination 1 / 2 * R2
    · rcases h1.lt_or_eq with h1 | rfl
      · rw [(k1 p h0 h1).2, (m1 p h0 h1).2, unit2]
        simp only [V1, V2, (next p).1, (next p).2, (prev p h0).1, (prev p h0).2]
        congr 1
        field_simp
        linear_combination Real.cos (θ * p) * R2
      · rw [k3, m3, unit2]
        simp only [V1, V2, (prev p h0).1, (prev p h0).2, hθ]
        congr 1
        field_simp
        linear_combination 1 / 2 * Real.cos (θ * p) * R2

theorem angle_le {k n : ℕ} (hkn : k ≤ n) (hn : 0 < n) : 0 ≤ k * Real.pi / n ∧ k * Real.pi / n ≤ Real.pi := by
  have hn : (0 : ℝ) < n := by exact_mod_cast hn
  have hp := Real.pi_pos
  have : (k : ℝ) ≤ n := by exact_mod_cast hkn
  refine ⟨by positivity, ?_⟩
  rw [div_le_iff₀ hn, mul_comm]
  nlinarith

theorem cos_angle_lt {k k' n : ℕ} (hk : k < k') (hkn : k' ≤ n) :
    Real.cos (k' * Real.pi / n) < Real.cos (k * Real.pi / n) := by
  have hn : (0 : ℝ) < n := by exact_mod_cast (by omega : 0 < n)
  have h1 := angle_le (k := k) (n := n) (by omega) (by omega)
  have h2 := angle_le hkn (by omega)
  refine Real.strictAntiOn_cos ⟨h1.1, h1.2⟩ ⟨h2.1, h2.2⟩ ?_
  have : (k : ℝ) < k' := by exact_mod_cast hk
  have := Real.pi_pos
  gcongr

/-- C149.  The modes of the beam: sines, two for every wave length, and one more for each extreme phase. -/
theorem C149_modes (hb : SimpleBeam cons mats nodes elements n h EI γ) (hs : SqrtFn sq) (hn : 0 < n) (hγ : 0 < γ)
    (h1 : dme cons elements 3 = .ok (op, bc, neq)) {sparse : Bool}
    (h2 : assembler (Uel.eleFun sq) elements mats nodes neq op sparse = .ok (Kg, Mg)) {k : ℕ} {w : ℝ}
    (hw : (0 < k ∧ k < n ∧ w = lowFreq n k h EI γ) ∨ (k ≤ n ∧ w = highFreq n k h EI γ)) :
    ∃ v : Fin neq → ℝ, v ≠ 0 ∧ (∃ a b, Completes cons bc 3 neq v (sineShape (k * Real.pi / n) h a b)) ∧
      Kg.mulVec v = w • Mg.mulVec v := by
  obtain ⟨ks, s⟩ := frame_setup hb.frame h1 h2
  obtain ⟨ms, s'⟩ := frame_mass_setup hb.frame h1 h2
  have hn' : (n : ℝ) ≠ 0 := by exact_mod_cast hn.ne'
  have hh := hb.long hn
  have hkn : k ≤ n := by rcases hw with ⟨-, h, -⟩ | ⟨h, -⟩ <;> omega
  have c0 := Real.neg_one_le_cos (k * Real.pi / n)
  have c1 := Real.cos_le_one (k * Real.pi / n)
  have hsn : Real.sin (k * Real.pi / n * n) = 0 := by
    rw [div_mul_cancel₀ _ hn']
    exact Real.sin_nat_mul_pi k
  obtain ⟨t, ht, ht0, ht', rfl⟩ : ∃ t, bendQuad (Real.cos (k * Real.pi / n)) t = 0 ∧ 0 ≤ t ∧
      (¬ (0 < k ∧ k < n) → t = bendHigh (Real.cos (k * Real.pi / n))) ∧ w = 420 * EI / (γ * h ^ 4) * t := by
    rcases hw with ⟨h3, h4, rfl⟩ | ⟨-, rfl⟩
    · exact ⟨_, (bend_root c0 c1 _).2 (.inl rfl), bendLow_nonneg c0 c1, fun hno => absurd ⟨h3, h4⟩ hno, rfl⟩
    · exact ⟨_, (bend_root c0 c1 _).2 (.inr rfl), (bendLow_nonneg c0 c1).trans (bend_lt c0 c1).le, fun _ => rfl, rfl⟩
  by_cases hin : 0 < k ∧ k < n
  · obtain ⟨a0, a1⟩ := angle hin.1 hin.2
    have hpos := Real.sin_pos_of_pos_of_lt_pi a0 a1
    have hsc := Real.sin_sq_add_cos_sq (k * Real.pi / n)
    unfold bendQuad at ht
    obtain ⟨v, hv, hK⟩ := sine_mode hb hs hn hγ s s' (t := t) (a := Real.sin (k * Real.pi / n) * (12 + 26 * t))
      (b := 24 * (1 - Real.cos (k * Real.pi / n)) - t * (312 + 108 * Real.cos (k * Real.pi / n))) hsn (by ring) (by
        linear_combination 4 * ht - (12 + 26 * t) ^ 2 * hsc)
    refine ⟨v, ?_, ⟨_, _, hv⟩, hK⟩
    rintro rfl
    rcases free_or_fixed s.eq hb.frame.codes (p := 1) (j := 1) (by rw [hb.rows]; omega) (by omega) with ⟨-, i, hi, -⟩ | ⟨hnf, -⟩
    · have h3 := (hv 1 (by rw [hb.rows]; omega) 1 (by omega)).1 i hi
      have : 0 < Real.sin (k * Real.pi / n) * (12 + 26 * t) * Real.sin (k * Real.pi / n) := by positivity
      simp only [sineShape, if_true, Nat.cast_one, mul_one, Pi.zero_apply] at h3
      linarith
    · exact hnf (hb.free_iff.2 (.inl ⟨rfl, by omega, by omega⟩))
  · have hsin : Real.sin (k * Real.pi / n) = 0 := by
      rcases (by omega : k = 0 ∨ k = n) with rfl | rfl
      · simp
      · rw [mul_div_assoc, mul_div_cancel₀ _ hn', Real.sin_pi]
    have hR : 8 + 4 * Real.cos (k * Real.pi / n) = t * (8 - 6 * Real.cos (k * Real.pi / n)) := by
      have ht' := ht' hin
      rcases (by omega : k = 0 ∨ k = n) with rfl | rfl
      · rw [Nat.cast_zero, zero_mul, zero_div, Real.cos_zero] at ht' ⊢
        rw [ht', bend_at_one.2]
        norm_num
      · have e : (k : ℝ) * Real.pi / k = Real.pi := by field_simp
        rw [e, Real.cos_pi] at ht' ⊢
        rw [ht', bend_at_minus_one.2]
        norm_num
    obtain ⟨v, hv, hK⟩ := sine_mode hb hs hn hγ s s' (t := t) (a := 0) (b := 1) hsn (by rw [hsin]; ring) (by rw [hsin]; linear_combination hR)
    refine ⟨v, ?_, ⟨_, _, hv⟩, hK⟩
    rintro rfl
    rcases free_or_fixed s.eq hb.frame.codes (p := 0) (j := 2) (by rw [hb.rows]; omega) (by omega) with ⟨-, i, hi, -⟩ | ⟨hnf, -⟩
    · have h3 := (hv 0 (by rw [hb.rows]; omega) 2 (by omega)).1 i hi
      simp [sineShape] at h3
      exact hh.ne' h3
    · exact hnf (hb.free_iff.2 (.inr ⟨rfl, by omega⟩))

/-- A pencil with as many distinct eigenvalues as equations has no other modes. -/
theorem pencil_modes (hM : Mg.det ≠ 0) {ι : Type} [Fintype ι] [DecidableEq ι] (hc : neq ≤ Fintype.card ι) {l : ι → ℝ}
    (hl : Function.Injective l) {m : ι → Fin neq → ℝ} (hm0 : ∀ i, m i ≠ 0) (hm : ∀ i, Kg.mulVec (m i) = l i • Mg.mulVec (m i)) {w : ℝ}
    {v : Fin neq → ℝ} (hv : v ≠ 0) (hw : Kg.mulVec v = w • Mg.mulVec v) : ∃ i, ∃ c : ℝ, w = l i ∧ v = c • m i := by
  have hu : IsUnit Mg.det := isUnit_iff_ne_zero.2 hM
  have inv : ∀ {x : Fin neq → ℝ} {c : ℝ}, Kg.mulVec x = c • Mg.mulVec x → (Mg⁻¹ * Kg).mulVecLin x = c • x := by
    intro x c hx
    rw [Matrix.mulVecLin_apply, ← Matrix.mulVec_mulVec, hx, Matrix.mulVec_smul, Matrix.mulVec_mulVec,
      Matrix.nonsing_inv_mul _ hu, Matrix.one_mulVec]
  have hli := Module.End.eigenvectors_linearIndependent' (Mg⁻¹ * Kg).mulVecLin l hl m fun i => by
    rw [Module.End.hasEigenvector_iff, Module.End.mem_eigenspace_iff]
    exact ⟨inv (hm i), hm0 i⟩
  have hcard : Fintype.card ι = Module.finrank ℝ (Fin neq → ℝ) := by
    have := hli.fintype_card_le_finrank
    simp only [Module.finrank_fintype_fun_eq_card, Fintype.card_fin] at this ⊢
    omega
  have hspan := hli.span_eq_top_of_card_eq_finrank' hcard
  have hmem : v ∈ Submodule.span ℝ (Set.range m) := by rw [hspan]; exact Submodule.mem_top
  obtain ⟨c, rfl⟩ := (Submodule.mem_span_range_iff_exists_fun ℝ).1 hmem
  have h3 := inv hw
  simp only [map_sum, map_smul, inv (hm _)] at h3
  have h4 : ∑ i, (c i * (l i - w)) • m i = 0 := by
    rw [Finset.smul_sum, ← sub_eq_zero, ← Finset.sum_sub_distrib] at h3
    rw [← h3]
    refine Finset.sum_congr rfl fun i _ => ?_
    rw [smul_smul, smul_smul, ← sub_smul]
    congr 1
    ring
  have h5 := Fintype.linearIndependent_iff.1 hli _ h4
  obtain ⟨i, hi⟩ : ∃ i, c i ≠ 0 := by
    by_contra hno
    push Not at hno
    exact hv (by simp [hno])
  have hwi : w = l i := by
    have := (mul_eq_zero.1 (h5 i)).resolve_left hi
    linarith
  refine ⟨i, c i, hwi, Finset.sum_eq_single i (fun j _ hj => ?_) (by simp)⟩
  have : c j = 0 := by
    refine (mul_eq_zero.1 (h5 j)).resolve_right fun h0 => hj (hl ?_)
    linarith
  rw [this, zero_smul]

theorem unit_pos (hh : 0 < h) (hEI : 0 < EI) (hγ : 0 < γ) : 0 < 420 * EI / (γ * h ^ 4) := by positivity

/-- C149.  The frequencies, in order: the lower branch grows with the number of the mode, the upper branch falls, and every lower
one is below every upper one. -/
theorem C149_order (hh : 0 < h) (hEI : 0 < EI) (hγ : 0 < γ) {k k' : ℕ} (hk' : k' ≤ n) :
    (k < k' → lowFreq n k h EI γ < lowFreq n k' h EI γ ∧ highFreq n k' h EI γ < highFreq n k h EI γ) ∧
    lowFreq n k h EI γ < highFreq n k' h EI γ ∧ lowFreq n 0 h EI γ = 0 := by
  have hu := unit_pos hh hEI hγ
  have c0 : ∀ k : ℕ, -1 ≤ Real.cos (k * Real.pi / n) := fun k => Real.neg_one_le_cos _
  have c1 : ∀ k : ℕ, Real.cos (k * Real.pi / n) ≤ 1 := fun k => Real.cos_le_one _
  refine ⟨fun hlt => ?_, ?_, ?_⟩
  · have := bend_mono (c0 k') (cos_angle_lt hlt hk') (c1 k)
    exact ⟨mul_lt_mul_of_pos_left this.1 hu, mul_lt_mul_of_pos_left this.2 hu⟩
  · refine mul_lt_mul_of_pos_left ?_ hu
    have h1 := (bend_gap (c0 k) (c1 k)).1
    have h2 := (bend_gap (c0 k') (c1 k')).2
    norm_num at h1 h2
    linarith
  · unfold lowFreq
    rw [Nat.cast_zero, zero_mul, zero_div, Real.cos_zero, bend_at_one.1, mul_zero]

theorem Spec.SimpleBeam.mass_det (hb : SimpleBeam cons mats nodes elements n h EI γ) (hs : SqrtFn sq) (hn : 0 < n) (hγ : 0 < γ)
    (s : Setup (MassRoutine sq) cons elements mats nodes 3 neq bc Mg ms) : Mg.det ≠ 0 := by
  intro h0
  obtain ⟨u, hu, hu0⟩ := Matrix.exists_mulVec_eq_zero_iff.2 h0
  have := hb.mass_pos hs hn hγ s hu
  rw [hu0] at this
  simp at this

/-- C149.  The beam has no other modes: whatever vibrates freely is one of the sines, at its frequency. -/
theorem C149_shapes (hb : SimpleBeam cons mats nodes elements n h EI γ) (hs : SqrtFn sq) (hn : 0 < n) (hEI : 0 < EI) (hγ : 0 < γ)
    (h1 : dme cons elements 3 = .ok (op, bc, neq)) {sparse : Bool}
    (h2 : assembler (Uel.eleFun sq) elements mats nodes neq op sparse = .ok (Kg, Mg)) {w : ℝ} {v : Fin neq → ℝ} (hv : v ≠ 0)
    (hw : Kg.mulVec v = w • Mg.mulVec v) :
    ∃ k, ((0 < k ∧ k < n ∧ w = lowFreq n k h EI γ) ∨ (k ≤ n ∧ w = highFreq n k h EI γ)) ∧
      ∃ a b, Completes cons bc 3 neq v (sineShape (k * Real.pi / n) h a b) := by
  obtain ⟨ms, s'⟩ := frame_mass_setup hb.frame h1 h2
  have hh := hb.long hn
  choose! mL l1 l2 l3 using fun k (hk : 0 < k ∧ k < n) =>
    C149_modes hb hs hn hγ h1 h2 (k := k) (.inl ⟨hk.1, hk.2, rfl⟩)
  choose! mH u1 u2 u3 using fun k (hk : k ≤ n) => C149_modes hb hs hn hγ h1 h2 (k := k) (.inr ⟨hk, rfl⟩)
  have hcard : neq ≤ Fintype.card (Fin (n + 1) ⊕ Fin (n - 1)) := by
    have := hb.size_le (dme_ok.1 h1).1 hn
    simp only [Fintype.card_sum, Fintype.card_fin]
    omega
  have hlow : ∀ i : Fin (n - 1), 0 < (i : ℕ) + 1 ∧ (i : ℕ) + 1 < n := fun i => by omega
  have scale : ∀ {c : ℝ} {m : Fin neq → ℝ} {θ : ℝ}, (∃ a b, Completes cons bc 3 neq m (sineShape θ h a b)) →
      ∃ a b, Completes cons bc 3 neq (c • m) (sineShape θ h a b) := by
    rintro c m θ ⟨a, b, hm⟩
    have e : ∀ p j, sineShape θ h (c * a) (c * b) p j = c * sineShape θ h a b p j := by
      intro p j
      unfold sineShape
      split_ifs <;> ring
    refine ⟨c * a, c * b, fun p hp j hj => ⟨fun i hi => ?_, fun hno => ?_⟩⟩
    · rw [e, (hm p hp j hj).1 i hi]
      rfl
    · rw [e, (hm p hp j hj).2 hno, mul_zero]
  obtain ⟨i, c, hi, rfl⟩ := pencil_modes (hb.mass_det hs hn hγ s') hcard
    (l := Sum.elim (fun i : Fin (n + 1) => highFreq n i h EI γ) (fun i : Fin (n - 1) => lowFreq n (i + 1) h EI γ)) (by
      rintro (i | i) (j | j) hij
      · simp only [Sum.elim_inl] at hij
        rcases lt_trichotomy (i : ℕ) j with hlt | he | hlt
        · exact absurd hij ((C149_order hh hEI hγ (by omega)).1 hlt).2.ne'
        · rw [Fin.ext he]
        · exact absurd hij ((C149_order hh hEI hγ (by omega)).1 hlt).2.ne
      · simp only [Sum.elim_inl, Sum.elim_inr] at hij
        exact absurd hij (C149_order hh hEI hγ (by omega)).2.1.ne'
      · simp only [Sum.elim_inl, Sum.elim_inr] at hij
        exact absurd hij (C149_order hh hEI hγ (by omega)).2.1.ne
      · simp only [Sum.elim_inr] at hij
        rcases lt_trichotomy (i : ℕ) j with hlt | he | hlt
        · exact absurd hij ((C149_order (n := n) hh hEI hγ (by omega)).1 (show (i : ℕ) + 1 < j + 1 by omega)).1.ne
        · rw [Fin.ext he]
        · exact absurd hij ((C149_order (n := n) hh hEI hγ (by omega)).1 (show (j : ℕ) + 1 < i + 1 by omega)).1.ne')
    (m := Sum.elim (fun i : Fin (n + 1) => mH i) (fun i : Fin (n - 1) => mL (i + 1))) (by
      rintro (i | i)
      · exact u1 i (by omega)
      · exact l1 _ (hlow i)) (by
      rintro (i | i)
      · exact u3 i (by omega)
      · exact l3 _ (hlow i)) hv hw
  rcases i with i | i
  · exact ⟨i, .inr ⟨by omega, hi⟩, scale (u2 i (by omega))⟩
  · exact ⟨i + 1, .inl ⟨by omega, by omega, hi⟩, scale (l2 _ (hlow i))⟩

/-- C149.  The frequencies of the beam are these and no others. -/
theorem C149_frequencies (hb : SimpleBeam cons mats nodes elements n h EI γ) (hs : SqrtFn sq) (hn : 0 < n) (hEI : 0 < EI) (hγ : 0 < γ)
    (h1 : dme cons elements 3 = .ok (op, bc, neq)) {sparse : Bool}
    (h2 : assembler (Uel.eleFun sq) elements mats nodes neq op sparse = .ok (Kg, Mg)) (w : ℝ) :
    (∃ v : Fin neq → ℝ, v ≠ 0 ∧ Kg.mulVec v = w • Mg.mulVec v) ↔
      (∃ k, 0 < k ∧ k < n ∧ w = lowFreq n k h EI γ) ∨ ∃ k ≤ n, w = highFreq n k h EI γ := by
  constructor
  · rintro ⟨v, hv, hw⟩
    obtain ⟨k, h | h, -⟩ := C149_shapes hb hs hn hEI hγ h1 h2 hv hw
    · exact .inl ⟨k, h⟩
    · exact .inr ⟨k, h⟩
  · rintro (⟨k, h⟩ | ⟨k, h⟩)
    · obtain ⟨v, hv, -, hw⟩ := C149_modes hb hs hn hγ h1 h2 (.inl h)
      exact ⟨v, hv, hw⟩
    · obtain ⟨v, hv, -, hw⟩ := C149_modes hb hs hn hγ h1 h2 (.inr h)
      exact ⟨v, hv, hw⟩

/-- C149.  The lower branch approximates the frequencies of the continuous beam of length `L` from above, with a relative error of at
most `(kπ/n)⁴ / 720`. -/
theorem C149_bounds {L : ℝ} (hL : n * h = L) (hh : 0 < h) (hEI : 0 < EI) (hγ : 0 < γ) (hn : 0 < n) {k : ℕ} (hkn : k ≤ n) :
    EI / γ * (k * Real.pi / L) ^ 4 ≤ lowFreq n k h EI γ ∧
    lowFreq n k h EI γ ≤ EI / γ * (k * Real.pi / L) ^ 4 * (1 + (k * Real.pi / n) ^ 4 / 720) := by
  have hn' : (n : ℝ) ≠ 0 := by exact_mod_cast hn.ne'
  obtain ⟨a0, a1⟩ := angle_le hkn hn
  obtain ⟨b0, b1⟩ := bendLow_bounds a0 a1
  have hu := unit_pos hh hEI hγ
  have e : EI / γ * (k * Real.pi / L) ^ 4 = 420 * EI / (γ * h ^ 4) * ((k * Real.pi / n) ^ 4 / 420) := by
    rw [← hL]
    field_simp
  rw [e, mul_assoc]
  exact ⟨mul_le_mul_of_nonneg_left b0 hu.le, mul_le_mul_of_nonneg_left b1 hu.le⟩

/-- C149.  With ever more elements the `k`-th frequency of the lower branch tends to that of the continuous beam. -/
theorem C149_converges {L : ℝ} (hL : 0 < L) (hEI : 0 < EI) (hγ : 0 < γ) (k : ℕ) :
    Filter.Tendsto (fun n : ℕ => lowFreq n k (L / n) EI γ) Filter.atTop (nhds (EI / γ * (k * Real.pi / L) ^ 4)) := by
  have hx : Filter.Tendsto (fun n : ℕ => EI / γ * (k * Real.pi / L) ^ 4 * (1 + (k * Real.pi / n) ^ 4 / 720)) Filter.atTop
      (nhds (EI / γ * (k * Real.pi / L) ^ 4)) := by
    have h0 : Filter.Tendsto (fun n : ℕ => k * Real.pi / n) Filter.atTop (nhds 0) := tendsto_const_div_atTop_nhds_zero_nat _
    have := (((h0.pow 4).div_const 720).const_add 1).const_mul (EI / γ * (k * Real.pi / L) ^ 4)
    simpa using this
  refine tendsto_of_tendsto_of_tendsto_of_le_of_le' tendsto_const_nhds hx ?_ ?_
  all_goals
    filter_upwards [Filter.eventually_gt_atTop 0, Filter.eventually_ge_atTop k] with n hn hk
    have hn' : (0 : ℝ) < n := by exact_mod_cast hn
    have := C149_bounds (n := n) (h := L / n) (L := L) (by field_simp) (by positivity) hEI hγ hn hk
  · exact this.1
  · exact this.2

/-- C149.  The matrices are formed, sparse or dense, with two equations per element. -/
theorem C149_assembled (hb : SimpleBeam cons mats nodes elements n h EI γ) (hs : SqrtFn sq) (hn : 0 < n) (sparse : Bool) :
    ∃ op bc Kg Mg, dme cons elements 3 = .ok (op, bc, 2 * n) ∧
      assembler (Uel.eleFun sq) elements mats nodes (2 * n) op sparse = .ok (Kg, Mg) := by
  obtain ⟨ms, hms⟩ := hb.exists_members hs
  obtain ⟨op, bc, neq, Kg, Mg, h1, h2⟩ := C117_assembled hb.frame hms sparse
  have heq := (dme_ok.1 h1).1
  have hge : 2 * n ≤ neq := by
    have hfr : ∀ i < 2 * n, Free cons 3 (if i ≤ n then i else i - n) (if i ≤ n then 2 else 1) := by
      intro i hi
      rw [hb.free_iff]
      split_ifs <;> omega
    have := Fintype.card_le_of_injective (fun i : Fin (2 * n) =>
        (⟨Assem.rank cons 3 (if (i : ℕ) ≤ n then i else i - n) (if (i : ℕ) ≤ n then 2 else 1), (free_entry heq (hfr i i.2)).2⟩ : Fin neq)) (by
      intro i j hij
      have h3 := rank_inj (hfr i i.2) (hfr j j.2) (congrArg Fin.val hij)
      refine Fin.ext ?_
      split_ifs at h3 <;> omega)
    simpa using this
  have := hb.size_le heq hn
  obtain rfl : neq = 2 * n := by omega
  exact ⟨op, bc, Kg, Mg, h1, h2⟩

/-- A simply supported beam of `n` elements of unit stiffness and mass: the beam of `tests/test_integration.py`, lines 155-177, on
two supports. -/
noncomputable def supportedBeam (n : ℕ) (h : ℝ) : Table ℝ × List (List ℤ) × Table ℝ × Table ℝ :=
  ((List.range (n + 1)).map fun p => [-1, if p = 0 ∨ p = n then -1 else 0, 0],
    (List.range n).map fun e : ℕ => [(e : ℤ), 7, 0, e, e + 1], [[1, 1, 1, 1]],
    (List.range (n + 1)).map fun p : ℕ => [(p : ℝ), p * h, 0])

theorem supportedBeam_simple (n : ℕ) {h : ℝ} (hh : 0 < h) : SimpleBeam (supportedBeam n h).1 (supportedBeam n h).2.2.1
    (supportedBeam n h).2.2.2 (supportedBeam n h).2.1 n h 1 1 where
  count := by simp [supportedBeam]
  number := by simp [supportedBeam]
  beam := by
    refine ⟨0, 0, fun e he => ⟨[(e : ℤ), 7, 0, e, e + 1], 0, 0, ?_, ?_⟩⟩
    · unfold supportedBeam
      dsimp only
      rw [List.getElem?_map, List.getElem?_range he, Option.map_some]
    · have hlen : (supportedBeam n h).2.2.2.length = n + 1 := by simp [supportedBeam]
      have hnode : ∀ p ≤ n, (supportedBeam n h).2.2.2[p]? = some [(p : ℝ), p * h, 0] := by
        intro p hp
        unfold supportedBeam
        dsimp only
        rw [List.getElem?_map, List.getElem?_range (show p < n + 1 by omega), Option.map_some]
      refine ⟨?_, ⟨e, ?_⟩, ⟨(e + 1 : ℕ), ?_⟩, ends_length 0 0 hh e, 0, 0, [1, 1, 1, 1], rfl, ⟨?_, .inl rfl⟩, rfl, .inl ⟨rfl, rfl, rfl, 1, 1,
        .inr ⟨1, 1, rfl, by norm_num⟩, by norm_num⟩⟩
      · rw [hlen]
        exact .cons ⟨by omega, .inl rfl⟩ (.cons ⟨by omega, .inl (by push_cast; rfl)⟩ .nil)
      · rw [hnode e he.le]
        simp [ends]
      · rw [hnode (e + 1) he]
        simp [ends]
      · simp [supportedBeam]
  rows := by simp [supportedBeam]
  support := by
    intro p hp
    unfold supportedBeam
    dsimp only
    rw [List.getElem?_map, List.getElem?_range (show p < n + 1 by omega), Option.map_some]

/-- Nine elements on the span `π`: eighteen frequencies, and the four smallest ones within 1 % of `k⁴`. -/
example : ∃ op bc, ∃ Kg Mg : Matrix (Fin 18) (Fin 18) ℝ,
    dme (supportedBeam 9 (Real.pi / 9)).1 (supportedBeam 9 (Real.pi / 9)).2.1 3 = .ok (op, bc, 18) ∧
    assembler (Uel.eleFun Real.sqrt) (supportedBeam 9 (Real.pi / 9)).2.1 (supportedBeam 9 (Real.pi / 9)).2.2.1
      (supportedBeam 9 (Real.pi / 9)).2.2.2 18 op = .ok (Kg, Mg) ∧
    (∀ w, (∃ v : Fin 18 → ℝ, v ≠ 0 ∧ Kg.mulVec v = w • Mg.mulVec v) ↔
      (∃ k, 0 < k ∧ k < 9 ∧ w = lowFreq 9 k (Real.pi / 9) 1 1) ∨ ∃ k ≤ 9, w = highFreq 9 k (Real.pi / 9) 1 1) ∧
    ∀ k : ℕ, k ≤ 4 → (k : ℝ) ^ 4 ≤ lowFreq 9 k (Real.pi / 9) 1 1 ∧ lowFreq 9 k (Real.pi / 9) 1 1 ≤ 101 / 100 * (k : ℝ) ^ 4 := by
  have hpi := Real.pi_pos
  have hh : 0 < Real.pi / 9 := by positivity
  have hb := supportedBeam_simple 9 hh
  obtain ⟨op, bc, Kg, Mg, h1, h2⟩ := C149_assembled hb sqrtFn_real (by omega) true
  refine ⟨op, bc, Kg, Mg, h1, h2, C149_frequencies hb sqrtFn_real (by omega) one_pos one_pos h1 h2, fun k hk => ?_⟩
  obtain ⟨b0, b1⟩ := C149_bounds (n := 9) (h := Real.pi / 9) (L := Real.pi) (EI := 1) (γ := 1) (by push_cast; field_simp) hh one_pos one_pos
    (by omega) (by omega : k ≤ 9)
  have e : (k : ℝ) * Real.pi / Real.pi = k := by field_simp
  rw [e, div_one, one_mul] at b0 b1
  refine ⟨b0, b1.trans ?_⟩
  have hk' : (k : ℝ) ≤ 4 := by exact_mod_cast hk
  have hx : k * Real.pi / (9 : ℕ) ≤ 1.4 := by
    have := Real.pi_lt_d2
    push_cast
    nlinarith
  have hx4 : (k * Real.pi / (9 : ℕ)) ^ 4 ≤ 1.4 ^ 4 := pow_le_pow_left₀ (by positivity) hx 4
  norm_num at hx4
  have h4 : (0 : ℝ) ≤ (k : ℝ) ^ 4 := by positivity
  rw [mul_comm]
  refine mul_le_mul_of_nonneg_right ?_ h4
  push_cast
  linarith

end
end SolidsPy
