import Verif.Props.Vibration
import Verif.Props.Placement
import Verif.Props.Magnified
import Verif.Props.Variation

/-! # C120: how the frequencies depend on supports, materials, place and size -/

set_option linter.unusedSectionVars false

namespace SolidsPy
open Spec Assem Matrix

section
variable {K : Type} [Field K] [LinearOrder K] [IsStrictOrderedRing K] [FloorRing K] {sq : K → K} {mats nodes mats' nodes' : Table K}
  {el : List ℤ} {m μ m' μ' : Member K}

/-- The spring and the mass of one element come from one call of its routine. -/
theorem pair_placed (h : IsMember (Routine sq) mats nodes el m) (hμ : IsMember (MassRoutine sq) mats nodes el μ)
    (h3 : ∀ r ∈ nodes, r.length = 3)
    (hty : ∀ ty, el[1]? = some ty → ty ∈ [(1 : ℤ), 2, 3, 4] ∨ (ty = 6 ∧ (el.drop 3).length = 2)) :
    μ.nodes = m.nodes ∧ ∃ ty mi, ∃ q : ℕ, ∃ params n f X k mm, el[1]? = some ty ∧ Uel.eleFun sq ty = .ok f ∧ el[2]? = some mi ∧
      Resolves mats.length mi q ∧ mats[q]? = some params ∧ Structural sq n f ∧ Returns (n := n) (d := 2) f X params k mm ∧
      Placed nodes m X k ∧ Placed nodes μ X mm := by
  have hnn : μ.nodes = m.nodes := by
    obtain ⟨_, _, _, _, _, _, _, -, -, -, a5, -⟩ := h
    obtain ⟨_, _, _, _, _, _, _, -, -, -, b5, -⟩ := hμ
    exact forall₂_resolves_unique a5 b5
  refine ⟨hnn, ?_⟩
  obtain ⟨ty, mi, q, params, n, f, X, k, mm, a1, a2, a3, a4, a5, a6, a7, a8⟩ := member_placed h h3 hty
  have key : ∃ mi', ∃ q' : ℕ, ∃ params' n' X' k' mm', el[2]? = some mi' ∧ Resolves mats.length mi' q' ∧ mats[q']? = some params' ∧
      Returns (n := n') (d := 2) f X' params' k' mm' ∧ Placed nodes μ X' mm' := by
    rcases hty ty a1 with ht | ⟨rfl, hl⟩
    · obtain ⟨n', hp⟩ := structural_of_type ht a2
      obtain ⟨mi', q', params', X', k', mm', b1, b2, b3, b4, b5⟩ := mass_placed_of hμ a1 a2 hp
      exact ⟨mi', q', params', n', X', k', mm', b1, b2, b3, b4, b5⟩
    · obtain ⟨mi', q', params', X', k', mm', b1, b2, b3, b4, b5⟩ := bar_mass_placed hμ h3 a1 hl
      simp only [Uel.eleFun, Except.ok.injEq] at a2
      subst a2
      exact ⟨mi', q', params', 2, X', k', mm', b1, b2, b3, b4, b5⟩
  obtain ⟨mi', q', params', n', X', k', mm', b1, b2, b3, b4, b5⟩ := key
  rw [a3, Option.some.injEq] at b1
  subst b1
  obtain rfl := resolves_unique a4 b2
  rw [a5, Option.some.injEq] at b3
  subst b3
  obtain rfl : n' = n := by rw [← a8.size, ← b5.size, hnn]
  obtain rfl := a8.coord_unique b5 hnn
  obtain ⟨rfl, rfl⟩ := returns_unique a7 b4
  exact ⟨ty, mi, q, params, n', f, X', _, _, a1, a2, a3, a4, a5, a6, a7, a8, b5⟩

/-- The same element in two models with equally many nodes and materials. -/
theorem pairs_twin (h : IsMember (Routine sq) mats nodes el m) (hμ : IsMember (MassRoutine sq) mats nodes el μ)
    (h' : IsMember (Routine sq) mats' nodes' el m') (hμ' : IsMember (MassRoutine sq) mats' nodes' el μ')
    (h3 : ∀ r ∈ nodes, r.length = 3) (h3' : ∀ r ∈ nodes', r.length = 3)
    (hty : ∀ ty, el[1]? = some ty → ty ∈ [(1 : ℤ), 2, 3, 4] ∨ (ty = 6 ∧ (el.drop 3).length = 2))
    (hl : mats'.length = mats.length) (hn : nodes'.length = nodes.length) :
    μ.nodes = m.nodes ∧ m'.nodes = m.nodes ∧ μ'.nodes = m.nodes ∧
    ∃ ty mi, ∃ q : ℕ, ∃ params params' n f X X' k k' mm mm', el[1]? = some ty ∧ Uel.eleFun sq ty = .ok f ∧ el[2]? = some mi ∧
      Resolves mats.length mi q ∧ mats[q]? = some params ∧ mats'[q]? = some params' ∧ Structural sq n f ∧
      Returns (n := n) (d := 2) f X params k mm ∧ Placed nodes m X k ∧ Placed nodes μ X mm ∧
      Returns (n := n) (d := 2) f X' params' k' mm' ∧ Placed nodes' m' X' k' ∧ Placed nodes' μ' X' mm' := by
  obtain ⟨e1, ty, mi, q, params, n, f, X, k, mm, a1, a2, a3, a4, a5, a6, a7, a8, a9⟩ := pair_placed h hμ h3 hty
  obtain ⟨e2, ty', mi', q', params', n', f', X', k', mm', b1, b2, b3, b4, b5, b6, b7, b8, b9⟩ := pair_placed h' hμ' h3' hty
  have hnn : m'.nodes = m.nodes := (members_twin h h' h3 h3' hty hl hn).1
  rw [a1, Option.some.injEq] at b1
  subst b1
  rw [a2, Except.ok.injEq] at b2
  subst b2
  rw [a3, Option.some.injEq] at b3
  subst b3
  rw [hl] at b4
  obtain rfl := resolves_unique a4 b4
  obtain rfl : n' = n := by rw [← a8.size, ← b8.size, hnn]
  exact ⟨e1, hnn, e2.trans hnn, ty, mi, q, params, params', n', f, X, X', k, k', mm, mm', a1, a2, a3, a4, a5, b5, a6, a7, a8, a9, b7, b8, b9⟩

/-- Element by element. -/
theorem forms_pairs {d d' : Gui.Data K} {ks ms ks' ms' : List (Member K)} {P : Member K → Member K → Member K → Member K → Prop}
    (hks : Members sq d ks) (hms : Masses sq d ms) (hks' : Members sq d' ks') (hms' : Masses sq d' ms') (he : d'.elements = d.elements)
    (hP : ∀ el ∈ d.elements, ∀ m μ m' μ', IsMember (Routine sq) d.mats d.nodes el m → IsMember (MassRoutine sq) d.mats d.nodes el μ →
      IsMember (Routine sq) d'.mats d'.nodes el m' → IsMember (MassRoutine sq) d'.mats d'.nodes el μ' → P m μ m' μ') :
    ks.length = ms.length ∧ ks'.length = ks.length ∧ ms'.length = ms.length ∧ ∀ e (h1 : e < ks.length) (h2 : e < ms.length)
      (h3 : e < ks'.length) (h4 : e < ms'.length), P ks[e] ms[e] ks'[e] ms'[e] := by
  have l1 := hks.length_eq
  have l2 := hms.length_eq
  have l3 := hks'.length_eq
  have l4 := hms'.length_eq
  rw [he] at l3 l4
  refine ⟨by omega, by omega, by omega, fun e h1 h2 h3 h4 => ?_⟩
  have hk' : List.Forall₂ (IsMember (Routine sq) d'.mats d'.nodes) d.elements ks' := he ▸ hks'
  have hm' : List.Forall₂ (IsMember (MassRoutine sq) d'.mats d'.nodes) d.elements ms' := he ▸ hms'
  exact hP _ (List.getElem_mem (l := d.elements) (n := e) (by omega)) _ _ _ _ (hks.get (i := e) (by omega) h1)
    (hms.get (i := e) (by omega) h2) (hk'.get (i := e) (by omega) h3) (hm'.get (i := e) (by omega) h4)

end

section
variable {sq : ℝ → ℝ} {d d' : Gui.Data ℝ} {neq neq' : ℕ}
  {Kg Mg : Matrix (Fin neq) (Fin neq) ℝ} {Kg' Mg' : Matrix (Fin neq') (Fin neq') ℝ} {ks ms ks' ms' : List (Member ℝ)}
  {w : Fin neq → ℝ} {φ : Fin neq → Fin neq → ℝ} {w' : Fin neq' → ℝ} {φ' : Fin neq' → Fin neq' → ℝ}

/-- Fields of one model carried to another. -/
theorem slow_map {cons cons' : List (List ℝ)} {T : (ℕ → ℕ → ℝ) → ℕ → ℕ → ℝ} {nd : ℕ} {a b t : ℝ} {r : ℕ} (ha : 0 ≤ a) (hb : 0 < b) (ht : 0 ≤ t)
    (hsum : ∀ {r : ℕ} (c : Fin r → ℝ) (u : Fin r → ℕ → ℕ → ℝ), T (fun p j => ∑ i, c i * u i p j) = fun p j => ∑ i, c i * T (u i) p j)
    (hadm : ∀ u, Admissible cons nd u → Admissible cons' nd (T u))
    (hz : ∀ u, (∀ p < cons'.length, ∀ j < nd, T u p j = 0) → ∀ p < cons.length, ∀ j < nd, u p j = 0)
    (hk : ∀ u, energyOf nd ks' (T u) ≤ a * energyOf nd ks u) (hm : ∀ u, b * energyOf nd ms u ≤ energyOf nd ms' (T u))
    (h : Slow cons nd ks ms t r) : Slow cons' nd ks' ms' (a / b * t) r := by
  obtain ⟨u, h1, h2, h3⟩ := h
  refine ⟨fun i => T (u i), fun i => hadm _ (h1 i), fun c hc => h2 c (hz _ ?_), fun c => ?_⟩
  · rw [hsum]
    exact hc
  · rw [← hsum]
    have e1 := hk (fun p j => ∑ i, c i * u i p j)
    have e2 := hm (fun p j => ∑ i, c i * u i p j)
    have e3 := h3 c
    calc _ ≤ a * energyOf nd ks (fun p j => ∑ i, c i * u i p j) := e1
      _ ≤ a * (t * energyOf nd ms (fun p j => ∑ i, c i * u i p j)) := mul_le_mul_of_nonneg_left e3 ha
      _ = a / b * t * (b * energyOf nd ms (fun p j => ∑ i, c i * u i p j)) := by field_simp
      _ ≤ _ := mul_le_mul_of_nonneg_left e2 (by positivity)

theorem frequencies_map (hs : SqrtFn sq) (h : Vibrating sq d ks ms Kg Mg) (hm : Modes Kg Mg w φ)
    (h' : Vibrating sq d' ks' ms' Kg' Mg') (hm' : Modes Kg' Mg' w' φ') (hphys : Physical d) {T : (ℕ → ℕ → ℝ) → ℕ → ℕ → ℝ} {a b : ℝ}
    (ha : 0 ≤ a) (hb : 0 < b)
    (hsum : ∀ {r : ℕ} (c : Fin r → ℝ) (u : Fin r → ℕ → ℕ → ℝ), T (fun p j => ∑ i, c i * u i p j) = fun p j => ∑ i, c i * T (u i) p j)
    (hadm : ∀ u, Admissible d.cons 2 u → Admissible d'.cons 2 (T u))
    (hz : ∀ u, (∀ p < d'.cons.length, ∀ j < 2, T u p j = 0) → ∀ p < d.cons.length, ∀ j < 2, u p j = 0)
    (hks : ∀ u, energyOf 2 ks' (T u) ≤ a * energyOf 2 ks u) (hms : ∀ u, b * energyOf 2 ms u ≤ energyOf 2 ms' (T u))
    (k : Fin neq) (k' : Fin neq') (hk : (k : ℕ) = k') : w' k' ≤ a / b * w k := by
  rw [C119_minmax hs h' hm', ← hk]
  exact slow_map ha hb (C119_nonneg hs h hphys hm k) hsum hadm hz hks hms ((C119_minmax hs h hm k _).1 le_rfl)

/-- C120.  Adding supports never lowers a frequency. -/
theorem C120_supports (hs : SqrtFn sq) (h : Vibrating sq d ks ms Kg Mg) (hm : Modes Kg Mg w φ) {cons' : Table ℝ}
    (h' : Vibrating sq { d with cons := cons' } ks' ms' Kg' Mg') (hm' : Modes Kg' Mg' w' φ')
    (hc : ∀ p j, Free cons' 2 p j → Free d.cons 2 p j) (k : Fin neq) (k' : Fin neq') (hk : (k : ℕ) = k') : w k ≤ w' k' := by
  obtain rfl := members_unique h.springs h'.springs
  obtain rfl := masses_unique h.masses h'.masses
  have hl : cons'.length = d.cons.length := h'.wf.size.trans h.wf.size.symm
  refine frequencies_le hs h hm h' hm' k k' hk fun t r => ?_
  rintro ⟨u, h1, h2, h3⟩
  refine ⟨u, fun a p j hp hj hf => h1 a p j (by dsimp only; rw [hl]; exact hp) hj fun hf' => hf (hc p j hf'), fun c hc => h2 c ?_, h3⟩
  dsimp only
  rw [hl]
  exact hc

/-- Every modulus is multiplied by some number between `a` and `a'`, every density by one between `b` and `b'`; the second parameter
(Poisson's ratio or the area) is the same. -/
def Spec.Rated (a a' b b' : ℝ) (mats mats' : List (List ℝ)) : Prop :=
  List.Forall₂ (fun r r' => ∃ c e E x rest rest', a ≤ c ∧ c ≤ a' ∧ b ≤ e ∧ e ≤ b' ∧ r = E :: x :: rest ∧ r' = c * E :: x :: rest' ∧
    rest'.getLast?.getD 1 = e * rest.getLast?.getD 1) mats mats'

theorem Structural.rated (hs : SqrtFn sq) {n : ℕ} {f : Uel ℝ} (hf : Structural sq n f) {X : Matrix (Fin n) (Fin 2) ℝ} {E x c e : ℝ}
    {rest rest' : List ℝ} {k m k' m'} (h : Returns f X (E :: x :: rest) k m) (h' : Returns f X (c * E :: x :: rest') k' m')
    (he : rest'.getLast?.getD 1 = e * rest.getLast?.getD 1) : k' = c • k ∧ m' = e • m := by
  rcases hf with hf | ⟨rfl, rfl⟩
  · refine ⟨C46_plane_stiffness_ignores_density hf (C46_plane_young hf h c) h', ?_⟩
    obtain ⟨R, hR⟩ := plane_rule hf
    obtain ⟨hg, st, hr⟩ := returns_plane hR
    obtain ⟨C, ρ, hm, ha, rfl, rfl⟩ := (hr _ _ _ _).1 h
    obtain ⟨C', ρ', hm', ha', rfl, rfl⟩ := (hr _ _ _ _).1 h'
    obtain ⟨-, -, rfl⟩ := mat2_cons.1 hm
    obtain ⟨-, -, rfl⟩ := mat2_cons.1 hm'
    show mass2 R X (density rest') = _
    rw [show density rest' = e * density rest from he]
    exact mass_density
  · obtain ⟨h0, h1⟩ := (C51_accepts_iff hs X _).1 ⟨k, m, h⟩
    obtain ⟨L, hL⟩ := exists_length hs h0
    obtain ⟨rfl, rfl⟩ := (truss_returns hs hL).1 h
    obtain ⟨rfl, rfl⟩ := (truss_returns hs hL).1 h'
    rw [show density rest' = e * density rest from he]
    constructor
    · ext p q
      simp only [barK, Matrix.smul_apply, Matrix.of_apply, smul_eq_mul]
      ring
    · ext p q
      simp only [barM, Matrix.smul_apply, Matrix.of_apply, smul_eq_mul]
      split_ifs <;> ring

theorem energy_le {ks ks' : List (Member ℝ)} {T : (ℕ → ℕ → ℝ) → ℕ → ℕ → ℝ} {a : ℝ} (hl : ks'.length = ks.length)
    (h : ∀ e (h1 : e < ks.length) (h2 : e < ks'.length) (u : ℕ → ℕ → ℝ), ks'[e].form 2 (T u) (T u) ≤ a * ks[e].form 2 u u) (u : ℕ → ℕ → ℝ) :
    energyOf 2 ks' (T u) ≤ a * energyOf 2 ks u := by
  unfold energyOf
  induction ks generalizing ks' with
  | nil =>
    obtain rfl : ks' = [] := List.length_eq_zero_iff.1 hl
    simp
  | cons m ks ih =>
    match ks', hl with
    | m' :: ks', hl =>
      rw [List.map_cons, List.sum_cons, List.map_cons, List.sum_cons, mul_add]
      exact add_le_add (h 0 (by simp) (by simp) u) (ih (by simpa using hl) fun e h1 h2 u => h (e + 1) (by simpa using h1) (by simpa using h2) u)

theorem energy_ge {ks ks' : List (Member ℝ)} {T : (ℕ → ℕ → ℝ) → ℕ → ℕ → ℝ} {a : ℝ} (hl : ks'.length = ks.length)
    (h : ∀ e (h1 : e < ks.length) (h2 : e < ks'.length) (u : ℕ → ℕ → ℝ), a * ks[e].form 2 u u ≤ ks'[e].form 2 (T u) (T u)) (u : ℕ → ℕ → ℝ) :
    a * energyOf 2 ks u ≤ energyOf 2 ks' (T u) := by
  unfold energyOf
  induction ks generalizing ks' with
  | nil =>
    obtain rfl : ks' = [] := List.length_eq_zero_iff.1 hl
    simp
  | cons m ks ih =>
    match ks', hl with
    | m' :: ks', hl =>
      rw [List.map_cons, List.sum_cons, List.map_cons, List.sum_cons, mul_add]
      exact add_le_add (h 0 (by simp) (by simp) u) (ih (by simpa using hl) fun e h1 h2 u => h (e + 1) (by simpa using h1) (by simpa using h2) u)

theorem masses_nonneg (hs : SqrtFn sq) (h3 : ∀ r ∈ d.nodes, r.length = 3) (hh : Massive d) (hms : Masses sq d ms) :
    ∀ e (he : e < ms.length), ∀ u, 0 ≤ ms[e].form 2 u u := by
  intro e he u
  have he' : e < d.elements.length := by rw [hms.length_eq]; exact he
  rcases hh _ (List.getElem_mem he') with ⟨c1, c2, c3⟩ | hc
  · exact (bar_mass_pos hs (hms.get (i := e) he' he) h3 c1 c2 c3 u).1
  · exact (mass_form_pos (hms.get (i := e) he' he) (hc _ (List.mem_singleton.2 rfl)) u).1

theorem Physical.rated {a a' b b' : ℝ} (hphys : Physical d) (ha : 0 ≤ a) (hb : 0 ≤ b) {mats' : Table ℝ}
    (hmat : Rated a a' b b' d.mats mats') : Physical { d with mats := mats' } := by
  intro el hel ty mi q params h1 h2 h3 h4
  dsimp only at h3 h4
  obtain ⟨hq', rfl⟩ := List.getElem?_eq_some_iff.1 h4
  have hq : q < d.mats.length := by rw [hmat.length_eq]; exact hq'
  obtain ⟨c, e, E, x, rest, rest', c1, -, c3, -, e1, e2, e3⟩ := hmat.get (i := q) hq hq'
  simp only [List.get_eq_getElem] at e1 e2
  obtain ⟨f1, f2⟩ := hphys el hel ty mi q _ h1 h2 (by rw [hmat.length_eq]; exact h3) (List.getElem?_eq_getElem hq)
  rw [e1] at f1 f2
  have hc : 0 ≤ c := ha.trans c1
  have he : 0 ≤ e := hb.trans c3
  refine ⟨fun ht => ?_, fun ht => ?_⟩
  · obtain ⟨E', nu, rest₀, g1, g2, g3, g4, g5⟩ := f1 ht
    simp only [List.cons.injEq] at g1
    obtain ⟨rfl, rfl, rfl⟩ := g1
    refine ⟨_, _, _, e2, mul_nonneg hc g2, g3, g4, fun ρ hρ => ?_⟩
    rw [Option.mem_def] at hρ
    rw [hρ, Option.getD_some] at e3
    rw [e3]
    cases hr : rest.getLast? with
    | none => simpa using he
    | some ρ₀ => exact mul_nonneg he (g5 ρ₀ hr)
  · obtain ⟨E', A, rest₀, g1, g2⟩ := f2 ht
    simp only [List.cons.injEq] at g1
    obtain ⟨rfl, rfl, rfl⟩ := g1
    exact ⟨_, _, _, e2, by rw [mul_assoc]; exact mul_nonneg hc g2⟩

/-- C120.  If every modulus is multiplied by a number between `a` and `a'` and every density by one between `b` and `b'`, every squared
frequency is multiplied by a number between `a / b'` and `a' / b`. -/
theorem C120_materials (hs : SqrtFn sq) (h : Vibrating sq d ks ms Kg Mg) (hm : Modes Kg Mg w φ) {mats' : Table ℝ}
    (h' : Vibrating sq { d with mats := mats' } ks' ms' Kg' Mg') (hm' : Modes Kg' Mg' w' φ') (hphys : Physical d) {a a' b b' : ℝ}
    (ha : 0 < a) (haa : a ≤ a') (hb : 0 < b) (hbb : b ≤ b') (hmat : Rated a a' b b' d.mats mats') (k : Fin neq) (k' : Fin neq') (hk : (k : ℕ) = k') :
    a / b' * w k ≤ w' k' ∧ w' k' ≤ a' / b * w k := by
  have hb' : 0 < b' := hb.trans_le hbb
  obtain ⟨l1, l2, l3, key⟩ := forms_pairs (P := fun m μ m' μ' => ∃ c e, a ≤ c ∧ c ≤ a' ∧ b ≤ e ∧ e ≤ b' ∧
      (∀ u, m'.form 2 u u = c * m.form 2 u u) ∧ ∀ u, μ'.form 2 u u = e * μ.form 2 u u)
    h.springs h.masses h'.springs h'.masses rfl fun el hel m μ m' μ' g1 g2 g3 g4 => by
      obtain ⟨n1, n2, n3, ty, mi, q, params, params', n, f, X, X', kk, kk', mm, mm', a1, a2, a3, a4, a5, a5', a6, a7, a8, a9, b7, b8,
        b9⟩ := pairs_twin g1 g2 g3 g4 h.plane.nodes h.plane.nodes (h.plane.types _ hel) hmat.length_eq.symm rfl
      obtain rfl := a8.coord_unique b8 n2
      obtain ⟨hq, rfl⟩ := List.getElem?_eq_some_iff.1 a5
      obtain ⟨hq', rfl⟩ := List.getElem?_eq_some_iff.1 a5'
      obtain ⟨c, e, E, x, rest, rest', c1, c2, c3, c4, e1, e2, e3⟩ := hmat.get (i := q) hq hq'
      simp only [List.get_eq_getElem] at e1 e2
      rw [e1] at a7
      rw [e2] at b7
      obtain ⟨rfl, rfl⟩ := a6.rated hs a7 b7 e3
      refine ⟨c, e, c1, c2, c3, c4, fun u => ?_, fun u => ?_⟩
      · rw [a8.form, b8.form, pick_congr n2, Matrix.smul_mulVec, dotProduct_smul, smul_eq_mul]
      · rw [a9.form, b9.form, pick_congr (n3.trans n1.symm), Matrix.smul_mulVec, dotProduct_smul, smul_eq_mul]
  have hpk : ∀ e (he : e < ks.length), ∀ u, 0 ≤ ks[e].form 2 u u :=
    fun e he u => (C93_elements hs h.plane h.springs).2 hphys _ (List.getElem_mem he) u
  have hpm := masses_nonneg hs h.plane.nodes h.massive h.masses
  constructor
  · have := frequencies_map hs h' hm' h hm (hphys.rated ha.le hb.le hmat) (T := id) (a := 1 / a) (b := 1 / b') (by positivity)
      (by positivity) (fun _ _ => rfl) (fun u hu => hu) (fun u hu => hu)
      (fun u => energy_le (T := id) l2.symm (fun e h1 h2 u => by
        obtain ⟨c, e', c1, -, -, -, q1, -⟩ := key e h2 (by omega) h1 (by omega)
        rw [q1, id, ← mul_assoc]
        exact le_mul_of_one_le_left (hpk e h2 u) (by rw [one_div, inv_mul_eq_div, one_le_div ha]; exact c1)) u)
      (fun u => energy_ge (T := id) l3.symm (fun e h1 h2 u => by
        obtain ⟨c, e', -, -, -, c4, -, q2⟩ := key e (by omega) h2 (by omega) h1
        rw [q2, id, ← mul_assoc]
        exact mul_le_of_le_one_left (hpm e h2 u) (by rw [one_div, inv_mul_eq_div, div_le_one hb']; exact c4)) u) k' k hk.symm
    have e : 1 / a / (1 / b') = b' / a := by field_simp
    rw [e, div_mul_eq_mul_div, le_div_iff₀ ha] at this
    rw [div_mul_eq_mul_div, div_le_iff₀ hb']
    linarith
  · exact frequencies_map hs h hm h' hm' hphys (T := id) (ha.le.trans haa) hb (fun _ _ => rfl) (fun u hu => hu) (fun u hu => hu)
      (fun u => energy_le (T := id) l2 (fun e h1 h2 u => by
        obtain ⟨c, e', -, c2, -, -, q1, -⟩ := key e h1 (by omega) h2 (by omega)
        rw [id, q1]
        exact mul_le_mul_of_nonneg_right c2 (hpk e h1 u)) u)
      (fun u => energy_ge (T := id) l3 (fun e h1 h2 u => by
        obtain ⟨c, e', -, -, c3, -, -, q2⟩ := key e (by omega) h1 (by omega) h2
        rw [id, q2]
        exact mul_le_mul_of_nonneg_right c3 (hpm e h1 u)) u) k k' hk

/-- C120.  All moduli multiplied by `a` and all densities by `b`. -/
theorem C120_proportional (hs : SqrtFn sq) (h : Vibrating sq d ks ms Kg Mg) (hm : Modes Kg Mg w φ) {mats' : Table ℝ}
    (h' : Vibrating sq { d with mats := mats' } ks' ms' Kg' Mg') (hm' : Modes Kg' Mg' w' φ') (hphys : Physical d) {a b : ℝ}
    (ha : 0 < a) (hb : 0 < b) (hmat : Rated a a b b d.mats mats') (k : Fin neq) (k' : Fin neq') (hk : (k : ℕ) = k') :
    w' k' = a / b * w k := by
  obtain ⟨h1, h2⟩ := C120_materials hs h hm h' hm' hphys ha le_rfl hb le_rfl hmat k k' hk
  exact le_antisymm h2 h1

/-- Springs and masses multiplied by numbers. -/
theorem frequencies_scaled (hs : SqrtFn sq) (h : Vibrating sq d ks ms Kg Mg) (hm : Modes Kg Mg w φ)
    (h' : Vibrating sq d' ks' ms' Kg' Mg') (hm' : Modes Kg' Mg' w' φ') (hphys : Physical d) (hphys' : Physical d') {a b : ℝ} (ha : 0 < a)
    (hb : 0 < b) {T S : (ℕ → ℕ → ℝ) → ℕ → ℕ → ℝ}
    (hT : ∀ {r : ℕ} (c : Fin r → ℝ) (u : Fin r → ℕ → ℕ → ℝ), T (fun p j => ∑ i, c i * u i p j) = fun p j => ∑ i, c i * T (u i) p j)
    (hS : ∀ {r : ℕ} (c : Fin r → ℝ) (u : Fin r → ℕ → ℕ → ℝ), S (fun p j => ∑ i, c i * u i p j) = fun p j => ∑ i, c i * S (u i) p j)
    (aT : ∀ u, Admissible d.cons 2 u → Admissible d'.cons 2 (T u)) (aS : ∀ u, Admissible d'.cons 2 u → Admissible d.cons 2 (S u))
    (zT : ∀ u, (∀ p < d'.cons.length, ∀ j < 2, T u p j = 0) → ∀ p < d.cons.length, ∀ j < 2, u p j = 0)
    (zS : ∀ u, (∀ p < d.cons.length, ∀ j < 2, S u p j = 0) → ∀ p < d'.cons.length, ∀ j < 2, u p j = 0)
    (he : d'.elements = d.elements)
    (hP : ∀ el ∈ d.elements, ∀ m μ m' μ', IsMember (Routine sq) d.mats d.nodes el m → IsMember (MassRoutine sq) d.mats d.nodes el μ →
      IsMember (Routine sq) d'.mats d'.nodes el m' → IsMember (MassRoutine sq) d'.mats d'.nodes el μ' →
      ∀ u, m'.form 2 (T u) (T u) = a * m.form 2 u u ∧ m'.form 2 u u = a * m.form 2 (S u) (S u) ∧
        μ'.form 2 (T u) (T u) = b * μ.form 2 u u ∧ μ'.form 2 u u = b * μ.form 2 (S u) (S u))
    (k : Fin neq) (k' : Fin neq') (hk : (k : ℕ) = k') : w' k' = a / b * w k := by
  obtain ⟨l1, l2, l3, key⟩ := forms_pairs h.springs h.masses h'.springs h'.masses he hP
  refine le_antisymm ?_ ?_
  · exact frequencies_map hs h hm h' hm' hphys ha.le hb hT aT zT
      (fun u => energy_le l2 (fun e h1 h2 u => (key e h1 (by omega) h2 (by omega) u).1.le) u)
      (fun u => energy_ge l3 (fun e h1 h2 u => (key e (by omega) h1 (by omega) h2 u).2.2.1.ge) u) k k' hk
  · have := frequencies_map hs h' hm' h hm hphys' (a := 1 / a) (b := 1 / b) (by positivity) (by positivity) hS aS zS
      (fun u => energy_le l2.symm (fun e h1 h2 u => by
        rw [(key e h2 (by omega) h1 (by omega) u).2.1, ← mul_assoc, one_div_mul_cancel ha.ne', one_mul]) u)
      (fun u => energy_ge l3.symm (fun e h1 h2 u => by
        rw [(key e (by omega) h2 (by omega) h1 u).2.2.2, ← mul_assoc, one_div_mul_cancel hb.ne', one_mul]) u) k' k hk.symm
    have e : 1 / a / (1 / b) = b / a := by field_simp
    rw [e, div_mul_eq_mul_div, le_div_iff₀ ha] at this
    rw [div_mul_eq_mul_div, div_le_iff₀ hb]
    linarith

theorem turned_sum (Q : Matrix (Fin 2) (Fin 2) ℝ) {r : ℕ} (c : Fin r → ℝ) (u : Fin r → ℕ → ℕ → ℝ) :
    turned Q (fun p j => ∑ i, c i * u i p j) = fun p j => ∑ i, c i * turned Q (u i) p j := by
  funext p j
  unfold turned
  split
  · rw [Finset.mul_sum, Finset.mul_sum, ← Finset.sum_add_distrib]
    exact Finset.sum_congr rfl fun i _ => by ring
  · simp

theorem turned_zero_iff {Q : Matrix (Fin 2) (Fin 2) ℝ} (hQ : Q.transpose * Q = 1) {n : ℕ} (u : ℕ → ℕ → ℝ)
    (h : ∀ p < n, ∀ j < 2, turned Q u p j = 0) : ∀ p < n, ∀ j < 2, u p j = 0 := by
  intro p hp j hj
  rw [turned_back (Q := Q.transpose) (by rw [transpose_transpose]; exact hQ) u p j hj, transpose_transpose]
  unfold turned at h ⊢
  rw [dif_pos hj]
  have h0 := h p hp 0 (by omega)
  have h1 := h p hp 1 (by omega)
  rw [dif_pos (by omega)] at h0 h1
  rw [dif_pos (by omega), dif_pos (by omega), h0, h1]
  ring

/-- C120.  Turning and shifting the model changes no frequency. -/
theorem C120_place (hs : SqrtFn sq) (h : Vibrating sq d ks ms Kg Mg) (hm : Modes Kg Mg w φ)
    (h' : Vibrating sq d' ks' ms' Kg' Mg') (hm' : Modes Kg' Mg' w' φ') (hphys : Physical d) {Q : Matrix (Fin 2) (Fin 2) ℝ} {t : Fin 2 → ℝ}
    (hr : Replaced Q t d d') (hQ : Q.transpose * Q = 1) (hd : Q.det = 1) (k : Fin neq) (k' : Fin neq') (hk : (k : ℕ) = k') :
    w' k' = w k := by
  have hQ' : Q * Q.transpose = 1 := mul_eq_one_comm.1 hQ
  have hphys' : Physical d' := by
    unfold Physical
    rw [hr.elements, hr.mats]
    exact hphys
  have hl : d'.cons.length = d.cons.length := by rw [h'.wf.size, h.wf.size, hr.size]
  have hb : ∀ u : ℕ → ℕ → ℝ, ∀ p, ∀ j < 2, u p j = turned Q (turned Q.transpose u) p j := fun u p => turned_back hQ' u p
  have key := frequencies_scaled hs h hm h' hm' hphys hphys' one_pos one_pos (T := turned Q) (S := turned Q.transpose)
    (fun c u => turned_sum Q c u) (fun c u => turned_sum _ c u) (fun u hu => (hr.supports u).1 hu)
    (fun u hu => (hr.supports _).2 ((admissible_congr (hb u)).1 hu))
    (fun u hu => turned_zero_iff hQ u fun p hp => hu p (by rw [hl]; exact hp))
    (fun u hu => turned_zero_iff (Q := Q.transpose) (by rw [transpose_transpose]; exact hQ') u fun p hp => hu p (by rw [← hl]; exact hp))
    hr.elements (fun el hel m μ m' μ' g1 g2 g3 g4 u => by
      obtain ⟨n1, n2, n3, ty, mi, q, params, params', n, f, X, X', kk, kk', mm, mm', a1, a2, a3, a4, a5, a5', a6, a7, a8, a9, b7, b8,
        b9⟩ := pairs_twin g1 g2 g3 g4 h.plane.nodes hr.width (h.plane.types _ hel) (by rw [hr.mats]) hr.size
      rw [hr.mats, a5, Option.some.injEq] at a5'
      subst a5'
      have hX : X' = shifted (X * Q.transpose) t := by
        ext a i
        have ha : (a : ℕ) < m.nodes.length := by rw [a8.size]; exact a.2
        have hp' : m.nodes.getD a 0 < d.nodes.length := by
          rw [List.getD_eq_getElem?_getD, List.getElem?_eq_getElem ha, Option.getD_some]
          exact members_in g1 _ (List.getElem_mem ha)
        have e0 := hr.coord _ hp' i
        have e1 : ∀ i : Fin 2, coordOf d.nodes (m.nodes.getD a 0) i = X a i := by
          intro i
          unfold coordOf fieldOf
          rw [a8.coord a i]
          rfl
        have e2 := b8.coord a i
        rw [n2] at e2
        have e3 : coordOf d'.nodes (m.nodes.getD a 0) i = X' a i := by
          unfold coordOf fieldOf
          rw [e2]
          rfl
        rw [← e3, e0]
        have f0 := e1 0
        have f1 := e1 1
        simp only [Fin.val_zero, Fin.val_one] at f0 f1
        rw [f0, f1]
        simp only [shifted, Matrix.of_apply, Matrix.mul_apply, Fin.sum_univ_two, transpose_apply]
        ring
      subst hX
      obtain ⟨rfl, rfl⟩ := returns_unique (a6.placed hs a7 hQ hd t) b7
      have e4 : ∀ v : Fin n × Fin 2 → ℝ, v = (turn n Q).mulVec ((turn n Q.transpose).mulVec v) := by
        intro v
        rw [turn_mul, hQ', turn_one']
      refine ⟨?_, ?_, ?_, ?_⟩
      · rw [b8.form, a8.form, pick_turned, turn_form hQ, one_mul, pick_congr n2]
      · rw [b8.form, a8.form, pick_turned, one_mul, pick_congr n2]
        conv_lhs => rw [e4 (m.pick n u)]
        rw [turn_form hQ]
      · rw [b9.form, a9.form, pick_turned, turn_form hQ, one_mul, pick_congr (n3.trans n1.symm)]
      · rw [b9.form, a9.form, pick_turned, one_mul, pick_congr (n3.trans n1.symm)]
        conv_lhs => rw [e4 (μ.pick n u)]
        rw [turn_form hQ]) k k' hk
  rw [key]
  ring

theorem truss_size (hs : SqrtFn sq) {X : Matrix (Fin 2) (Fin 2) ℝ} {params : List ℝ} {k m k' m'} {s : ℝ} (h0 : 0 < s)
    (h : Returns (Uel.truss2D sq) X params k m) (h' : Returns (Uel.truss2D sq) (s • X) params k' m') : k' = s⁻¹ • k ∧ m' = s • m := by
  obtain ⟨hX, hl⟩ := (C51_accepts_iff hs X params).1 ⟨_, _, h⟩
  obtain ⟨L, hL⟩ := exists_length hs hX
  have hL' : IsLength (s • X) (s * L) := by
    refine ⟨mul_pos h0 hL.1, ?_⟩
    simp only [Matrix.smul_apply, smul_eq_mul]
    linear_combination s ^ 2 * hL.2
  match params, hl, h, h' with
  | E :: A :: rest, _, h, h' =>
    obtain ⟨rfl, rfl⟩ := (truss_returns hs hL).1 h
    obtain ⟨rfl, rfl⟩ := (truss_returns hs hL').1 h'
    have e : outward (s • X) (s * L) = outward X L := by
      have h1 := hL.1.ne'
      have h2 := h0.ne'
      funext ⟨a, i⟩
      fin_cases a <;> simp [outward, pull] <;> field_simp
    rw [e]
    constructor
    · ext p q
      have h1 := hL.1.ne'
      have h2 := h0.ne'
      simp only [barK, Matrix.smul_apply, Matrix.of_apply, smul_eq_mul]
      field_simp
    · ext p q
      simp only [barM, Matrix.smul_apply, Matrix.of_apply, smul_eq_mul]
      split_ifs <;> ring

/-- C120.  Multiplying all lengths of a model of plane elements, or of a truss, by `s` divides the squared frequencies by `s²`. -/
theorem C120_size (hs : SqrtFn sq) (h : Vibrating sq d ks ms Kg Mg) (hm : Modes Kg Mg w φ)
    (h' : Vibrating sq d' ks' ms' Kg' Mg') (hm' : Modes Kg' Mg' w' φ') (hphys : Physical d) {s : ℝ} (h0 : 0 < s) (hr : Magnified s d d')
    (hone : Continuum d ∨ ∀ el ∈ d.elements, el[1]? = some 6) (k : Fin neq) (k' : Fin neq') (hk : (k : ℕ) = k') :
    w' k' = w k / s ^ 2 := by
  have hphys' : Physical d' := by
    unfold Physical
    rw [hr.elements, hr.mats]
    exact hphys
  have hc : d'.cons = d.cons := hr.cons
  have tw : ∀ el ∈ d.elements, ∀ m μ m' μ', IsMember (Routine sq) d.mats d.nodes el m → IsMember (MassRoutine sq) d.mats d.nodes el μ →
      IsMember (Routine sq) d'.mats d'.nodes el m' → IsMember (MassRoutine sq) d'.mats d'.nodes el μ' →
      ∃ n f params X kk mm kk' mm', ∃ ty : ℤ, el[1]? = some ty ∧ Uel.eleFun sq ty = .ok f ∧ Returns (n := n) (d := 2) f X params kk mm ∧
        Returns f (s • X) params kk' mm' ∧ (∀ u, m.form 2 u u = m.pick n u ⬝ᵥ kk.mulVec (m.pick n u)) ∧
        (∀ u, m'.form 2 u u = m.pick n u ⬝ᵥ kk'.mulVec (m.pick n u)) ∧ (∀ u, μ.form 2 u u = m.pick n u ⬝ᵥ mm.mulVec (m.pick n u)) ∧
        (∀ u, μ'.form 2 u u = m.pick n u ⬝ᵥ mm'.mulVec (m.pick n u)) ∧ (el.drop 3).length = n := by
    intro el hel m μ m' μ' g1 g2 g3 g4
    obtain ⟨n1, n2, n3, ty, mi, q, params, params', n, f, X, X', kk, kk', mm, mm', a1, a2, a3, a4, a5, a5', a6, a7, a8, a9, b7, b8,
      b9⟩ := pairs_twin g1 g2 g3 g4 h.plane.nodes hr.width (h.plane.types _ hel) (by rw [hr.mats]) hr.size
    rw [hr.mats, a5, Option.some.injEq] at a5'
    subst a5'
    obtain rfl := magnified_coord a8 b8 n2 (members_in g1) hr.coord
    exact ⟨n, f, params, X, kk, mm, kk', mm', ty, a1, a2, a7, b7, fun u => a8.form _ _, fun u => by rw [b8.form, pick_congr n2],
      fun u => by rw [a9.form, pick_congr n1], fun u => by rw [b9.form, pick_congr n3], by
        obtain ⟨_, _, _, _, _, _, _, -, -, -, c5, -⟩ := g1
        rw [c5.length_eq, a8.size]⟩
  rcases hone with hone | hone
  · have key := frequencies_scaled hs h hm h' hm' hphys hphys' one_pos (show 0 < s ^ 2 by positivity) (T := id) (S := id)
      (fun _ _ => rfl) (fun _ _ => rfl) (fun u hu => by rw [hc]; exact hu) (fun u hu => by rw [hc] at hu; exact hu)
      (fun u hu => by rw [hc] at hu; exact hu) (fun u hu => by rw [hc]; exact hu) hr.elements (fun el hel m μ m' μ' g1 g2 g3 g4 u => by
        obtain ⟨n, f, params, X, kk, mm, kk', mm', ty, t1, t2, r1, r2, e1, e2, e3, e4, -⟩ := tw el hel m μ m' μ' g1 g2 g3 g4
        obtain ⟨rfl, rfl⟩ := C46_plane_size (structural_plane (hone _ hel ty t1) t2 r1) h0.ne' r1 r2
        rw [id, e1, e2, e3, e4, one_mul, Matrix.smul_mulVec, dotProduct_smul, smul_eq_mul]
        exact ⟨rfl, rfl, rfl, rfl⟩) k k' hk
    rw [key]
    ring
  · have key := frequencies_scaled hs h hm h' hm' hphys hphys' (inv_pos.2 h0) h0 (T := id) (S := id)
      (fun _ _ => rfl) (fun _ _ => rfl) (fun u hu => by rw [hc]; exact hu) (fun u hu => by rw [hc] at hu; exact hu)
      (fun u hu => by rw [hc] at hu; exact hu) (fun u hu => by rw [hc]; exact hu) hr.elements (fun el hel m μ m' μ' g1 g2 g3 g4 u => by
        obtain ⟨n, f, params, X, kk, mm, kk', mm', ty, t1, t2, r1, r2, e1, e2, e3, e4, hf⟩ := tw el hel m μ m' μ' g1 g2 g3 g4
        rw [hone _ hel, Option.some.injEq] at t1
        subst t1
        simp only [Uel.eleFun, Except.ok.injEq] at t2
        subst t2
        obtain rfl : n = 2 := by
          rcases h.plane.types _ hel 6 (hone _ hel) with h6 | ⟨-, h6⟩
          · simp at h6
          · omega
        obtain ⟨rfl, rfl⟩ := truss_size hs h0 r1 r2
        rw [id, e1, e2, e3, e4, Matrix.smul_mulVec, dotProduct_smul, smul_eq_mul, Matrix.smul_mulVec, dotProduct_smul, smul_eq_mul]
        exact ⟨rfl, rfl, rfl, rfl⟩) k k' hk
    rw [key]
    field_simp

theorem UniformBar.vibrates {n : ℕ} {h E A ρ : ℝ} (hb : UniformBar d n h E A ρ) (hs : SqrtFn sq) (hh : 0 < h) (hA : 0 < A) (hρ : 0 < ρ) :
    ∃ (neq : ℕ) (Kg Mg : Matrix (Fin neq) (Fin neq) ℝ) (ks ms : List (Member ℝ)) (w : Fin neq → ℝ) (φ : Fin neq → Fin neq → ℝ),
      Vibrating sq d ks ms Kg Mg ∧ Modes Kg Mg w φ := by
  obtain ⟨op, bc, neq, Kg, Mg, h1, h2⟩ := C116_assembled hb hs hh
  obtain ⟨ks, ms, hv⟩ := hb.vibrating hs hh hA hρ h1 h2
  obtain ⟨w, φ, hm, -⟩ := C119_modes hs hv
  exact ⟨neq, Kg, Mg, ks, ms, w, φ, hv, hm⟩

theorem testBar_physical (n : ℕ) {h E A ρ : ℝ} (hE : 0 ≤ E) (hA : 0 ≤ A) : Physical (testBar n h E A ρ) := by
  intro el hel ty mi q params h1 h2 h3 h4
  obtain ⟨e, he, rfl⟩ := List.mem_map.1 hel
  have ht : ty = 6 := by simpa [eq_comm] using h1
  refine ⟨fun h => absurd ht h, fun _ => ⟨E, A, [ρ], ?_, mul_nonneg hE hA⟩⟩
  have hq : q = 0 := by
    have := h3.1
    simpa [testBar] using this
  subst hq
  simpa [testBar, eq_comm] using h4

/-- Twice the modulus and three times the density. -/
example : ∃ neq neq' : ℕ, ∃ (w : Fin neq → ℝ) (w' : Fin neq' → ℝ) (Kg Mg : Matrix (Fin neq) (Fin neq) ℝ)
    (Kg' Mg' : Matrix (Fin neq') (Fin neq') ℝ) (φ : Fin neq → Fin neq → ℝ) (φ' : Fin neq' → Fin neq' → ℝ) (ks ms ks' ms' : List (Member ℝ)),
    Vibrating Real.sqrt (testBar 3 1 1 1 1) ks ms Kg Mg ∧ Modes Kg Mg w φ ∧
    Vibrating Real.sqrt { testBar 3 1 1 1 1 with mats := [[2 * 1, 1, 3]] } ks' ms' Kg' Mg' ∧ Modes Kg' Mg' w' φ' ∧
    ∀ (k : Fin neq) (k' : Fin neq'), (k : ℕ) = k' → w' k' = 2 / 3 * w k := by
  obtain ⟨neq, Kg, Mg, ks, ms, w, φ, hv, hm⟩ := (testBar_uniform 3 1 1 1 1).vibrates sqrtFn_real one_pos one_pos one_pos
  obtain ⟨neq', Kg', Mg', ks', ms', w', φ', hv', hm'⟩ := (testBar_uniform 3 1 (2 * 1) 1 3).vibrates sqrtFn_real one_pos one_pos (by norm_num)
  refine ⟨neq, neq', w, w', Kg, Mg, Kg', Mg', φ, φ', ks, ms, ks', ms', hv, hm, hv', hm', fun k k' hk => ?_⟩
  refine C120_proportional sqrtFn_real hv hm (mats' := [[2 * 1, 1, 3]]) hv' hm' (testBar_physical 3 zero_le_one zero_le_one) (by norm_num)
    (by norm_num) (.cons ⟨2, 3, 1, 1, [1], [3], le_rfl, le_rfl, le_rfl, le_rfl, rfl, rfl, by simp⟩ .nil) k k' hk

/-- The bar twice as long. -/
example : ∃ neq neq' : ℕ, ∃ (w : Fin neq → ℝ) (w' : Fin neq' → ℝ) (Kg Mg : Matrix (Fin neq) (Fin neq) ℝ)
    (Kg' Mg' : Matrix (Fin neq') (Fin neq') ℝ) (φ : Fin neq → Fin neq → ℝ) (φ' : Fin neq' → Fin neq' → ℝ) (ks ms ks' ms' : List (Member ℝ)),
    Vibrating Real.sqrt (testBar 3 1 1 1 1) ks ms Kg Mg ∧ Modes Kg Mg w φ ∧
    Vibrating Real.sqrt (testBar 3 2 1 1 1) ks' ms' Kg' Mg' ∧ Modes Kg' Mg' w' φ' ∧ ∀ (k : Fin neq) (k' : Fin neq'), (k : ℕ) = k' → w' k' = w k / 4 := by
  obtain ⟨neq, Kg, Mg, ks, ms, w, φ, hv, hm⟩ := (testBar_uniform 3 1 1 1 1).vibrates sqrtFn_real one_pos one_pos one_pos
  obtain ⟨neq', Kg', Mg', ks', ms', w', φ', hv', hm'⟩ := (testBar_uniform 3 2 1 1 1).vibrates sqrtFn_real two_pos one_pos one_pos
  refine ⟨neq, neq', w, w', Kg, Mg, Kg', Mg', φ, φ', ks, ms, ks', ms', hv, hm, hv', hm', fun k k' hk => ?_⟩
  have hr : Magnified 2 (testBar 3 1 1 1 1) (testBar 3 2 1 1 1) := by
    refine ⟨rfl, rfl, rfl, rfl, rfl, hv'.plane.nodes, fun p hp i => ?_⟩
    have hp : p < 4 := hp
    rcases (by omega : p = 0 ∨ p = 1 ∨ p = 2 ∨ p = 3) with rfl | rfl | rfl | rfl <;>
      fin_cases i <;> (simp [coordOf, fieldOf, testBar, entry, List.range_succ]; try norm_num)
  have := C120_size sqrtFn_real hv hm hv' hm' (testBar_physical 3 zero_le_one zero_le_one) two_pos hr (.inr fun el hel => by
    obtain ⟨e, he, rfl⟩ := List.mem_map.1 hel
    rfl) k k' hk
  rw [this]
  norm_num

/-- The bar elsewhere. -/
example : ∃ neq neq' : ℕ, ∃ (w : Fin neq → ℝ) (w' : Fin neq' → ℝ) (Kg Mg : Matrix (Fin neq) (Fin neq) ℝ)
    (Kg' Mg' : Matrix (Fin neq') (Fin neq') ℝ) (φ : Fin neq → Fin neq → ℝ) (φ' : Fin neq' → Fin neq' → ℝ) (ks ms ks' ms' : List (Member ℝ)),
    Vibrating Real.sqrt (testBar 3 1 1 1 1) ks ms Kg Mg ∧ Modes Kg Mg w φ ∧
    Vibrating Real.sqrt { testBar 3 1 1 1 1 with nodes := [[0, 5, 7], [1, 6, 7], [2, 7, 7], [3, 8, 7]] } ks' ms' Kg' Mg' ∧
    Modes Kg' Mg' w' φ' ∧ ∀ (k : Fin neq) (k' : Fin neq'), (k : ℕ) = k' → w' k' = w k := by
  have hb : UniformBar { testBar 3 1 1 1 1 with nodes := [[0, 5, 7], [1, 6, 7], [2, 7, 7], [3, 8, 7]] } 3 1 1 1 1 := by
    have := testBar_uniform 3 1 1 1 1
    refine ⟨rfl, ⟨5, 7, fun p hp => ⟨p, ?_⟩⟩, this.bars, this.bar, this.material, this.rows, this.fixed, this.inner⟩
    rcases (by omega : p = 0 ∨ p = 1 ∨ p = 2 ∨ p = 3) with rfl | rfl | rfl | rfl <;> simp <;> norm_num
  obtain ⟨neq, Kg, Mg, ks, ms, w, φ, hv, hm⟩ := (testBar_uniform 3 1 1 1 1).vibrates sqrtFn_real one_pos one_pos one_pos
  obtain ⟨neq', Kg', Mg', ks', ms', w', φ', hv', hm'⟩ := hb.vibrates sqrtFn_real one_pos one_pos one_pos
  refine ⟨neq, neq', w, w', Kg, Mg, Kg', Mg', φ, φ', ks, ms, ks', ms', hv, hm, hv', hm', fun k k' hk => ?_⟩
  refine C120_place sqrtFn_real hv hm hv' hm' (testBar_physical 3 zero_le_one zero_le_one) (Q := 1) (t := ![5, 7]) ?_ (by simp) (by simp) k k' hk
  refine ⟨rfl, rfl, rfl, hv'.plane.nodes, fun p hp i => ?_, by simp [testBar], by simp [testBar], supports_one _⟩
  have hp : p < 4 := hp
  rcases (by omega : p = 0 ∨ p = 1 ∨ p = 2 ∨ p = 3) with rfl | rfl | rfl | rfl <;>
    revert i <;> refine Fin.forall_fin_two.2 ⟨?_, ?_⟩ <;> simp [coordOf, fieldOf, testBar, entry, List.range_succ] <;> norm_num

/-- The bar held at an inner node too. -/
example : ∃ neq neq' : ℕ, ∃ (w : Fin neq → ℝ) (w' : Fin neq' → ℝ) (Kg Mg : Matrix (Fin neq) (Fin neq) ℝ)
    (Kg' Mg' : Matrix (Fin neq') (Fin neq') ℝ) (φ : Fin neq → Fin neq → ℝ) (φ' : Fin neq' → Fin neq' → ℝ) (ks ms ks' ms' : List (Member ℝ)),
    Vibrating Real.sqrt (testBar 3 1 1 1 1) ks ms Kg Mg ∧ Modes Kg Mg w φ ∧
    Vibrating Real.sqrt { testBar 3 1 1 1 1 with cons := [[-1, -1], [0, -1], [-1, -1], [-1, -1]] } ks' ms' Kg' Mg' ∧
    Modes Kg' Mg' w' φ' ∧ ∀ (k : Fin neq) (k' : Fin neq'), (k : ℕ) = k' → w k ≤ w' k' := by
  obtain ⟨neq, Kg, Mg, ks, ms, w, φ, hv, hm⟩ := (testBar_uniform 3 1 1 1 1).vibrates sqrtFn_real one_pos one_pos one_pos
  have hfree : ∀ p j, Free [[(-1 : ℝ), -1], [0, -1], [-1, -1], [-1, -1]] 2 p j → p = 1 ∧ j = 0 := by
    rintro p j ⟨hj, x, hx, h1, h2⟩
    have hp : p < 4 := by
      obtain ⟨row, h3, -⟩ := entry_some.1 hx
      exact (List.getElem?_eq_some_iff.1 h3).1
    rcases (by omega : j = 0 ∨ j = 1) with rfl | rfl <;>
      rcases (by omega : p = 0 ∨ p = 1 ∨ p = 2 ∨ p = 3) with rfl | rfl | rfl | rfl <;> first
      | exact ⟨rfl, rfl⟩
      | (exfalso; simp [entry] at hx; subst hx; norm_num at h1)
  have hc : ∀ p j, Free [[(-1 : ℝ), -1], [0, -1], [-1, -1], [-1, -1]] 2 p j → Free (testBar 3 1 1 1 1).cons 2 p j := by
    intro p j hf
    obtain ⟨rfl, rfl⟩ := hfree p j hf
    exact (testBar_uniform 3 1 1 1 1).free_iff.2 ⟨rfl, by omega, by omega⟩
  have hwf : WellFormed { testBar 3 1 1 1 1 with cons := [[-1, -1], [0, -1], [-1, -1], [-1, -1]] } := by
    refine ⟨?_, by simp, rfl⟩
    intro i j x hj hx
    obtain ⟨row, h1, h2⟩ := entry_some.1 hx
    have hr := List.mem_of_getElem? h1
    have hx := List.mem_of_getElem? h2
    simp at hr
    rcases hr with rfl | rfl | rfl <;> simp at hx <;> simp [hx]
  obtain ⟨neq', Kg', Mg', ms', hv'⟩ := exists_vibrating (d := { testBar 3 1 1 1 1 with cons := [[-1, -1], [0, -1], [-1, -1], [-1, -1]] })
    ⟨hv.plane.nodes, hv.plane.types⟩ hwf hv.springs hv.massive fun p j hf => hv.used p j (hc p j hf)
  obtain ⟨w', φ', hm', -⟩ := C119_modes sqrtFn_real hv'
  exact ⟨neq, neq', w, w', Kg, Mg, Kg', Mg', φ, φ', ks, ms, ks, ms', hv, hm, hv', hm', fun k k' hk =>
    C120_supports sqrtFn_real hv hm hv' hm' hc k k' hk⟩

end
end SolidsPy
