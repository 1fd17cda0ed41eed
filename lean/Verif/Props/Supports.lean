import Verif.Props.Success
import Verif.Props.Modes
import Verif.Spec.Motion

/-! # C95: a connected mesh is stable when its supports prevent rigid motions -/

set_option linter.unusedSectionVars false

namespace SolidsPy
open Spec Assem Matrix

section
variable {K : Type} [Field K] [LinearOrder K] [IsStrictOrderedRing K] [FloorRing K]
variable {sq : K → K} {sp de : Sol.Solver K} {d : Gui.Data K} {plot : Bool} {res : Gui.Result K}
  {ms : List (Member K)}

/-- A mesh of plane elements: firm elements, positive stiffness, every node used, and connected. -/
structure SolidMesh (sq : K → K) (d : Gui.Data K) (ms : List (Member K)) : Prop where
  nodes : ∀ r ∈ d.nodes, r.length = 3
  members : Members sq d ms
  firm : ∀ el ∈ d.elements, Firm d.nodes el
  elastic : ∀ el ∈ d.elements, ∀ mi q params, el[2]? = some mi → Resolves d.mats.length mi q →
    d.mats[q]? = some params → ∃ E nu rest, params = E :: nu :: rest ∧ 0 < E ∧ -1 < nu ∧ nu < 1 ∧
      ∀ ρ ∈ rest.getLast?, 0 ≤ ρ
  used : ∀ p < d.nodes.length, ∃ m ∈ ms, p ∈ m.nodes
  connected : Connected d.nodes ms

theorem SolidMesh.plane (h : SolidMesh sq d ms) : PlaneModel d where
  nodes := h.nodes
  types := by
    intro el hel ty hty
    left
    rcases h.firm el hel ty hty with rfl | rfl | ⟨rfl, _⟩ | ⟨rfl, _⟩ <;> simp

theorem SolidMesh.physical (h : SolidMesh sq d ms) : Physical d := by
  intro el hel ty mi q params h1 h2 h3 h4
  obtain ⟨E, nu, rest, e, a, b, c, f⟩ := h.elastic el hel mi q params h2 h3 h4
  refine ⟨fun _ => ⟨E, nu, rest, e, a.le, b, c, f⟩, fun ht => ?_⟩
  rcases h.firm el hel ty h1 with rfl | rfl | ⟨rfl, _⟩ | ⟨rfl, _⟩ <;> omega

/-- The matrix of a plane rigid motion. -/
theorem motion_of_skew {c : Fin 2 → K} {G : Matrix (Fin 2) (Fin 2) K} (hG : Skew G) (nodes : Table K)
    (p : ℕ) (j : Fin 2) :
    affine c G (fun i => coordOf nodes p i) j = (⟨c 0, c 1, G 1 0⟩ : Motion K).move nodes p j := by
  have h0 := skew_diag hG 0
  have h1 := skew_diag hG 1
  have h2 := hG 0 1
  unfold affine Motion.move
  rw [Fin.sum_univ_two]
  fin_cases j
  · simp [h0, h2]
    ring
  · simp [h1]

theorem motion_skew (g : Motion K) (nodes : Table K) : ∃ c G, Skew G ∧ ∀ p (j : Fin 2),
    g.move nodes p j = affine c G (fun i => coordOf nodes p i) j := by
  have hG : Skew (!![0, -g.spin; g.spin, 0] : Matrix (Fin 2) (Fin 2) K) := by
    intro i j
    fin_cases i <;> fin_cases j <;> simp
  exact ⟨![g.x, g.y], _, hG, fun p j => by rw [motion_of_skew hG]; rfl⟩

theorem motion_ext {g g' : Motion K} {nodes : Table K} {p q : ℕ} (h : Apart nodes p q)
    (hp : ∀ j < 2, g.move nodes p j = g'.move nodes p j)
    (hq : ∀ j < 2, g.move nodes q j = g'.move nodes q j) : g = g' := by
  have p0 := hp 0 (by omega)
  have p1 := hp 1 (by omega)
  have q0 := hq 0 (by omega)
  have q1 := hq 1 (by omega)
  simp only [Motion.move, if_true, one_ne_zero, if_false] at p0 p1 q0 q1
  have hw : g.spin = g'.spin := by
    by_contra hne
    have hne := sub_ne_zero.2 hne
    rcases h with h | h
    · apply h
      apply mul_left_cancel₀ hne
      linear_combination p1 - q1
    · apply h
      apply mul_left_cancel₀ hne
      linear_combination q0 - p0
  obtain ⟨x, y, s⟩ := g
  obtain ⟨x', y', s'⟩ := g'
  simp only at p0 p1 hw
  subst hw
  simp only [Motion.mk.injEq, and_true]
  exact ⟨by linear_combination p0, by linear_combination p1⟩

/-- Each element of the mesh, with its null space. -/
theorem SolidMesh.rigid (h : SolidMesh sq d ms) {m : Member K} (hm : m ∈ ms) {u : ℕ → ℕ → K}
    (h0 : m.form 2 u u = 0) :
    ∃ g : Motion K, ∀ p ∈ m.nodes, ∀ j < 2, u p j = g.move d.nodes p j := by
  obtain ⟨i, hi, rfl⟩ := List.mem_iff_getElem.1 hm
  have hi' : i < d.elements.length := by rw [h.members.length_eq]; exact hi
  have hmem := h.members.get (i := i) hi' hi
  simp only [List.get_eq_getElem] at hmem
  have hel : d.elements[i] ∈ d.elements := List.getElem_mem hi'
  generalize d.elements[i] = el at hmem hel
  generalize ms[i] = m at hmem h0 hm ⊢
  have hmem' := hmem
  obtain ⟨ty, mi, q, params, n, f, X, k, mm, a1, a2, a3, a4, a5, hf, hr, hpl⟩ :=
    member_placed hmem h.nodes (h.plane.types _ hel)
  obtain ⟨E, nu, rest, rfl, hE, hn1, hn2, -⟩ := h.elastic el hel mi q params a3 a4 a5
  have hres : List.Forall₂ (Resolves d.nodes.length) (el.drop 3) m.nodes := by
    obtain ⟨_, _, _, _, _, _, _, _, _, _, b5, _⟩ := hmem'
    exact b5
  have hsize : ∀ {n' : ℕ}, PlaneElement n' f → n = n' := by
    intro n' hf'
    obtain ⟨A, B, hAB, _⟩ := hr
    obtain ⟨X', _, _, hX, _⟩ := C38_plane_shape hf' hAB
    have := congrArg List.length hX
    simpa [matRows] using this
  have straight : ∀ {ref : Fin n → K × K}, Straight d.nodes ref el →
      ∃ c A, AffineShape ref c A X := by
    rintro ref ⟨ps, c, A, hps, hA⟩
    have : ps = m.nodes := by
      have hh := hres
      clear * - hps hh
      generalize el.drop 3 = l at hps hh
      generalize m.nodes = l' at hh
      induction hps generalizing l' with
      | nil => cases hh; rfl
      | cons a t ih =>
        cases hh with
        | cons b t' => rw [ih _ t', resolves_unique a b]
    subst this
    refine ⟨c, A, fun a i => ?_⟩
    rw [← hA a i]
    unfold coordOf fieldOf
    rw [hpl.coord a i]
    rfl
  have hz : k.mulVec (m.pick n u) = 0 → ∃ g : Motion K, ∀ p ∈ m.nodes, ∀ j < 2, u p j = g.move d.nodes p j := by
    intro hz
    have : ∃ c G, Skew G ∧ m.pick n u = sample X (affine c G) := by
      rcases h.firm el hel ty a1 with rfl | rfl | ⟨rfl, hs⟩ | ⟨rfl, hs⟩ <;>
        (simp only [Uel.eleFun, Except.ok.injEq] at a2; subst a2)
      · obtain rfl := hsize .quad4
        exact (C94_quad4_null_space hr hE hn1 hn2 _).1 hz
      · obtain rfl := hsize .tri3
        exact (C41_tri3_null_space hr hE hn1 hn2 _).1 hz
      · obtain rfl := hsize .tri6
        obtain ⟨c, A, hA⟩ := straight hs
        exact (C94_quadratic_null_space .tri6 hr hE hn1 hn2 hA _).1 hz
      · obtain rfl := hsize .quad9
        obtain ⟨c, A, hA⟩ := straight hs
        exact (C94_quadratic_null_space .quad9 hr hE hn1 hn2 hA _).1 hz
    obtain ⟨c, G, hG, hu⟩ := this
    refine ⟨⟨c 0, c 1, G 1 0⟩, fun p hp j hj => ?_⟩
    obtain ⟨b, hb, rfl⟩ := List.mem_iff_getElem.1 hp
    have hb' : b < n := hpl.size ▸ hb
    have e := congrFun hu (⟨b, hb'⟩, ⟨j, hj⟩)
    have hget : m.nodes.getD b 0 = m.nodes[b] := by
      rw [List.getD_eq_getElem?_getD, List.getElem?_eq_getElem hb]
      rfl
    simp only [Member.pick, hget] at e
    rw [e, ← motion_of_skew hG d.nodes m.nodes[b] ⟨j, hj⟩]
    unfold sample
    dsimp only
    congr 1
    funext i
    unfold coordOf fieldOf
    have := hpl.coord ⟨b, hb'⟩ i
    dsimp only at this
    rw [hget] at this
    rw [this]
    rfl
  apply hz
  rw [hpl.form] at h0
  have hR : ∃ R, PlaneRule n f R := by
    rcases h.firm el hel ty a1 with rfl | rfl | ⟨rfl, hs⟩ | ⟨rfl, hs⟩ <;>
      (simp only [Uel.eleFun, Except.ok.injEq] at a2; subst a2)
    · obtain rfl := hsize .quad4
      exact ⟨_, .quad4⟩
    · obtain rfl := hsize .tri3
      exact ⟨_, .tri3⟩
    · obtain rfl := hsize .tri6
      exact ⟨_, .tri6⟩
    · obtain rfl := hsize .quad9
      exact ⟨_, .quad9⟩
  obtain ⟨R, hR⟩ := hR
  exact (C41_plane_zero_energy hR hr hE hn1 hn2 _).1.1 h0

/-- A rigid motion strains no element. -/
theorem SolidMesh.form_motion (hs : SqrtFn sq) (h : SolidMesh sq d ms) {m : Member K} (hm : m ∈ ms)
    (g : Motion K) : m.form 2 (g.move d.nodes) (g.move d.nodes) = 0 := by
  obtain ⟨i, hi, rfl⟩ := List.mem_iff_getElem.1 hm
  have hi' : i < d.elements.length := by rw [h.members.length_eq]; exact hi
  have hmem := h.members.get (i := i) hi' hi
  simp only [List.get_eq_getElem] at hmem
  obtain ⟨ty, mi, q, params, n, f, X, k, mm, -, -, -, -, -, hf, hr, hpl⟩ :=
    member_placed hmem h.nodes (h.plane.types _ (List.getElem_mem hi'))
  obtain ⟨c, G, hG, hv⟩ := motion_skew g d.nodes
  rw [hpl.form, hpl.rigid_pick c G _ hv, Structural.rigid hs hf hr c hG, dotProduct_zero]

/-- C95. A displacement field strains no element of a connected mesh exactly when the whole mesh moves as one
rigid body. -/
theorem C95_zero_energy (hs : SqrtFn sq) (h : SolidMesh sq d ms) (hne : ms ≠ []) (u : ℕ → ℕ → K) :
    (∀ m ∈ ms, m.form 2 u u = 0) ↔
      ∃ g : Motion K, ∀ p < d.nodes.length, ∀ j < 2, u p j = g.move d.nodes p j := by
  constructor
  · intro h0
    obtain ⟨m, hm⟩ := List.exists_mem_of_ne_nil _ hne
    obtain ⟨g, hg⟩ := h.rigid hm (h0 m hm)
    have all : ∀ m', m' ∈ ms → ∀ p ∈ m'.nodes, ∀ j < 2, u p j = g.move d.nodes p j := by
      intro m' hm'
      have path := h.connected m hm m' hm'
      clear hm'
      induction path with
      | refl => exact hg
      | tail _ st ih =>
        obtain ⟨hb, p, q, pa, qa, pb, qb, hap⟩ := st
        obtain ⟨g', hg'⟩ := h.rigid hb (h0 _ hb)
        have : g' = g := motion_ext hap
          (fun j hj => by rw [← hg' p pb j hj, ih p pa j hj])
          (fun j hj => by rw [← hg' q qb j hj, ih q qa j hj])
        exact this ▸ hg'
    refine ⟨g, fun p hp j hj => ?_⟩
    obtain ⟨m', hm', hpm⟩ := h.used p hp
    exact all m' hm' p hpm j hj
  · rintro ⟨g, hg⟩ m hm
    rw [← h.form_motion hs hm g]
    have hinn := members_inn h.members m hm
    have hat : ∀ a, a < m.nodes.length → ∀ j < 2, u (m.nodes.getD a 0) j =
        g.move d.nodes (m.nodes.getD a 0) j := by
      intro a ha j hj
      refine hg _ ?_ j hj
      rw [List.getD_eq_getElem?_getD, List.getElem?_eq_getElem ha, Option.getD_some]
      exact hinn _ (List.getElem_mem ha)
    unfold Member.form Member.force
    refine Finset.sum_congr rfl fun a ha => Finset.sum_congr rfl fun i hi => ?_
    rw [Finset.mem_range] at ha hi
    rw [hat a ha i hi]
    congr 1
    refine Finset.sum_congr rfl fun b hb => Finset.sum_congr rfl fun j hj => ?_
    rw [Finset.mem_range] at hb hj
    rw [hat b hb j hj]

/-- C95. A connected mesh is stable exactly when its supports prevent every rigid motion. -/
theorem C95_stable_iff (hs : SqrtFn sq) (h : SolidMesh sq d ms) (hwf : WellFormed d) :
    Stable d.cons 2 ms ↔ Supported d.cons d.nodes := by
  rw [C93_stable_iff hs h.plane hwf h.physical h.members]
  constructor
  · intro H g ha
    refine H _ ha (List.sum_eq_zero fun x hx => ?_)
    obtain ⟨m, hm, rfl⟩ := List.mem_map.1 hx
    exact h.form_motion hs hm g
  · intro H u ha h0 p j hp hj
    have hpsd := (C93_elements hs h.plane h.members).2 h.physical
    have hz : ∀ m ∈ ms, m.form 2 u u = 0 := by
      intro m hm
      refine List.all_zero_of_le_zero_le_of_sum_eq_zero (l := ms.map fun m => m.form 2 u u) (fun y hy => ?_) h0
        (List.mem_map.2 ⟨m, hm, rfl⟩)
      obtain ⟨m, hm, rfl⟩ := List.mem_map.1 hy
      exact hpsd m hm u
    rw [hwf.size] at hp
    obtain ⟨m, hm, _⟩ := h.used p hp
    obtain ⟨g, hg⟩ := (C95_zero_energy hs h (List.ne_nil_of_mem hm) u).1 hz
    rw [hg p hp j hj]
    rw [← hwf.size] at hg hp
    exact H g (fun p' j' hp' hj' hf => by rw [← hg p' hp' j' hj']; exact ha p' j' hp' hj' hf) p j hp hj

/-- C95. Two fixed nodes at different places prevent every rigid motion. -/
theorem C95_two_pins (hwf : WellFormed d) {p q : ℕ} (hp : p < d.nodes.length) (hq : q < d.nodes.length)
    (hpq : Apart d.nodes p q) (hfp : ∀ j < 2, ¬ Free d.cons 2 p j) (hfq : ∀ j < 2, ¬ Free d.cons 2 q j) :
    Supported d.cons d.nodes := by
  intro g ha r j hr hj
  rw [← hwf.size] at hp hq
  have : g = ⟨0, 0, 0⟩ := motion_ext hpq
    (fun j hj => by rw [ha p j hp hj (hfp j hj)]; unfold Motion.move; split <;> simp)
    (fun j hj => by rw [ha q j hq hj (hfq j hj)]; unfold Motion.move; split <;> simp)
  rw [this]
  unfold Motion.move
  split <;> simp

/-- C95. A fixed node and a roller whose line of action misses it prevent every rigid motion. -/
theorem C95_pin_roller (hwf : WellFormed d) {p q j : ℕ} (hp : p < d.nodes.length) (hq : q < d.nodes.length)
    (hj : j < 2) (hpq : coordOf d.nodes p (1 - j) ≠ coordOf d.nodes q (1 - j))
    (hfp : ∀ j < 2, ¬ Free d.cons 2 p j) (hfq : ¬ Free d.cons 2 q j) : Supported d.cons d.nodes := by
  intro g ha r i hr hi
  rw [← hwf.size] at hp hq
  have a0 := ha p 0 hp (by omega) (hfp 0 (by omega))
  have a1 := ha p 1 hp (by omega) (hfp 1 (by omega))
  have b := ha q j hq hj hfq
  have hw : g.spin = 0 := by
    have hne := sub_ne_zero.2 hpq
    have : j = 0 ∨ j = 1 := by omega
    rcases this with rfl | rfl
    · simp only [Motion.move, if_true] at a0 b
      apply (mul_eq_zero.1 (?_ : g.spin * _ = 0)).resolve_right hne
      simp only [Nat.sub_zero]
      linear_combination b - a0
    · simp only [Motion.move, one_ne_zero, if_false] at a1 b
      apply (mul_eq_zero.1 (?_ : g.spin * _ = 0)).resolve_right hne
      simp only [Nat.sub_self]
      linear_combination a1 - b
  simp only [Motion.move, hw, zero_mul, sub_zero, add_zero, if_true, one_ne_zero, if_false] at a0 a1 ⊢
  split
  · exact a0
  · exact a1

/-- C95. On a supported connected mesh with a free degree of freedom `solids_auto` returns a result for every
table of loads on existing nodes, without the equilibrium warning. -/
theorem C95_solids_auto (hs : SqrtFn sq) (h : SolidMesh sq d ms) (hwf : WellFormed d) (hsp : SolverOk sp)
    (hsup : Supported d.cons d.nodes) (hfree : ∃ p j, Free d.cons 2 p j)
    (hl : ∀ L ∈ d.loads, 3 ≤ L.length ∧ ∃ p, Names d.nodes.length L p) :
    ∃ res, Gui.solidsAuto sq sp de d false = .ok res ∧ res.warned = false := by
  have hst := (C95_stable_iff hs h hwf).2 hsup
  obtain ⟨res, hr⟩ := C93_solids_auto_returns (de := de) h.plane hwf hsp h.members hst hfree hl
  exact ⟨res, hr, C93_silent hwf hsp h.members hst
    ((C93_elements hs h.plane h.members).2 h.physical) hr⟩

end

end SolidsPy
