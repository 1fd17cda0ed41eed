import Verif.Props.PlateStrains
import Verif.Props.Run
import Verif.Model.Square

/-! # C145: the patch test through the whole program, and the first tutorial -/

set_option linter.unusedSectionVars false

namespace SolidsPy
open Spec Fem Uel Gauss Pre Assem Matrix

section
variable {K : Type} [Field K] [LinearOrder K] [IsStrictOrderedRing K] [FloorRing K]
variable {sq : K → K} {sp de : Sol.Solver K} {d : Gui.Data K} {plot : Bool} {res : Gui.Result K}
  {ms : List (Member K)} {E nu κ : K}

theorem UniformMesh.factor_ne (h : UniformMesh sq d ms E nu κ) : κ ≠ 0 := by
  rcases h.kind with ⟨rfl, -⟩ | ⟨rfl, -⟩
  · exact one_ne_zero
  · norm_num

/-- C145.  The patch test through the whole program.  A mesh of linear elements of any shape, of one kind and
material, whose supports allow a field of uniform strain, and whose loads are the tractions of the corresponding
uniform stress (half of the force of every outer side at each of its ends), is solved exactly up to the factor of
the rule: `solids_auto` returns that field for quadrilaterals, and the field over `0.999999999999` for triangles. -/
theorem C145_patch_test (hs : SqrtFn sq) (hm : SolidMesh sq d ms) (hu : UniformMesh sq d ms E nu κ)
    (hnd : (allSides ms).Nodup) (hwf : WellFormed d) (hsp : SolverOk sp) (hsup : Supported d.cons d.nodes)
    {C : Matrix (Fin 3) (Fin 3) K} (hC : umat [E, nu] = .ok C) (c : Fin 2 → K) (G : Matrix (Fin 2) (Fin 2) K)
    (hfix : ∀ p < d.nodes.length, ∀ j : Fin 2, ¬ Free d.cons 2 p j → affine c G (posOf d.nodes p) j = 0)
    (hload : ∀ p < d.nodes.length, ∀ j : Fin 2, Free d.cons 2 p j → IsLoad d.nodes.length d.loads p j
      (1 / 2 * ((outerSides ms).map (endForce d.nodes (C.mulVec (strainOf G)) p j)).sum))
    (hres : Gui.solidsAuto sq sp de d plot = .ok res) :
    ∀ p < d.nodes.length, ∀ j : Fin 2, entry res.disp p j = some (affine c G (posOf d.nodes p) j / κ) := by
  have hκ := hu.factor_ne
  have hst := (C95_stable_iff hs hm hwf).2 hsup
  let u : ℕ → ℕ → K := fun p j => if hj : j < 2 then affine c G (posOf d.nodes p) ⟨j, hj⟩ / κ else 0
  have hu1 : ∀ p (j : Fin 2), u p j = affine c G (posOf d.nodes p) j / κ := by
    intro p j
    simp only [u, j.2, dif_pos]
  have hu2 : ∀ p (j : Fin 2), u p j = affine (κ⁻¹ • c) (κ⁻¹ • G) (posOf d.nodes p) j := by
    intro p j
    rw [hu1]
    simp only [affine, Fin.sum_univ_two, Pi.smul_apply, Matrix.smul_apply, smul_eq_mul]
    field_simp
  have hG : strainOf (κ⁻¹ • G) = κ⁻¹ • strainOf G := by
    funext i
    fin_cases i <;> simp [strainOf, mul_add]
  have hend : ∀ p (j : Fin 2) e, endForce d.nodes (C.mulVec (strainOf (κ⁻¹ • G))) p j e =
      κ⁻¹ * endForce d.nodes (C.mulVec (strainOf G)) p j e := by
    intro p j e
    rw [hG, Matrix.mulVec_smul]
    unfold endForce
    have : ∀ a b, sideForce (κ⁻¹ • C.mulVec (strainOf G)) a b j = κ⁻¹ * sideForce (C.mulVec (strainOf G)) a b j := by
      intro a b
      fin_cases j <;> simp [sideForce] <;> ring
    simp only [this]
    split_ifs <;> ring
  have heq : Equilibrium d.cons 2 d.loads ms u := by
    constructor
    · intro p j hp hj hf
      rw [hu1 p ⟨j, hj⟩, hfix p (by rw [← hwf.size]; exact hp) ⟨j, hj⟩ hf, zero_div]
    · intro p j hf
      have hp : p < d.nodes.length := by
        rw [← hwf.size]
        exact free_lt hf
      have hj := hf.1
      have e : κ / 2 * ((outerSides ms).map
          (endForce d.nodes (C.mulVec (strainOf (κ⁻¹ • G))) p ⟨j, hj⟩)).sum =
          1 / 2 * ((outerSides ms).map (endForce d.nodes (C.mulVec (strainOf G)) p ⟨j, hj⟩)).sum := by
        rw [funext (hend p ⟨j, hj⟩), List.sum_map_mul_left]
        field_simp
      rw [C96_uniform_strain hu hnd hC _ _ hu2 p ⟨j, hj⟩, hwf.size, e]
      exact hload p hp ⟨j, hj⟩ hf
  intro p hp j
  rw [C19_only_equilibrium hwf hsp hm.members hst hres heq p j hp j.2, hu1]

/-- C145.  In a mesh of quadrilaterals that is solved so, the strains and stresses returned at every node are that
strain and its stress. -/
theorem C145_patch_strains (hs : SqrtFn sq) (hm : SolidMesh sq d ms) (hu : UniformMesh sq d ms E nu κ)
    (hquad : ∀ el ∈ d.elements, el[1]? = some 1 ∧ el[2]? = some 0) (hne : d.elements ≠ []) (hmat : d.mats = [[E, nu]])
    (hnd : (allSides ms).Nodup) (hwf : WellFormed d) (hsp : SolverOk sp) (hsup : Supported d.cons d.nodes)
    {C : Matrix (Fin 3) (Fin 3) K} (hC : umat [E, nu] = .ok C) (c : Fin 2 → K) (G : Matrix (Fin 2) (Fin 2) K)
    (hfix : ∀ p < d.nodes.length, ∀ j : Fin 2, ¬ Free d.cons 2 p j → affine c G (posOf d.nodes p) j = 0)
    (hload : ∀ p < d.nodes.length, ∀ j : Fin 2, Free d.cons 2 p j → IsLoad d.nodes.length d.loads p j
      (1 / 2 * ((outerSides ms).map (endForce d.nodes (C.mulVec (strainOf G)) p j)).sum))
    (hres : Gui.solidsAuto sq sp de d false = .ok res) :
    ∃ eps sig, Gui.solidsAutoStrains sq sp de d false = .ok (res, eps, sig) ∧
      ∀ p i, eps p i = some (strainOf G i) ∧ sig p i = some (C.mulVec (strainOf G) i) := by
  have h0 : 0 < d.elements.length := List.length_pos_iff.2 hne
  have hκ : κ = 1 := by
    rcases hu.kind with ⟨h, -⟩ | ⟨-, h⟩
    · exact h
    · have a := (hquad _ (List.getElem_mem h0)).1
      rw [h _ (List.getElem_mem h0)] at a
      simp at a
  have key := C145_patch_test hs hm hu hnd hwf hsp hsup hC c G hfix hload hres
  obtain ⟨eps, sig, hrun⟩ := C100_driver hm.nodes hm.members (.inl rfl) (fun el hel => (hquad el hel).1) hne
    (by rw [hmat]; simp) hres
  refine ⟨eps, sig, hrun, fun p i => ?_⟩
  have hsn := (C100_same_run.1 hrun).2
  have hsam : Samples d.nodes res.disp c G := by
    refine ⟨(disp_shape hres).1, ?_⟩
    intro v nd u hnd hu x y hx hy
    have hv : v < d.nodes.length := (List.getElem?_eq_some_iff.1 hnd).1
    have k0 := key v hv 0
    have k1 := key v hv 1
    have hp0 : posOf d.nodes v 0 = x := by simp [posOf, coordOf, fieldOf, entry, hnd, hx]
    have hp1 : posOf d.nodes v 1 = y := by simp [posOf, coordOf, fieldOf, entry, hnd, hy]
    simp only [entry, hu, Option.bind_some, affine, Fin.sum_univ_two, hp0, hp1, hκ, div_one] at k0 k1
    exact ⟨k0, k1⟩
  have ht := (hquad d.elements[0] (List.getElem_mem _)).1
  have hk : ∃ el ∈ d.elements, Lists d.nodes.length el p := by
    obtain ⟨m, hmem, hp⟩ := hm.used p p.2
    obtain ⟨i, hi, rfl⟩ := List.mem_iff_getElem.1 hmem
    have hi' : i < d.elements.length := by rw [hm.members.length_eq]; exact hi
    have hmi := hm.members.get (i := i) hi' hi
    simp only [List.get_eq_getElem] at hmi
    obtain ⟨_, _, _, _, _, _, _, _, _, _, a5, _⟩ := hmi
    obtain ⟨k, hk, hkp⟩ := List.mem_iff_getElem.1 hp
    have hk' : k < (d.elements[i].drop 3).length := by rw [a5.length_eq]; exact hk
    have r := a5.get (i := k) hk' hk
    simp only [List.get_eq_getElem, hkp] at r
    exact ⟨_, List.getElem_mem hi', _, List.getElem_mem hk', r⟩
  have hg : d.elements[0]? = some d.elements[0] := List.getElem?_eq_getElem h0
  refine ⟨C74_strain hsn hsam hg (.inl ht) hk i, C74_stress hsn hsam hg (.inl ht) hk ?_ i⟩
  intro el hel _
  exact ⟨0, [E, nu], pyGet_two.2 (hquad el hel).2, pyGet_zero.2 (by rw [hmat]; rfl), hC⟩

/-! ## The plate of the tutorial -/

/-- The nodes of the tutorial for a plate of side `2 a`: number, coordinates, supports. -/
def tutorialNodes (a : K) : Table K :=
  [[0, 0, 0, 0, -1], [1, 2 * a, 0, 0, -1], [2, 2 * a, 2 * a, 0, 0], [3, 0, 2 * a, 0, 0], [4, a, 0, -1, -1],
    [5, 2 * a, a, 0, 0], [6, a, 2 * a, 0, 0], [7, 0, a, 0, 0], [8, a, a, 0, 0]]

/-- The elements of the tutorial. -/
def tutorialEls : List (List ℤ) := [[0, 1, 0, 0, 4, 8, 7], [1, 1, 0, 4, 1, 5, 8], [2, 1, 0, 7, 8, 6, 3], [3, 1, 0, 8, 5, 2, 6]]

/-- The loads of the tutorial: `s` at the upper corners, twice that between them. -/
def tutorialLoads (s : K) : Table K := [[3, 0, s], [6, 0, 2 * s], [2, 0, s]]

/-- The model of the tutorial. -/
def tutorialData (a E nu s : K) : Gui.Data K := splitData (tutorialNodes a) [[E, nu]] tutorialEls (tutorialLoads s)

variable {a s : K}

theorem square_nodes (a E nu s : K) : (tutorialData a E nu s).nodes =
    [[0, 0, 0], [1, 2 * a, 0], [2, 2 * a, 2 * a], [3, 0, 2 * a], [4, a, 0], [5, 2 * a, a], [6, a, 2 * a], [7, 0, a],
      [8, a, a]] := rfl

theorem square_cons (a E nu s : K) : (tutorialData a E nu s).cons =
    [[0, -1], [0, -1], [0, 0], [0, 0], [-1, -1], [0, 0], [0, 0], [0, 0], [0, 0]] := rfl

theorem square_free (a E nu s : K) (p j : ℕ) : Free (tutorialData a E nu s).cons 2 p j ↔
    p < 9 ∧ j < 2 ∧ p ≠ 4 ∧ ¬ (j = 1 ∧ (p = 0 ∨ p = 1)) := by
  rw [square_cons]
  unfold Free entry
  by_cases hp : p < 9
  · by_cases hj : j < 2
    · interval_cases p <;> interval_cases j <;> simp
    · simp [hj]
  · simp [hp]

theorem square_wf (a E nu s : K) : WellFormed (tutorialData a E nu s) where
  codes := by
    intro v j x hj hx
    rw [square_cons] at hx
    have hv : v < 9 := by
      by_contra h
      unfold entry at hx
      rw [List.getElem?_eq_none (by simpa using h)] at hx
      simp at hx
    unfold entry at hx
    interval_cases v <;> interval_cases j <;> simp at hx <;> subst hx <;> simp
  width := by
    rw [square_cons]
    simp
  size := rfl

theorem square_member (a E nu s : K) (hnu : nu ^ 2 ≠ 1) (htol : 1e-8 < a ^ 2 / 4) {el : List ℤ}
    (hel : el ∈ tutorialEls) : ∃ m, IsMember (Routine sq) (tutorialData a E nu s).mats (tutorialData a E nu s).nodes el m ∧
      m.nodes = (el.drop 3).map Int.toNat := by
  obtain ⟨C, hC⟩ := (C35_returns_iff [E, nu]).2 ⟨E, nu, rfl, hnu⟩
  have key : ∀ x y : K, ∃ A B, elastQuad4 (matRows (!![x, y; x + a, y; x + a, y + a; x, y + a] : Matrix (Fin 4) (Fin 2) K))
      [E, nu] = .ok (A, B) := by
    intro x y
    obtain ⟨A, B, h, _⟩ := (returns_plane_lax .quad4 (by decide)
      (!![x, y; x + a, y; x + a, y + a; x, y + a] : Matrix (Fin 4) (Fin 2) K) _ _ _).2
      ⟨C, _, mat2_cons.2 ⟨by simp, hC, rfl⟩, fun z hz => by
        obtain ⟨p, -, rfl⟩ := List.mem_map.1 hz
        unfold at2 jdet
        rw [quad4_det]
        convert htol using 1
        simp
        ring, rfl, rfl⟩
    exact ⟨A, B, h⟩
  have rows : ∀ x y : K, matRows (!![x, y; x + a, y; x + a, y + a; x, y + a] : Matrix (Fin 4) (Fin 2) K) =
      [[x, y], [x + a, y], [x + a, y + a], [x, y + a]] := by
    intro x y
    simp [matRows, List.ofFn_succ]
  have r9 : ∀ p : ℕ, p < 9 → Resolves (tutorialData a E nu s).nodes.length (p : ℤ) p := fun p hp => ⟨hp, .inl rfl⟩
  simp only [tutorialEls, List.mem_cons, List.not_mem_nil, or_false] at hel
  rcases hel with rfl | rfl | rfl | rfl
  · obtain ⟨A, B, h⟩ := key 0 0
    rw [rows] at h
    simp only [zero_add] at h
    exact ⟨⟨[0, 4, 8, 7], cell A⟩, ⟨1, 0, _, _, elastQuad4, A, B, rfl, rfl, ⟨0, ⟨Nat.one_pos, .inl rfl⟩, rfl⟩,
      .cons (r9 0 (by omega)) (.cons (r9 4 (by omega)) (.cons (r9 8 (by omega)) (.cons (r9 7 (by omega)) .nil))),
      .cons rfl (.cons rfl (.cons rfl (.cons rfl .nil))), rfl, h, rfl⟩, rfl⟩
  · obtain ⟨A, B, h⟩ := key a 0
    rw [rows] at h
    simp only [zero_add, ← two_mul] at h
    exact ⟨⟨[4, 1, 5, 8], cell A⟩, ⟨1, 0, _, _, elastQuad4, A, B, rfl, rfl, ⟨0, ⟨Nat.one_pos, .inl rfl⟩, rfl⟩,
      .cons (r9 4 (by omega)) (.cons (r9 1 (by omega)) (.cons (r9 5 (by omega)) (.cons (r9 8 (by omega)) .nil))),
      .cons rfl (.cons rfl (.cons rfl (.cons rfl .nil))), rfl, h, rfl⟩, rfl⟩
  · obtain ⟨A, B, h⟩ := key 0 a
    rw [rows] at h
    simp only [zero_add, ← two_mul] at h
    exact ⟨⟨[7, 8, 6, 3], cell A⟩, ⟨1, 0, _, _, elastQuad4, A, B, rfl, rfl, ⟨0, ⟨Nat.one_pos, .inl rfl⟩, rfl⟩,
      .cons (r9 7 (by omega)) (.cons (r9 8 (by omega)) (.cons (r9 6 (by omega)) (.cons (r9 3 (by omega)) .nil))),
      .cons rfl (.cons rfl (.cons rfl (.cons rfl .nil))), rfl, h, rfl⟩, rfl⟩
  · obtain ⟨A, B, h⟩ := key a a
    rw [rows] at h
    simp only [← two_mul] at h
    exact ⟨⟨[8, 5, 2, 6], cell A⟩, ⟨1, 0, _, _, elastQuad4, A, B, rfl, rfl, ⟨0, ⟨Nat.one_pos, .inl rfl⟩, rfl⟩,
      .cons (r9 8 (by omega)) (.cons (r9 5 (by omega)) (.cons (r9 2 (by omega)) (.cons (r9 6 (by omega)) .nil))),
      .cons rfl (.cons rfl (.cons rfl (.cons rfl .nil))), rfl, h, rfl⟩, rfl⟩

theorem square_pos (a E nu s : K) : ∀ p < 9, posOf (tutorialData a E nu s).nodes p =
    ((![![0, 0], ![2 * a, 0], ![2 * a, 2 * a], ![0, 2 * a], ![a, 0], ![2 * a, a], ![a, 2 * a], ![0, a], ![a, a]] :
      Fin 9 → Fin 2 → K) (Fin.ofNat 9 p)) := by
  intro p hp
  funext i
  rw [square_nodes]
  unfold posOf coordOf fieldOf entry
  interval_cases p <;> fin_cases i <;> rfl

theorem square_mesh (htol : 1e-8 < a ^ 2 / 4) (hE : 0 < E) (h1 : -1 < nu) (h2 : nu < 1) :
    ∃ ms, SolidMesh sq (tutorialData a E nu s) ms ∧ UniformMesh sq (tutorialData a E nu s) ms E nu 1 ∧
      ms.map Member.nodes = [[0, 4, 8, 7], [4, 1, 5, 8], [7, 8, 6, 3], [8, 5, 2, 6]] := by
  have hnu : nu ^ 2 ≠ 1 := by nlinarith
  have ha : a ≠ 0 := by
    rintro rfl
    norm_num at htol
  obtain ⟨m0, e0, n0⟩ := square_member (sq := sq) a E nu s hnu htol (List.mem_of_getElem? (i := 0) rfl)
  obtain ⟨m1, e1, n1⟩ := square_member (sq := sq) a E nu s hnu htol (List.mem_of_getElem? (i := 1) rfl)
  obtain ⟨m2, e2, n2⟩ := square_member (sq := sq) a E nu s hnu htol (List.mem_of_getElem? (i := 2) rfl)
  obtain ⟨m3, e3, n3⟩ := square_member (sq := sq) a E nu s hnu htol (List.mem_of_getElem? (i := 3) rfl)
  have hms : Members sq (tutorialData a E nu s) [m0, m1, m2, m3] := .cons e0 (.cons e1 (.cons e2 (.cons e3 .nil)))
  change m0.nodes = [0, 4, 8, 7] at n0
  change m1.nodes = [4, 1, 5, 8] at n1
  change m2.nodes = [7, 8, 6, 3] at n2
  change m3.nodes = [8, 5, 2, 6] at n3
  have hty : ∀ el ∈ (tutorialData a E nu s).elements, el[1]? = some 1 := by
    intro el hel
    change el ∈ tutorialEls at hel
    revert el
    decide
  have hmat : ∀ el ∈ (tutorialData a E nu s).elements, ∀ mi q params, el[2]? = some mi →
      Resolves (tutorialData a E nu s).mats.length mi q → (tutorialData a E nu s).mats[q]? = some params →
      params = [E, nu] := by
    intro el _ mi q params _ _ hp
    exact List.mem_singleton.1 (List.mem_of_getElem? hp)
  have hc : ∀ p < 9, ∀ q < 9, posOf (tutorialData a E nu s).nodes p ≠ posOf (tutorialData a E nu s).nodes q →
      Apart (tutorialData a E nu s).nodes p q := by
    intro p _ q _ h
    by_contra hn
    unfold Apart at hn
    push Not at hn
    apply h
    funext i
    fin_cases i
    · exact hn.1
    · exact hn.2
  have h48 : Apart (tutorialData a E nu s).nodes 4 8 := hc 4 (by omega) 8 (by omega) (by
    rw [square_pos a E nu s 4 (by omega), square_pos a E nu s 8 (by omega)]
    intro h
    exact ha (congrFun h 1).symm)
  have h78 : Apart (tutorialData a E nu s).nodes 7 8 := hc 7 (by omega) 8 (by omega) (by
    rw [square_pos a E nu s 7 (by omega), square_pos a E nu s 8 (by omega)]
    intro h
    exact ha (congrFun h 0).symm)
  have h58 : Apart (tutorialData a E nu s).nodes 5 8 := hc 5 (by omega) 8 (by omega) (by
    rw [square_pos a E nu s 5 (by omega), square_pos a E nu s 8 (by omega)]
    intro h
    have := congrFun h 0
    change 2 * a = a at this
    exact ha (by linear_combination this))
  refine ⟨[m0, m1, m2, m3], ⟨?_, hms, fun el hel ty h => ?_, ?_, ?_, ?_⟩, ⟨?_, hms, .inl ⟨rfl, hty⟩, ?_⟩, by
    simp [n0, n1, n2, n3]⟩
  · rw [square_nodes]; simp
  · rw [hty el hel, Option.some.injEq] at h
    exact .inl h.symm
  · intro el hel mi q params a1 a2 a3
    exact ⟨E, nu, [], hmat el hel mi q params a1 a2 a3, hE, h1, h2, by simp⟩
  · intro p hp
    change p < 9 at hp
    interval_cases p
    · exact ⟨m0, by simp, by simp [n0]⟩
    · exact ⟨m1, by simp, by simp [n1]⟩
    · exact ⟨m3, by simp, by simp [n3]⟩
    · exact ⟨m2, by simp, by simp [n2]⟩
    · exact ⟨m0, by simp, by simp [n0]⟩
    · exact ⟨m1, by simp, by simp [n1]⟩
    · exact ⟨m2, by simp, by simp [n2]⟩
    · exact ⟨m0, by simp, by simp [n0]⟩
    · exact ⟨m0, by simp, by simp [n0]⟩
  · let R : Member K → Member K → Prop := fun x y => y ∈ [m0, m1, m2, m3] ∧ Shares (tutorialData a E nu s).nodes x y
    have r01 : R m0 m1 := ⟨by simp, 4, 8, by simp [n0], by simp [n0], by simp [n1], by simp [n1], h48⟩
    have r10 : R m1 m0 := ⟨by simp, 4, 8, by simp [n1], by simp [n1], by simp [n0], by simp [n0], h48⟩
    have r02 : R m0 m2 := ⟨by simp, 7, 8, by simp [n0], by simp [n0], by simp [n2], by simp [n2], h78⟩
    have r20 : R m2 m0 := ⟨by simp, 7, 8, by simp [n2], by simp [n2], by simp [n0], by simp [n0], h78⟩
    have r13 : R m1 m3 := ⟨by simp, 5, 8, by simp [n1], by simp [n1], by simp [n3], by simp [n3], h58⟩
    have r31 : R m3 m1 := ⟨by simp, 5, 8, by simp [n3], by simp [n3], by simp [n1], by simp [n1], h58⟩
    have out : ∀ m ∈ [m0, m1, m2, m3], Relation.ReflTransGen R m0 m := by
      intro m hm
      simp only [List.mem_cons, List.not_mem_nil, or_false] at hm
      rcases hm with rfl | rfl | rfl | rfl
      · exact .refl
      · exact .single r01
      · exact .single r02
      · exact (Relation.ReflTransGen.single r01).tail r13
    have back : ∀ m ∈ [m0, m1, m2, m3], Relation.ReflTransGen R m m0 := by
      intro m hm
      simp only [List.mem_cons, List.not_mem_nil, or_false] at hm
      rcases hm with rfl | rfl | rfl | rfl
      · exact .refl
      · exact .single r10
      · exact .single r20
      · exact (Relation.ReflTransGen.single r31).tail r10
    intro m hm m' hm'
    exact (back m hm).trans (out m' hm')
  · rw [square_nodes]; simp
  · intro el hel mi q params a1 a2 a3
    exact ⟨[], hmat el hel mi q params a1 a2 a3⟩

theorem square_names (s : K) : (∀ q, Names 9 [3, 0, s] q ↔ q = 3) ∧ (∀ q, Names 9 [6, 0, 2 * s] q ↔ q = 6) ∧
    (∀ q, Names 9 [2, 0, s] q ↔ q = 2) :=
  ⟨fun _ => names_nat (by omega) (by simp), fun _ => names_nat (by omega) (by simp),
    fun _ => names_nat (by omega) (by simp)⟩

theorem square_load (s : K) (p : ℕ) (j : Fin 2) : IsLoad 9 (tutorialLoads s) p j
    (if j = 1 then (if p = 3 ∨ p = 2 then s else if p = 6 then 2 * s else 0) else 0) := by
  obtain ⟨n3, n6, n2⟩ := square_names s
  unfold tutorialLoads
  by_cases h2 : p = 2
  · subst h2
    refine .inr ⟨[[3, 0, s], [6, 0, 2 * s]], _, [], rfl, (n2 _).2 rfl, by simp, ?_⟩
    fin_cases j <;> simp
  · by_cases h6 : p = 6
    · subst h6
      refine .inr ⟨[[3, 0, s]], _, [[2, 0, s]], rfl, (n6 _).2 rfl, by simp [n2], ?_⟩
      fin_cases j <;> simp
    · by_cases h3 : p = 3
      · subst h3
        refine .inr ⟨[], _, [[6, 0, 2 * s], [2, 0, s]], rfl, (n3 _).2 rfl, by simp [n2, n6], ?_⟩
        fin_cases j <;> simp
      · refine .inl ⟨by simp [n2, n3, n6, h2, h3, h6], ?_⟩
        simp [h2, h3, h6]

theorem square_supported (ha : a ≠ 0) : Supported (tutorialData a E nu s).cons (tutorialData a E nu s).nodes := by
  refine C95_pin_roller (square_wf a E nu s) (p := 4) (q := 1) (j := 1) (show 4 < 9 by omega) (show 1 < 9 by omega)
    (by omega) ?_ ?_ ?_
  · change coordOf (tutorialData a E nu s).nodes 4 0 ≠ coordOf (tutorialData a E nu s).nodes 1 0
    change a ≠ 2 * a
    intro h
    exact ha (by linear_combination -h)
  · intro j _
    rw [square_free]
    simp
  · rw [square_free]
    simp

/-- The displacement field of the tutorial. -/
def squareC (a E nu s : K) : Fin 2 → K := ![nu * (2 * s / a) / E * a, 0]

/-- Its gradient. -/
def squareG (a E nu s : K) : Matrix (Fin 2) (Fin 2) K := !![-(nu * (2 * s / a) / E), 0; 0, 2 * s / a / E]

theorem square_stress (hE : E ≠ 0) {C : Matrix (Fin 3) (Fin 3) K} (hC : umat [E, nu] = .ok C) :
    C.mulVec (strainOf (squareG a E nu s)) = ![0, 2 * s / a, 0] := by
  obtain ⟨E', nu', e1, e2, rfl⟩ := umat_ok.1 hC
  simp only [List.cons.injEq, and_true] at e1
  obtain ⟨rfl, rfl⟩ := e1
  unfold squareG
  generalize 2 * s / a = σ
  funext i
  fin_cases i <;> simp [Matrix.mulVec, dotProduct, Fin.sum_univ_three, strainOf] <;> field_simp <;> ring

theorem square_outer (hn : ms.map Member.nodes = [[0, 4, 8, 7], [4, 1, 5, 8], [7, 8, 6, 3], [8, 5, 2, 6]]) :
    (allSides ms).Nodup ∧ outerSides ms = [(0, 4), (7, 0), (4, 1), (1, 5), (6, 3), (3, 7), (5, 2), (2, 6)] := by
  have : allSides ms = [(0, 4), (4, 8), (8, 7), (7, 0), (4, 1), (1, 5), (5, 8), (8, 4), (7, 8), (8, 6), (6, 3), (3, 7),
      (8, 5), (5, 2), (2, 6), (6, 8)] := by
    have e : allSides ms = (ms.map Member.nodes).flatMap fun l => l.zip (l.drop 1 ++ l.take 1) := by
      unfold allSides
      rw [List.flatMap_map]
    rw [e, hn]
    rfl
  refine ⟨by rw [this]; decide, ?_⟩
  unfold outerSides
  rw [this]
  decide

theorem square_fix (a E nu s : K) : ∀ p < (tutorialData a E nu s).nodes.length, ∀ j : Fin 2,
    ¬ Free (tutorialData a E nu s).cons 2 p j →
      affine (squareC a E nu s) (squareG a E nu s) (posOf (tutorialData a E nu s).nodes p) j = 0 := by
  intro p hp j hf
  change p < 9 at hp
  rw [square_free] at hf
  have : p = 4 ∨ (j = 1 ∧ (p = 0 ∨ p = 1)) := by
    by_contra h
    push Not at h
    refine hf ⟨hp, j.2, h.1, fun h' => ?_⟩
    have hj : j = 1 := Fin.ext h'.1
    rcases h'.2 with e | e
    · exact (h.2 hj).1 e
    · exact (h.2 hj).2 e
  unfold affine squareC squareG
  rcases this with rfl | ⟨rfl, rfl | rfl⟩
  · rw [show posOf (tutorialData a E nu s).nodes 4 = ![a, 0] from square_pos a E nu s 4 hp]
    generalize 2 * s / a = σ
    fin_cases j <;> simp [Fin.sum_univ_two]
  · rw [show posOf (tutorialData a E nu s).nodes 0 = ![0, 0] from square_pos a E nu s 0 hp]
    simp [Fin.sum_univ_two]
  · rw [show posOf (tutorialData a E nu s).nodes 1 = ![2 * a, 0] from square_pos a E nu s 1 hp]
    simp [Fin.sum_univ_two]

theorem square_loads (ha : a ≠ 0) (hn : ms.map Member.nodes = [[0, 4, 8, 7], [4, 1, 5, 8], [7, 8, 6, 3], [8, 5, 2, 6]]) :
    ∀ p < (tutorialData a E nu s).nodes.length, ∀ j : Fin 2, Free (tutorialData a E nu s).cons 2 p j →
      IsLoad (tutorialData a E nu s).nodes.length (tutorialData a E nu s).loads p j
        (1 / 2 * ((outerSides ms).map (endForce (tutorialData a E nu s).nodes ![0, 2 * s / a, 0] p j)).sum) := by
  intro p hp j hf
  change p < 9 at hp
  rw [square_free] at hf
  have := square_load s p j
  change IsLoad 9 (tutorialLoads s) p j _
  convert this using 1
  rw [(square_outer hn).2]
  simp only [List.map_cons, List.map_nil, List.sum_cons, List.sum_nil, endForce, square_pos a E nu s 0 (by omega),
    square_pos a E nu s 1 (by omega), square_pos a E nu s 2 (by omega), square_pos a E nu s 3 (by omega),
    square_pos a E nu s 4 (by omega), square_pos a E nu s 5 (by omega), square_pos a E nu s 6 (by omega),
    square_pos a E nu s 7 (by omega)]
  interval_cases p <;> fin_cases j <;> first
    | (exfalso; revert hf; decide)
    | (simp [sideForce, Fin.ofNat] <;> field_simp <;> ring)

theorem auto_neq (h : Gui.solidsAuto sq sp de d plot = .ok res) : ∃ bc, eqcounter d.cons = .ok (res.neq, bc) := by
  unfold Gui.solidsAuto at h
  simp only [bind_ok, Prod.exists] at h
  obtain ⟨op, bc, neq, h1, st, mm, h2, rhs, h3, u, h4, ok, h5, full, h6, h7⟩ := h
  refine ⟨bc, ?_⟩
  have : res.neq = neq := by
    split at h7
    · obtain ⟨pl, -, h8⟩ := bind_ok.1 h7
      rw [pure_ok] at h8
      rw [← h8]
    · obtain ⟨pl, -, h8⟩ := bind_ok.1 h7
      rw [pure_ok] at h8
      rw [← h8]
  rw [this]
  exact (dme_ok.1 h1).1

theorem square_eqs (a E nu s : K) : eqcounter (tutorialData a E nu s).cons =
    .ok (14, [[0, -1], [1, -1], [2, 3], [4, 5], [-1, -1], [6, 7], [8, 9], [10, 11], [12, 13]]) := by
  have h0 : pyTrunc (0 : K) = 0 := by simp [pyTrunc]
  have h1 : pyTrunc (-1 : K) = -1 := by
    have : ((-1 : ℤ) : K) = -1 := by norm_num
    unfold pyTrunc
    rw [if_neg (by norm_num), ← this, Int.ceil_intCast]
  unfold eqcounter
  simp only [square_cons, List.map_cons, List.map_nil, h0, h1]
  rfl

/-- C145.  The plate of the first tutorial, for every side `2 a` above the threshold of `jacoper`, material and load:
the run returns without the warning, it has 14 equations, and the displacements are exactly those of the uniform
tension `σ = 2 s / a`: `- ν σ / E (x - a)` and `σ / E y`. -/
theorem C145_square (hs : SqrtFn sq) (hsp : SolverOk sp) (htol : 1e-8 < a ^ 2 / 4) (hE : 0 < E) (h1 : -1 < nu)
    (h2 : nu < 1) :
    ∃ res, Gui.solidsAuto sq sp de (tutorialData a E nu s) false = .ok res ∧ res.warned = false ∧ res.neq = 14 ∧
      ∀ p < 9, ∀ row, (tutorialNodes a)[p]? = some row → ∀ x y, row[1]? = some x → row[2]? = some y →
        res.disp[p]? = some [-(nu * (2 * s / a) / E) * (x - a), 2 * s / a / E * y] := by
  have ha : a ≠ 0 := by
    rintro rfl
    norm_num at htol
  obtain ⟨ms, hm, hu, hn⟩ := square_mesh (sq := sq) (s := s) htol hE h1 h2
  obtain ⟨n3, n6, n2⟩ := square_names s
  obtain ⟨res, hres, hw⟩ := C95_solids_auto (de := de) hs hm (square_wf a E nu s) hsp (square_supported ha)
    ⟨2, 0, (square_free a E nu s 2 0).2 (by decide)⟩ (by
      intro L hL
      change L ∈ tutorialLoads s at hL
      simp only [tutorialLoads, List.mem_cons, List.not_mem_nil, or_false] at hL
      rcases hL with rfl | rfl | rfl
      · exact ⟨by simp, 3, (n3 3).2 rfl⟩
      · exact ⟨by simp, 6, (n6 6).2 rfl⟩
      · exact ⟨by simp, 2, (n2 2).2 rfl⟩)
  obtain ⟨bc, hbc⟩ := auto_neq hres
  have hneq : res.neq = 14 := by
    rw [square_eqs, Except.ok.injEq, Prod.mk.injEq] at hbc
    exact hbc.1.symm
  refine ⟨res, hres, hw, hneq, ?_⟩
  have hnu : nu ^ 2 ≠ 1 := by nlinarith
  obtain ⟨C, hC⟩ := (C35_returns_iff [E, nu]).2 ⟨E, nu, rfl, hnu⟩
  have hst := square_stress (a := a) (s := s) hE.ne' hC
  have key := C145_patch_test hs hm hu (square_outer hn).1 (square_wf a E nu s) hsp (square_supported ha) hC _ _
    (square_fix a E nu s) (by rw [hst]; exact square_loads ha hn) hres
  obtain ⟨hl, hw2⟩ := disp_shape hres
  intro p hp row hrow x y hx hy
  have k0 := key p hp 0
  have k1 := key p hp 1
  have hp' : p < res.disp.length := by rw [hl]; exact hp
  have hr2 := hw2 _ (List.getElem_mem hp')
  have e : res.disp[p]? = some res.disp[p] := List.getElem?_eq_getElem hp'
  rw [e, Option.some.injEq]
  generalize res.disp[p] = r at e hr2
  unfold entry at k0 k1
  rw [e, Option.bind_some] at k0 k1
  have hq : (tutorialData a E nu s).nodes[p]? = some (row.take 3) := by
    change ((tutorialNodes a).map (List.take 3))[p]? = _
    rw [List.getElem?_map, hrow, Option.map_some]
  have hp0 : posOf (tutorialData a E nu s).nodes p 0 = x := by simp [posOf, coordOf, fieldOf, entry, hq, hx]
  have hp1 : posOf (tutorialData a E nu s).nodes p 1 = y := by simp [posOf, coordOf, fieldOf, entry, hq, hy]
  obtain ⟨u, v, rfl⟩ := List.length_eq_two.1 hr2
  simp only [affine, Fin.sum_univ_two, hp0, hp1, div_one, squareC, squareG] at k0 k1
  simp at k0 k1
  rw [k0, k1]
  congr 1
  ring

/-- C145.  With strains, the plate of the tutorial has at every node the strain `(- ν σ / E, σ / E, 0)` and the stress
`(0, σ, 0)`. -/
theorem C145_square_strains (hs : SqrtFn sq) (hsp : SolverOk sp) (htol : 1e-8 < a ^ 2 / 4) (hE : 0 < E) (h1 : -1 < nu)
    (h2 : nu < 1) :
    ∃ res eps sig, Gui.solidsAutoStrains sq sp de (tutorialData a E nu s) false = .ok (res, eps, sig) ∧
      ∀ p i, eps p i = some ((![-(nu * (2 * s / a) / E), 2 * s / a / E, 0] : Fin 3 → K) i) ∧
        sig p i = some ((![0, 2 * s / a, 0] : Fin 3 → K) i) := by
  have ha : a ≠ 0 := by
    rintro rfl
    norm_num at htol
  obtain ⟨ms, hm, hu, hn⟩ := square_mesh (sq := sq) (s := s) htol hE h1 h2
  obtain ⟨res, hres, -⟩ := C145_square (s := s) (de := de) hs hsp htol hE h1 h2
  have hnu : nu ^ 2 ≠ 1 := by nlinarith
  obtain ⟨C, hC⟩ := (C35_returns_iff [E, nu]).2 ⟨E, nu, rfl, hnu⟩
  have hst := square_stress (a := a) (s := s) hE.ne' hC
  obtain ⟨eps, sig, h, key⟩ := C145_patch_strains hs hm hu (by
      intro el hel
      change el ∈ tutorialEls at hel
      revert el
      decide) (show tutorialEls ≠ [] by decide) rfl (square_outer hn).1 (square_wf a E nu s) hsp (square_supported ha) hC _ _
    (square_fix a E nu s) (by rw [hst]; exact square_loads ha hn) hres
  refine ⟨res, eps, sig, h, fun p i => ⟨(key p i).1.trans ?_, (key p i).2.trans (by rw [hst])⟩⟩
  fin_cases i <;> simp [strainOf, squareG]

theorem square_folder : FolderHolds Square.files [] (tutorialNodes (1 : ℚ)) [[1, 3 / 10]] tutorialEls (tutorialLoads (1 : ℚ)) :=
  C105_readin.1 (by decide +kernel)

/-- C145.  The folder of the first tutorial, as it is in the repository: 14 equations, no warning, and the
displacements are the numbers the tutorial prints. -/
theorem C145_files (hs : SqrtFn sq) (hsp : SolverOk sp) :
    ∃ res, Gui.solidsGUIFiles sq sp de Square.files [] false = .ok res ∧ res.warned = false ∧ res.neq = 14 ∧
      res.disp = [[0.6, 0], [-0.6, 0], [-0.6, 4], [0.6, 4], [0, 0], [-0.6, 2], [0, 4], [0.6, 2], [0, 2]] := by
  have hf := square_folder.cast (K := K)
  have hd : splitData ((tutorialNodes (1 : ℚ)).map (List.map ((↑) : ℚ → K))) ([[1, 3 / 10]].map (List.map ((↑) : ℚ → K)))
      tutorialEls ((tutorialLoads (1 : ℚ)).map (List.map ((↑) : ℚ → K))) = tutorialData 1 1 (3 / 10) 1 := by
    simp [splitData, tutorialData, tutorialNodes, tutorialLoads]
  have hrun := C105_same_as_memory (sq := sq) (sp := sp) (de := de) (plot := false) hf
  rw [hd] at hrun
  obtain ⟨res, hres, hw, hq, hdis⟩ := C145_square (sq := sq) (sp := sp) (de := de) (a := (1 : K)) (E := 1) (nu := 3 / 10)
    (s := 1) hs hsp (by norm_num) (by norm_num) (by norm_num) (by norm_num)
  refine ⟨res, by rw [hrun, hres], hw, hq, ?_⟩
  have hl : res.disp.length = 9 := (disp_shape hres).1
  apply List.ext_getElem?
  intro p
  by_cases hp : p < 9
  · have := fun row hrow x y => hdis p hp row hrow x y
    interval_cases p <;>
    · rw [this _ rfl _ _ rfl rfl]
      norm_num
  · rw [List.getElem?_eq_none (by omega), List.getElem?_eq_none (by simpa using hp)]

end

/-! ## The magnitudes the tutorial prints -/

section
open Square

theorem everyOther_get {α : Type} : ∀ (l : List α) (k : ℕ), (everyOther l)[k]? = l[2 * k]?
  | [], k => by simp [everyOther]
  | [a], 0 => rfl
  | [a], k + 1 => by simp [everyOther]
  | a :: b :: t, 0 => rfl
  | a :: b :: t, k + 1 => by
    rw [everyOther, List.getElem?_cons_succ, everyOther_get t k]
    rfl

theorem everyOther_length {α : Type} : ∀ l : List α, (everyOther l).length = (l.length + 1) / 2
  | [] => by simp [everyOther]
  | [a] => by simp [everyOther]
  | a :: b :: t => by
    rw [everyOther, List.length_cons, everyOther_length t, List.length_cons, List.length_cons]
    omega

theorem magnitude_even {α β : Type} (f : α → α → β) {l : List α} (h : 2 ∣ l.length) :
    ∃ w, magnitude f l = .ok w ∧ 2 * w.length = l.length ∧
      ∀ k x y, l[2 * k]? = some x → l[2 * k + 1]? = some y → w[k]? = some (f x y) := by
  have hl : (everyOther l).length = (everyOther (l.drop 1)).length := by
    rw [everyOther_length, everyOther_length, List.length_drop]
    omega
  refine ⟨_, if_pos hl, ?_, fun k x y hx hy => ?_⟩
  · rw [List.length_zipWith, everyOther_length, everyOther_length, List.length_drop]
    omega
  · rw [List.getElem?_zipWith, everyOther_get, everyOther_get, List.getElem?_drop, hx, Nat.add_comm 1, hy]

theorem magnitude_odd {α β : Type} (f : α → α → β) {l : List α} (h : ¬ 2 ∣ l.length) (h5 : 5 ≤ l.length) :
    magnitude f l = .error .valueError := by
  have ha := everyOther_length l
  have hb := everyOther_length (l.drop 1)
  rw [List.length_drop] at hb
  unfold magnitude
  generalize everyOther l = a at ha
  generalize everyOther (l.drop 1) = b at hb
  dsimp only
  rw [if_neg (by omega)]
  match a, b, ha, hb with
  | [], _, ha, _ => simp at ha; omega
  | _, [], _, hb => simp at hb; omega
  | _, [_], _, hb => simp at hb; omega
  | [_], _, ha, _ => simp at ha; omega
  | _ :: _ :: _, _ :: _ :: _, _, _ => rfl

variable {K : Type} [Field K] [LinearOrder K] [IsStrictOrderedRing K] [FloorRing K]
variable {sq : K → K} {sp de : Sol.Solver K} {d : Gui.Data K} {plot : Bool} {res : Gui.Result K}

/-- C145.  The lines of the tutorial on what `solids_GUI` returns now, a row per node: with an odd number of nodes from
five on they raise a `ValueError`. -/
theorem C145_magnitude_odd (h : Gui.solidsAuto sq sp de d plot = .ok res) (hn : ¬ 2 ∣ d.nodes.length)
    (h5 : 5 ≤ d.nodes.length) : magTable sq res.disp = .error .valueError := by
  have hl := (disp_shape h).1
  exact magnitude_odd _ (by rw [hl]; exact hn) (by omega)

/-- C145.  With an even number of nodes they join the same component of two successive nodes. -/
theorem C145_magnitude_even (h : Gui.solidsAuto sq sp de d plot = .ok res) (hn : 2 ∣ d.nodes.length) :
    ∃ w, magTable sq res.disp = .ok w ∧ 2 * w.length = d.nodes.length ∧
      ∀ k < w.length, ∀ j < 2, ∃ x y, entry res.disp (2 * k) j = some x ∧ entry res.disp (2 * k + 1) j = some y ∧
        entry w k j = some (sq (x ^ 2 + y ^ 2)) := by
  obtain ⟨hl, h2⟩ := disp_shape h
  obtain ⟨w, hw, hlen, hk⟩ := magnitude_even (fun r s : List K => List.zipWith (fun x y => sq (x ^ 2 + y ^ 2)) r s)
    (l := res.disp) (by rw [hl]; exact hn)
  refine ⟨w, hw, by rw [hlen, hl], fun k hkw j hj => ?_⟩
  have a1 : 2 * k < res.disp.length := by omega
  have a2 : 2 * k + 1 < res.disp.length := by omega
  have e1 : res.disp[2 * k]? = some res.disp[2 * k] := List.getElem?_eq_getElem a1
  have e2 : res.disp[2 * k + 1]? = some res.disp[2 * k + 1] := List.getElem?_eq_getElem a2
  have := hk k _ _ e1 e2
  have l1 := h2 _ (List.getElem_mem a1)
  have l2 := h2 _ (List.getElem_mem a2)
  unfold entry
  rw [e1, e2, this]
  generalize res.disp[2 * k] = r at l1
  generalize res.disp[2 * k + 1] = r' at l2
  refine ⟨r[j], r'[j], ?_, ?_, ?_⟩
  · simp [l1, hj]
  · simp [l2, hj]
  · simp [l1, l2, hj]

/-- C145.  On the vector of unknowns, which the tutorial prints, the lines join unknowns `2 k` and `2 k + 1`.  These are the
two components of one node for all `k` exactly if no node has one component free and the other fixed. -/
theorem C145_magnitude_vector {cons : Table K} {neq : ℕ} {bc : List (List ℤ)} (h : eqcounter cons = .ok (neq, bc)) :
    (2 ∣ neq ∧ ∀ k, 2 * k + 1 < neq → ∃ p, Free cons 2 p 0 ∧ Free cons 2 p 1 ∧
      entry bc p 0 = some ((2 * k : ℕ) : ℤ) ∧ entry bc p 1 = some ((2 * k + 1 : ℕ) : ℤ)) ↔
    ∀ p, Free cons 2 p 0 ↔ Free cons 2 p 1 := by
  obtain ⟨num, eqs⟩ := C01_numbering_bijective h
  have uniq : ∀ {i j i' j' k : ℕ}, Free cons 2 i j → Free cons 2 i' j' → entry bc i j = some (k : ℤ) →
      entry bc i' j' = some (k : ℤ) → i = i' ∧ j = j' := by
    intro i j i' j' k hf hf' he he'
    have hk : k < neq := by
      obtain ⟨k', hk', e⟩ := num i j hf
      rw [he, Option.some.injEq] at e
      omega
    obtain ⟨a, b, -, -, hab⟩ := eqs k hk
    obtain ⟨rfl, rfl⟩ := hab i j hf he
    obtain ⟨rfl, rfl⟩ := hab i' j' hf' he'
    exact ⟨rfl, rfl⟩
  constructor
  · rintro ⟨⟨m, rfl⟩, hp⟩ p
    have step : ∀ j < 2, Free cons 2 p j → Free cons 2 p 0 ∧ Free cons 2 p 1 := by
      intro j hj hf
      obtain ⟨k, hk, e⟩ := num p j hf
      obtain ⟨q, f0, f1, e0, e1⟩ := hp (k / 2) (by omega)
      rcases Nat.mod_two_eq_zero_or_one k with h0 | h0
      · rw [show 2 * (k / 2) = k by omega] at e0
        obtain ⟨rfl, -⟩ := uniq hf f0 e e0
        exact ⟨f0, f1⟩
      · rw [show 2 * (k / 2) + 1 = k by omega] at e1
        obtain ⟨rfl, -⟩ := uniq hf f1 e e1
        exact ⟨f0, f1⟩
    exact ⟨fun hf => (step 0 (by omega) hf).2, fun hf => (step 1 (by omega) hf).1⟩
  · intro hb
    have mono : ∀ {i j i' j' k k' : ℕ}, Free cons 2 i j → Free cons 2 i' j' → entry bc i j = some (k : ℤ) →
        entry bc i' j' = some (k' : ℤ) → Before i j i' j' → k < k' := by
      intro i j i' j' k k' hf hf' he he' hbef
      exact_mod_cast C01_numbering_row_major h hf hf' hbef he he'
    have next : ∀ {p k : ℕ}, Free cons 2 p 0 → entry bc p 0 = some (k : ℤ) → k + 1 < neq →
        entry bc p 1 = some ((k + 1 : ℕ) : ℤ) := by
      intro p k hf he hk
      obtain ⟨i, j, hf', he', -⟩ := eqs (k + 1) hk
      have hj := hf'.1
      rcases lt_trichotomy i p with hlt | rfl | hlt
      · have := mono hf' hf he' he (.inl hlt)
        omega
      · have : j = 0 ∨ j = 1 := by omega
        rcases this with rfl | rfl
        · rw [he, Option.some.injEq] at he'
          omega
        · exact he'
      · obtain ⟨m, hm, e⟩ := num p 1 ((hb p).1 hf)
        have b1 := mono hf ((hb p).1 hf) he e (.inr ⟨rfl, by omega⟩)
        have b2 := mono ((hb p).1 hf) hf' e he' (.inl hlt)
        omega
    have first : ∀ k, 2 * k < neq → ∃ p, Free cons 2 p 0 ∧ entry bc p 0 = some ((2 * k : ℕ) : ℤ) := by
      intro k hk
      obtain ⟨i, j, hf, he, -⟩ := eqs (2 * k) hk
      have hj := hf.1
      have : j = 0 ∨ j = 1 := by omega
      rcases this with rfl | rfl
      · exact ⟨i, hf, he⟩
      · exfalso
        have h0 := (hb i).2 hf
        obtain ⟨m, hm, e⟩ := num i 0 h0
        have lt := mono h0 hf e he (.inr ⟨rfl, by omega⟩)
        have := next h0 e (by omega)
        rw [he, Option.some.injEq] at this
        have hk1 : m + 1 = 2 * k := by exact_mod_cast this.symm
        induction k generalizing i m with
        | zero => omega
        | succ k ih =>
          obtain ⟨i', j', hf', he', -⟩ := eqs (2 * k) (by omega)
          have hj' := hf'.1
          have : j' = 0 ∨ j' = 1 := by omega
          rcases this with rfl | rfl
          · have h1 := next hf' he' (by omega)
            have hm1 : m = 2 * k + 1 := by omega
            rw [hm1] at e
            have := (uniq h0 ((hb i').1 hf') e h1).2
            omega
          · have h0' := (hb i').2 hf'
            obtain ⟨m', hm', e'⟩ := num i' 0 h0'
            have lt' := mono h0' hf' e' he' (.inr ⟨rfl, by omega⟩)
            have h1 := next h0' e' (by omega)
            have hk2 : m' + 1 = 2 * k := by
              rw [he', Option.some.injEq] at h1
              exact_mod_cast h1.symm
            exact ih (by omega) i' hf' he' h0' m' hm' e' lt' (by rw [hk2]) hk2
    constructor
    · by_contra hodd
      obtain ⟨p, hf, he⟩ := first (neq / 2) (by omega)
      obtain ⟨m, hm, e⟩ := num p 1 ((hb p).1 hf)
      have := mono hf ((hb p).1 hf) he e (.inr ⟨rfl, by omega⟩)
      omega
    · intro k hk
      obtain ⟨p, hf, he⟩ := first k (by omega)
      exact ⟨p, hf, (hb p).1 hf, he, next hf he hk⟩

/-- The vector the tutorial prints. -/
def printed : List K := [0.6, -0.6, -0.6, 4, 0.6, 4, -0.6, 2, 0, 4, 0.6, 2, 0, 2]

/-- C145.  The vector printed in the tutorial holds the displacements of the run in the order of the equations, but the
magnitudes printed from it are not those of the nodes: the first, `sqrt(0.72) = 0.849`, is that of no node.  On what the
run returns, the same lines raise a `ValueError`. -/
theorem C145_tutorial (hs : SqrtFn sq) (hsp : SolverOk sp) :
    ∃ res bc, Gui.solidsGUIFiles sq sp de Square.files [] false = .ok res ∧
      eqcounter (tutorialData 1 1 (3 / 10) (1 : K)).cons = .ok (14, bc) ∧
      (∀ p j k, Free (tutorialData 1 1 (3 / 10) (1 : K)).cons 2 p j → entry bc p j = some ((k : ℕ) : ℤ) →
        ∃ x, entry res.disp p j = some x ∧ (printed (K := K))[k]? = some x) ∧
      (∃ w, magVector sq (printed (K := K)) = .ok w ∧ w[0]? = some (sq 0.72)) ∧
      (∀ p x y, entry res.disp p 0 = some x → entry res.disp p 1 = some y → sq (x ^ 2 + y ^ 2) ≠ sq 0.72) ∧
      magTable sq res.disp = .error .valueError := by
  obtain ⟨res, hres, -, -, hd⟩ := C145_files (K := K) (de := de) hs hsp
  refine ⟨res, _, hres, square_eqs .., ?_, ?_, ?_, ?_⟩
  · intro p j k hf he
    obtain ⟨hp, hj, h4, h5⟩ := (square_free ..).1 hf
    rw [hd]
    unfold entry at he ⊢
    interval_cases p <;> interval_cases j <;> simp at h4 h5 he <;>
    · obtain rfl : k = _ := by exact_mod_cast he.symm
      exact ⟨_, rfl, rfl⟩
  · obtain ⟨w, h1, -, h3⟩ := magnitude_even (fun x y : K => sq (x ^ 2 + y ^ 2)) (l := printed) (by simp [printed])
    refine ⟨w, h1, ?_⟩
    rw [h3 0 0.6 (-0.6) rfl rfl]
    norm_num
  · intro p x y hx hy he
    have hne : x ^ 2 + y ^ 2 ≠ 0.72 := by
      rw [hd] at hx hy
      have hp : p < 9 := by
        by_contra h
        unfold entry at hx
        rw [List.getElem?_eq_none (by simpa using h)] at hx
        simp at hx
      unfold entry at hx hy
      interval_cases p <;> simp at hx hy <;> rw [← hx, ← hy] <;> norm_num
    apply hne
    have a1 := (hs (x ^ 2 + y ^ 2) (by positivity)).2
    have a2 := (hs (0.72 : K) (by norm_num)).2
    rw [← a1, he, a2]
  · rw [hd]
    exact magnitude_odd _ (by simp) (by simp)

end

/-- Case for C145: the run of the tutorial in real numbers. -/
example : ∃ res, Gui.solidsGUIFiles Real.sqrt cramerR cramerR Square.files [] false = .ok res ∧
    entry res.disp 2 1 = some 4 := by
  obtain ⟨res, h, -, -, hd⟩ := C145_files (K := ℝ) (de := cramerR) sqrtFn_real cramerR_ok
  exact ⟨res, h, by rw [hd]; rfl⟩

/-- Case for C145: all components of two nodes free. -/
example : eqcounter ([[0, 0], [-1, -1], [0, 0]] : Table ℚ) = .ok (4, [[0, 1], [-1, -1], [2, 3]]) := by decide +kernel

end SolidsPy
