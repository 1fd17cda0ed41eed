import Verif.Props.Variation
import Verif.Props.Patch
import Verif.Props.Supports

/-! # Refining a mesh of triangles (C112) -/

set_option linter.unusedSectionVars false

namespace SolidsPy
open Spec Assem Matrix Fem Uel

section
variable {K : Type} [Field K] [LinearOrder K] [IsStrictOrderedRing K] [FloorRing K]
variable {sq : K → K} {sp de : Sol.Solver K} {d d' : Gui.Data K} {ms ms' : List (Member K)}

/-- Twice the signed area of the triangle with the first three of the given nodes. -/
def Spec.triArea (nodes : List (List K)) (l : List ℕ) : K :=
  (posOf nodes (l.getD 1 0) 0 - posOf nodes (l.getD 0 0) 0) * (posOf nodes (l.getD 2 0) 1 - posOf nodes (l.getD 0 0) 1) -
    (posOf nodes (l.getD 2 0) 0 - posOf nodes (l.getD 0 0) 0) * (posOf nodes (l.getD 1 0) 1 - posOf nodes (l.getD 0 0) 1)

/-- On the nodes `l`, the field `u` takes the values of the linear function with value `c` at the origin and gradient `G`. -/
def Spec.LinearOn (nodes : List (List K)) (l : List ℕ) (u : ℕ → ℕ → K) (c : Fin 2 → K) (G : Matrix (Fin 2) (Fin 2) K) : Prop :=
  ∀ p ∈ l, ∀ j : Fin 2, u p j = affine c G (posOf nodes p) j

/-- The mesh `d'` of triangles refines the mesh `d`.  The triangles of `d'` with the same parent have the area and the material of
the parent, and the nodal field `T u` of `d'` is the linear interpolation of the nodal field `u` of `d`. -/
structure Spec.Refines (T : (ℕ → ℕ → K) → ℕ → ℕ → K) (d d' : Gui.Data K) (ms ms' : List (Member K))
    (parent : Fin ms'.length → Fin ms.length) : Prop where
  nodes : ∀ r ∈ d.nodes, r.length = 3
  nodes' : ∀ r ∈ d'.nodes, r.length = 3
  triangles : ∀ el ∈ d.elements, el[1]? = some 3
  triangles' : ∀ el ∈ d'.elements, el[1]? = some 3
  mats : d'.mats = d.mats
  material : ∀ e, ∀ el ∈ d.elements[(parent e : ℕ)]?, ∀ el' ∈ d'.elements[(e : ℕ)]?, el'[2]? = el[2]?
  area : ∀ e, ∑ e' with parent e' = e, triArea d'.nodes ms'[e'].nodes = triArea d.nodes ms[e].nodes
  linear : ∀ e u c G, LinearOn d.nodes ms[parent e].nodes u c G → LinearOn d'.nodes ms'[e].nodes (T u) c G
  supports : ∀ u, Admissible d.cons 2 u → Admissible d'.cons 2 (T u)

theorem Spec.Refines.plane {T : (ℕ → ℕ → K) → ℕ → ℕ → K} {parent : Fin ms'.length → Fin ms.length} (h : Refines T d d' ms ms' parent) :
    PlaneModel d :=
  ⟨h.nodes, fun el hel ty hty => .inl (by rw [h.triangles el hel, Option.some.injEq] at hty; simp [← hty])⟩

theorem Spec.Refines.plane' {T : (ℕ → ℕ → K) → ℕ → ℕ → K} {parent : Fin ms'.length → Fin ms.length} (h : Refines T d d' ms ms' parent) :
    PlaneModel d' :=
  ⟨h.nodes', fun el hel ty hty => .inl (by rw [h.triangles' el hel, Option.some.injEq] at hty; simp [← hty])⟩

/-- Energy of the triangle on linear fields. -/
theorem tri3_affine_form {X : Matrix (Fin 3) (Fin 2) K} {E nu : K} {rest : List K} {k m}
    (h : Returns elastTri3 X (E :: nu :: rest) k m) (c c' : Fin 2 → K) (G G' : Matrix (Fin 2) (Fin 2) K)
    {C : Matrix (Fin 3) (Fin 3) K} (hC : umat [E, nu] = .ok C) :
    sample X (affine c' G') ⬝ᵥ k.mulVec (sample X (affine c G)) =
      999999999999 / 1000000000000 * (area2 X / 2) * (strainOf G' ⬝ᵥ C.mulVec (strainOf G)) := by
  have hf := C96_tri3_forces h c G hC
  generalize C.mulVec (strainOf G) = s at hf
  unfold dotProduct
  rw [Fintype.sum_prod_type]
  simp only [hf, Fin.sum_univ_three, Fin.sum_univ_two]
  have m1 : (-1 : Fin 3) = 2 := rfl
  have m2 : (2 + 1 : Fin 3) = 0 := rfl
  have m3 : (1 + 1 : Fin 3) = 2 := rfl
  have m4 : (2 - 1 : Fin 3) = 1 := rfl
  have m5 : (0 - 1 : Fin 3) = 2 := rfl
  have m6 : (1 - 1 : Fin 3) = 0 := rfl
  have m7 : (0 + 1 : Fin 3) = 1 := rfl
  simp only [m2, m3, m4, m5, m6, m7, sample, affine, sideForce, strainOf, area2, Fin.sum_univ_two]
  simp
  ring

/-- A triangle of the mesh. -/
theorem tri_member {mats nodes : Table K} {el : List ℤ} {m : Member K} (h : IsMember (Routine sq) mats nodes el m)
    (h3 : ∀ r ∈ nodes, r.length = 3) (hty : el[1]? = some 3) :
    ∃ mi, ∃ q : ℕ, ∃ E nu rest C, el[2]? = some mi ∧ Resolves mats.length mi q ∧ mats[q]? = some (E :: nu :: rest) ∧
      umat [E, nu] = .ok C ∧ (∀ u, ∃ c G, LinearOn nodes m.nodes u c G) ∧
      ∀ V U c c' G G', LinearOn nodes m.nodes V c' G' → LinearOn nodes m.nodes U c G → m.form 2 V U =
        999999999999 / 1000000000000 * (triArea nodes m.nodes / 2) * (strainOf G' ⬝ᵥ C.mulVec (strainOf G)) := by
  obtain ⟨ty, mi, q, params, n, f, X, k, mm, a1, a2, a3, a4, a5, a6, a7, a8⟩ := member_placed h h3 (by
    intro ty h1
    rw [hty, Option.some.injEq] at h1
    subst h1
    simp)
  rw [hty, Option.some.injEq] at a1
  subst a1
  have hfe : f = elastTri3 := by
    simp only [Uel.eleFun, Except.ok.injEq] at a2
    exact a2.symm
  subst hfe
  have hn : n = 3 := by
    obtain ⟨A, B, hAB, hA, -⟩ := a7
    obtain ⟨X', k', m', hX, -⟩ := C38_plane_shape .tri3 hAB
    have := congrArg List.length hX
    simpa [matRows] using this
  subst hn
  obtain ⟨C', ρ, hm, ha, -, -⟩ := (returns_plane_lax (K := K) .tri3 (by norm_num) _ _ _ _).1 a7
  obtain ⟨E, nu, h1, -⟩ := umat_ok.1 hm.2.1
  obtain ⟨rest, rfl⟩ : ∃ rest, params = E :: nu :: rest := by
    match params, h1 with
    | a :: b :: rest, h1 =>
      simp at h1
      exact ⟨rest, by rw [h1.1, h1.2]⟩
  have hC := (mat2_cons.1 hm).2.1
  have hX : ∀ (a : Fin 3), X a = posOf nodes (m.nodes.getD a 0) := by
    intro a
    funext i
    have := a8.coord a i
    unfold posOf coordOf fieldOf
    rw [this]
    rfl
  have hpick : ∀ (u : ℕ → ℕ → K) c G, LinearOn nodes m.nodes u c G ↔ m.pick 3 u = sample X (affine c G) := by
    intro u c G
    constructor
    · intro H
      funext ⟨a, j⟩
      have ha : (a : ℕ) < m.nodes.length := by rw [a8.size]; exact a.2
      unfold Member.pick sample
      dsimp only
      rw [hX a]
      refine H _ ?_ j
      rw [List.getD_eq_getElem?_getD, List.getElem?_eq_getElem ha, Option.getD_some]
      exact List.getElem_mem ha
    · intro H p hp j
      obtain ⟨a, ha, rfl⟩ := List.mem_iff_getElem.1 hp
      have := congrFun H (⟨a, by rw [← a8.size]; exact ha⟩, j)
      unfold Member.pick sample at this
      dsimp only at this
      rw [hX, List.getD_eq_getElem?_getD, List.getElem?_eq_getElem ha, Option.getD_some] at this
      exact this
  have harea : area2 X = triArea nodes m.nodes := by
    unfold area2 triArea
    rw [hX 0, hX 1, hX 2]
    rfl
  refine ⟨mi, q, E, nu, rest, C', a3, a4, a5, hC, fun u => ?_, fun V U c c' G G' hV hU => ?_⟩
  · obtain ⟨x, hx⟩ := List.exists_mem_of_ne_nil _ (good_tri3 (K := K)).ne
    have h0 := ha x hx
    obtain ⟨y, _, rfl⟩ := List.mem_map.1 hx
    obtain ⟨c, G, e, -⟩ := tri3_affine (X := X) (r := (y.1.1 : K)) (s := (y.1.2 : K)) (tol_pos.trans h0).ne' (m.pick 3 u)
    exact ⟨c, G, (hpick u c G).2 e⟩
  · rw [a8.form, (hpick _ _ _).1 hV, (hpick _ _ _).1 hU, tri3_affine_form a7 c c' G G' hC, harea]

theorem sum_members (ms : List (Member K)) (f : Member K → K) : (ms.map f).sum = ∑ e : Fin ms.length, f ms[e] := by
  rw [← List.sum_ofFn]
  congr 1
  exact (List.ofFn_getElem_eq_map ms f).symm

variable {T : (ℕ → ℕ → K) → ℕ → ℕ → K} {parent : Fin ms'.length → Fin ms.length}

/-- C112.  The interpolated field has the energy of the field. -/
theorem C112_energy (h : Refines T d d' ms ms' parent) (hms : Members sq d ms) (hms' : Members sq d' ms') (V U : ℕ → ℕ → K) :
    (ms'.map fun m => m.form 2 (T V) (T U)).sum = (ms.map fun m => m.form 2 V U).sum := by
  rw [sum_members, sum_members]
  have key : ∀ e : Fin ms.length, ∃ g : K, ms[e].form 2 V U = triArea d.nodes ms[e].nodes * g ∧
      ∀ e', parent e' = e → ms'[e'].form 2 (T V) (T U) = triArea d'.nodes ms'[e'].nodes * g := by
    intro e
    have he : (e : ℕ) < d.elements.length := by rw [hms.length_eq]; exact e.2
    have hmem : IsMember (Routine sq) d.mats d.nodes d.elements[(e : ℕ)] ms[e] := hms.get (i := e) he e.2
    obtain ⟨mi, q, E, nu, rest, C, a1, a2, a3, a4, a5, a6⟩ := tri_member hmem h.nodes (h.triangles _ (List.getElem_mem he))
    obtain ⟨c, G, hU⟩ := a5 U
    obtain ⟨c', G', hV⟩ := a5 V
    refine ⟨999999999999 / 1000000000000 / 2 * (strainOf G' ⬝ᵥ C.mulVec (strainOf G)), ?_, fun e' hp => ?_⟩
    · rw [a6 V U c c' G G' hV hU]
      ring
    · subst hp
      have he' : (e' : ℕ) < d'.elements.length := by rw [hms'.length_eq]; exact e'.2
      have hmem' : IsMember (Routine sq) d'.mats d'.nodes d'.elements[(e' : ℕ)] ms'[e'] := hms'.get (i := e') he' e'.2
      obtain ⟨mi', q', E', nu', rest', C', b1, b2, b3, b4, b5, b6⟩ :=
        tri_member hmem' h.nodes' (h.triangles' _ (List.getElem_mem he'))
      have hmat := h.material e' d.elements[(parent e' : ℕ)] (by
          rw [List.getElem?_eq_getElem he]; rfl) d'.elements[(e' : ℕ)] (by rw [List.getElem?_eq_getElem he']; rfl)
      rw [a1, b1, Option.some.injEq] at hmat
      subst hmat
      rw [h.mats] at b2 b3
      obtain rfl := resolves_unique a2 b2
      rw [a3, Option.some.injEq] at b3
      simp only [List.cons.injEq] at b3
      obtain ⟨rfl, rfl, -⟩ := b3
      rw [a4, Except.ok.injEq] at b4
      subst b4
      have hV' := h.linear e' V c' G' hV
      have hU' := h.linear e' U c G hU
      rw [b6 (T V) (T U) c c' G G' hV' hU']
      ring
  choose g h1 h2 using key
  rw [← Finset.sum_fiberwise_of_maps_to (s := Finset.univ) (t := Finset.univ) (g := parent) (fun _ _ => Finset.mem_univ _)]
  refine Finset.sum_congr rfl fun e _ => ?_
  rw [h1 e, ← h.area e, Finset.sum_mul]
  refine Finset.sum_congr rfl fun e' he' => ?_
  exact h2 e e' (Finset.mem_filter.1 he').2

variable {F F' : ℕ → ℕ → K} {plot plot' : Bool} {res res' : Gui.Result K}

/-- Loads of the two meshes that do the same work on interpolated fields. -/
def Spec.SameWork (T : (ℕ → ℕ → K) → ℕ → ℕ → K) (d d' : Gui.Data K) (F F' : ℕ → ℕ → K) : Prop :=
  ∀ u, Admissible d.cons 2 u → work d'.nodes.length F' (T u) = work d.nodes.length F u

/-- Energy of the difference of two nodal fields. -/
def Spec.energyGap (ms : List (Member K)) (V U : ℕ → ℕ → K) : K := strainEnergy ms fun p j => V p j - U p j

/-- C112.  Refining never makes the model stiffer: what the loads gain is the energy of the change of the displacements. -/
theorem C112_gap (hs : SqrtFn sq) (h : Refines T d d' ms ms' parent) (hwf : WellFormed d) (hwf' : WellFormed d') (hsp : SolverOk sp)
    (hms : Members sq d ms) (hms' : Members sq d' ms') (hst : Stable d.cons 2 ms) (hst' : Stable d'.cons 2 ms')
    (hF : LoadField d F) (hF' : LoadField d' F') (hw : SameWork T d d' F F')
    (hr : Gui.solidsAuto sq sp de d plot = .ok res) (hr' : Gui.solidsAuto sq sp de d' plot' = .ok res')
    {V : ℕ → ℕ → K} (hV : Admissible d.cons 2 V) :
    energyGap ms' (fieldOf res'.disp) (T V) = energyGap ms (fieldOf res.disp) V +
      1 / 2 * (work d'.nodes.length F' (fieldOf res'.disp) - work d.nodes.length F (fieldOf res.disp)) := by
  obtain ⟨hsym, -⟩ := C93_elements hs h.plane hms
  obtain ⟨hsym', -⟩ := C93_elements hs h.plane' hms'
  have he := (C18_nodal_equilibrium hwf hsp hms hst hr).2
  have he' := (C18_nodal_equilibrium hwf' hsp hms' hst' hr').2
  have w1 := load_work hwf hms hF he hV
  have w2 := load_work hwf hms hF he he.1
  have w3 := load_work hwf' hms' hF' he' (h.supports V hV)
  have w4 := load_work hwf' hms' hF' he' he'.1
  have w5 := hw V hV
  unfold energyGap strainEnergy
  rw [forms_sub ms' hsym', forms_sub ms hsym, C112_energy h hms hms' V V]
  unfold work at w5 ⊢
  rw [w1, w3] at w5
  have s1 : (ms'.map fun m => m.form 2 (fieldOf res'.disp) (T V)).sum = (ms'.map fun m => m.form 2 (T V) (fieldOf res'.disp)).sum :=
    congrArg List.sum (List.map_congr_left fun m hm => hsym' m hm _ _)
  have s2 : (ms.map fun m => m.form 2 (fieldOf res.disp) V).sum = (ms.map fun m => m.form 2 V (fieldOf res.disp)).sum :=
    congrArg List.sum (List.map_congr_left fun m hm => hsym m hm _ _)
  rw [w2, w4, s1, s2, w5]
  ring

/-- Energies of a physical mesh are not negative. -/
theorem gap_nonneg (hs : SqrtFn sq) (hp : PlaneModel d) (hphys : Physical d) (hms : Members sq d ms) (V U : ℕ → ℕ → K) :
    0 ≤ energyGap ms V U := by
  unfold energyGap strainEnergy
  refine mul_nonneg (by norm_num) (List.sum_nonneg fun x hx => ?_)
  obtain ⟨m, hm, rfl⟩ := List.mem_map.1 hx
  exact (C93_elements hs hp hms).2 hphys m hm _

/-- C112.  On the refined mesh the same loads do at least as much work. -/
theorem C112_softer (hs : SqrtFn sq) (h : Refines T d d' ms ms' parent) (hphys' : Physical d') (hwf : WellFormed d) (hwf' : WellFormed d')
    (hsp : SolverOk sp) (hms : Members sq d ms) (hms' : Members sq d' ms') (hst : Stable d.cons 2 ms) (hst' : Stable d'.cons 2 ms')
    (hF : LoadField d F) (hF' : LoadField d' F') (hw : SameWork T d d' F F')
    (hr : Gui.solidsAuto sq sp de d plot = .ok res) (hr' : Gui.solidsAuto sq sp de d' plot' = .ok res') :
    work d.nodes.length F (fieldOf res.disp) ≤ work d'.nodes.length F' (fieldOf res'.disp) := by
  have he := (C18_nodal_equilibrium hwf hsp hms hst hr).2
  have g := C112_gap hs h hwf hwf' hsp hms hms' hst hst' hF hF' hw hr hr' he.1
  have g0 := gap_nonneg hs h.plane' hphys' hms' (fieldOf res'.disp) (T (fieldOf res.disp))
  have g1 : energyGap ms (fieldOf res.disp) (fieldOf res.disp) = 0 := by
    unfold energyGap strainEnergy
    rw [forms_sub ms (C93_elements hs h.plane hms).1]
    ring
  rw [g, g1] at g0
  linarith

/-- C112.  Of all fields of the coarse mesh its displacements are the nearest, in energy, to those of the refined mesh. -/
theorem C112_nearest (hs : SqrtFn sq) (h : Refines T d d' ms ms' parent) (hphys : Physical d) (hwf : WellFormed d) (hwf' : WellFormed d')
    (hsp : SolverOk sp) (hms : Members sq d ms) (hms' : Members sq d' ms') (hst : Stable d.cons 2 ms) (hst' : Stable d'.cons 2 ms')
    (hF : LoadField d F) (hF' : LoadField d' F') (hw : SameWork T d d' F F')
    (hr : Gui.solidsAuto sq sp de d plot = .ok res) (hr' : Gui.solidsAuto sq sp de d' plot' = .ok res')
    {V : ℕ → ℕ → K} (hV : Admissible d.cons 2 V) :
    energyGap ms' (fieldOf res'.disp) (T (fieldOf res.disp)) ≤ energyGap ms' (fieldOf res'.disp) (T V) := by
  have he := (C18_nodal_equilibrium hwf hsp hms hst hr).2
  rw [C112_gap hs h hwf hwf' hsp hms hms' hst hst' hF hF' hw hr hr' he.1,
    C112_gap hs h hwf hwf' hsp hms hms' hst hst' hF hF' hw hr hr' hV]
  have g0 := gap_nonneg hs h.plane hphys hms (fieldOf res.disp) V
  have g1 : energyGap ms (fieldOf res.disp) (fieldOf res.disp) = 0 := by
    unfold energyGap strainEnergy
    rw [forms_sub ms (C93_elements hs h.plane hms).1]
    ring
  rw [g1]
  linarith

end

/-! ## A square cut into two triangles, refined to four -/

section demo

theorem tri_exists {mats nodes : Table ℝ} {id : ℤ} {a b c : ℕ} {ra rb rc : ℝ} {xa ya xb yb xc yc E nu : ℝ} (hm : mats[0]? = some [E, nu])
    (ha : nodes[a]? = some [ra, xa, ya]) (hb : nodes[b]? = some [rb, xb, yb]) (hc : nodes[c]? = some [rc, xc, yc])
    (hnu : nu ^ 2 ≠ 1) (har : 1e-8 < (xb - xa) * (yc - ya) - (xc - xa) * (yb - ya)) :
    ∃ m, IsMember (Routine Real.sqrt) mats nodes [id, 3, 0, a, b, c] m ∧ m.nodes = [a, b, c] := by
  obtain ⟨k, m, A, B, hAB, -, -⟩ := (C48_accepts_iff !![xa, ya; xb, yb; xc, yc] E nu []).2
    ⟨sub_ne_zero.2 hnu.symm, by simpa [area2] using har⟩
  have e : matRows (!![xa, ya; xb, yb; xc, yc] : Matrix (Fin 3) (Fin 2) ℝ) =
      [[ra, xa, ya], [rb, xb, yb], [rc, xc, yc]].map (List.drop 1) := by simp [matRows, List.ofFn_succ]
  rw [e] at hAB
  exact ⟨⟨[a, b, c], cell A⟩, ⟨3, 0, _, _, elastTri3, A, B, rfl, rfl,
    ⟨0, ⟨(List.getElem?_eq_some_iff.1 hm).1, .inl rfl⟩, hm⟩,
    .cons ⟨(List.getElem?_eq_some_iff.1 ha).1, .inl rfl⟩ (.cons ⟨(List.getElem?_eq_some_iff.1 hb).1, .inl rfl⟩
      (.cons ⟨(List.getElem?_eq_some_iff.1 hc).1, .inl rfl⟩ .nil)),
    .cons ha (.cons hb (.cons hc .nil)), rfl, hAB, rfl⟩, rfl⟩

/-- The square cut along a diagonal, held on the left and pulled at the lower right. -/
noncomputable def cutTwo : Gui.Data ℝ where
  nodes := [[0, 0, 0], [1, 2, 0], [2, 2, 2], [3, 0, 2]]
  cons := [[-1, -1], [0, 0], [0, 0], [-1, -1]]
  elements := [[0, 3, 0, 0, 1, 2], [1, 3, 0, 0, 2, 3]]
  mats := [[10, 1 / 4]]
  loads := [[1, 1, 0]]

/-- The same square cut along both diagonals. -/
noncomputable def cutFour : Gui.Data ℝ where
  nodes := [[0, 0, 0], [1, 2, 0], [2, 2, 2], [3, 0, 2], [4, 1, 1]]
  cons := [[-1, -1], [0, 0], [0, 0], [-1, -1], [0, 0]]
  elements := [[0, 3, 0, 0, 1, 4], [1, 3, 0, 1, 2, 4], [2, 3, 0, 2, 3, 4], [3, 3, 0, 3, 0, 4]]
  mats := [[10, 1 / 4]]
  loads := [[1, 1, 0]]

/-- The value at the centre is the mean of the values at the ends of the first diagonal. -/
noncomputable def atCentre (u : ℕ → ℕ → ℝ) : ℕ → ℕ → ℝ := fun p j => if p = 4 then (u 0 j + u 2 j) / 2 else u p j

theorem cutTwo_members : ∃ m0 m1, Members Real.sqrt cutTwo [m0, m1] ∧ m0.nodes = [0, 1, 2] ∧ m1.nodes = [0, 2, 3] := by
  obtain ⟨m0, h0, n0⟩ := tri_exists (mats := cutTwo.mats) (nodes := cutTwo.nodes) (id := 0) (a := 0) (b := 1) (c := 2) rfl rfl rfl rfl
    (by norm_num) (by norm_num)
  obtain ⟨m1, h1, n1⟩ := tri_exists (mats := cutTwo.mats) (nodes := cutTwo.nodes) (id := 1) (a := 0) (b := 2) (c := 3) rfl rfl rfl rfl
    (by norm_num) (by norm_num)
  exact ⟨m0, m1, .cons h0 (.cons h1 .nil), n0, n1⟩

theorem cutFour_members : ∃ m0 m1 m2 m3, Members Real.sqrt cutFour [m0, m1, m2, m3] ∧ m0.nodes = [0, 1, 4] ∧ m1.nodes = [1, 2, 4] ∧
    m2.nodes = [2, 3, 4] ∧ m3.nodes = [3, 0, 4] := by
  obtain ⟨m0, h0, n0⟩ := tri_exists (mats := cutFour.mats) (nodes := cutFour.nodes) (id := 0) (a := 0) (b := 1) (c := 4) rfl rfl rfl rfl
    (by norm_num) (by norm_num)
  obtain ⟨m1, h1, n1⟩ := tri_exists (mats := cutFour.mats) (nodes := cutFour.nodes) (id := 1) (a := 1) (b := 2) (c := 4) rfl rfl rfl rfl
    (by norm_num) (by norm_num)
  obtain ⟨m2, h2, n2⟩ := tri_exists (mats := cutFour.mats) (nodes := cutFour.nodes) (id := 2) (a := 2) (b := 3) (c := 4) rfl rfl rfl rfl
    (by norm_num) (by norm_num)
  obtain ⟨m3, h3, n3⟩ := tri_exists (mats := cutFour.mats) (nodes := cutFour.nodes) (id := 3) (a := 3) (b := 0) (c := 4) rfl rfl rfl rfl
    (by norm_num) (by norm_num)
  exact ⟨m0, m1, m2, m3, .cons h0 (.cons h1 (.cons h2 (.cons h3 .nil))), n0, n1, n2, n3⟩

theorem cut_pos (p : ℕ) (hp : p < 4) : posOf cutFour.nodes p = posOf cutTwo.nodes p := by
  rcases (by omega : p = 0 ∨ p = 1 ∨ p = 2 ∨ p = 3) with rfl | rfl | rfl | rfl <;> rfl

theorem cut_pos4 (j : Fin 2) : posOf cutFour.nodes 4 j = (posOf cutTwo.nodes 0 j + posOf cutTwo.nodes 2 j) / 2 := by
  fin_cases j <;> norm_num [posOf, coordOf, fieldOf, entry, cutFour, cutTwo]

theorem cut_adm (u : ℕ → ℕ → ℝ) (hu : Admissible cutTwo.cons 2 u) : Admissible cutFour.cons 2 (atCentre u) := by
  have n0 : ∀ j, ¬ Free cutTwo.cons 2 0 j := by
    rintro j ⟨hj, x, hx, h1, -⟩
    rcases (by omega : j = 0 ∨ j = 1) with rfl | rfl <;>
    · obtain rfl : -1 = x := by simpa [entry, cutTwo] using hx
      exact lt_irrefl _ h1
  have n3 : ∀ j, ¬ Free cutTwo.cons 2 3 j := by
    rintro j ⟨hj, x, hx, h1, -⟩
    rcases (by omega : j = 0 ∨ j = 1) with rfl | rfl <;>
    · obtain rfl : -1 = x := by simpa [entry, cutTwo] using hx
      exact lt_irrefl _ h1
  intro p j hp hj hf
  have hp : p < 5 := hp
  rcases (by omega : p = 0 ∨ p = 3 ∨ p = 1 ∨ p = 2 ∨ p = 4) with rfl | rfl | rfl | rfl | rfl
  · exact hu 0 j (by simp [cutTwo]) hj (n0 j)
  · exact hu 3 j (by simp [cutTwo]) hj (n3 j)
  all_goals
    refine absurd ⟨hj, 0, ?_, by norm_num, by norm_num⟩ hf
    rcases (by omega : j = 0 ∨ j = 1) with rfl | rfl <;> rfl

theorem cut_refines {m0 m1 k0 k1 k2 k3 : Member ℝ} (a0 : m0.nodes = [0, 1, 2]) (a1 : m1.nodes = [0, 2, 3]) (b0 : k0.nodes = [0, 1, 4])
    (b1 : k1.nodes = [1, 2, 4]) (b2 : k2.nodes = [2, 3, 4]) (b3 : k3.nodes = [3, 0, 4]) :
    Refines atCentre cutTwo cutFour [m0, m1] [k0, k1, k2, k3] ![0, 0, 1, 1] where
  nodes := by simp [cutTwo]
  nodes' := by simp [cutFour]
  triangles := by simp [cutTwo]
  triangles' := by simp [cutFour]
  mats := rfl
  material := by
    intro e el hel el' hel'
    fin_cases e <;>
    · simp [cutTwo] at hel
      simp [cutFour] at hel'
      rw [← hel, ← hel']
      rfl
  area := by
    intro e
    fin_cases e
    all_goals rw [Finset.sum_filter]
    · change (∑ e' : Fin 4, if (![0, 0, 1, 1] : Fin 4 → Fin 2) e' = 0 then triArea cutFour.nodes [k0, k1, k2, k3][(e' : ℕ)].nodes else 0) =
        triArea cutTwo.nodes m0.nodes
      rw [Fin.sum_univ_four]
      rw [if_pos (by decide), if_pos (by decide), if_neg (by decide), if_neg (by decide)]
      norm_num [triArea, posOf, coordOf, fieldOf, entry, cutFour, cutTwo, a0, a1, b0, b1, b2, b3]
    · change (∑ e' : Fin 4, if (![0, 0, 1, 1] : Fin 4 → Fin 2) e' = 1 then triArea cutFour.nodes [k0, k1, k2, k3][(e' : ℕ)].nodes else 0) =
        triArea cutTwo.nodes m1.nodes
      rw [Fin.sum_univ_four]
      rw [if_neg (by decide), if_neg (by decide), if_pos (by decide), if_pos (by decide)]
      norm_num [triArea, posOf, coordOf, fieldOf, entry, cutFour, cutTwo, a0, a1, b0, b1, b2, b3]
  linear := by
    intro e u c G h
    have key : ∀ l, 0 ∈ l → 2 ∈ l → LinearOn cutTwo.nodes l u c G → ∀ p, p = 4 ∨ p ∈ l ∧ p < 4 → ∀ j : Fin 2,
        atCentre u p j = affine c G (posOf cutFour.nodes p) j := by
      intro l h0 h2 hl p hp j
      rcases hp with rfl | ⟨hp, hlt⟩
      · unfold atCentre
        rw [if_pos rfl, hl 0 h0 j, hl 2 h2 j]
        unfold affine
        simp only [cut_pos4, Fin.sum_univ_two]
        ring
      · unfold atCentre
        rw [if_neg (by omega), hl p hp j, cut_pos p hlt]
    intro p hp
    fin_cases e
    · exact key [0, 1, 2] (by simp) (by simp) (by simpa [a0] using h) p (by
        have : p ∈ k0.nodes := hp
        rw [b0] at this; simp at this ⊢; omega)
    · exact key [0, 1, 2] (by simp) (by simp) (by simpa [a0] using h) p (by
        have : p ∈ k1.nodes := hp
        rw [b1] at this; simp at this ⊢; omega)
    · exact key [0, 2, 3] (by simp) (by simp) (by simpa [a1] using h) p (by
        have : p ∈ k2.nodes := hp
        rw [b2] at this; simp at this ⊢; omega)
    · exact key [0, 2, 3] (by simp) (by simp) (by simpa [a1] using h) p (by
        have : p ∈ k3.nodes := hp
        rw [b3] at this; simp at this ⊢; omega)
  supports := cut_adm

theorem cut_wf : WellFormed cutTwo ∧ WellFormed cutFour := by
  constructor
  · refine ⟨?_, by simp [cutTwo], rfl⟩
    intro i j x hj hx
    obtain ⟨row, h1, h2⟩ := entry_some.1 hx
    have hr := List.mem_of_getElem? h1
    have hx := List.mem_of_getElem? h2
    simp only [cutTwo, List.mem_cons, List.not_mem_nil, or_false] at hr
    rcases hr with rfl | rfl | rfl | rfl <;> simp at hx <;> simp [hx]
  · refine ⟨?_, by simp [cutFour], rfl⟩
    intro i j x hj hx
    obtain ⟨row, h1, h2⟩ := entry_some.1 hx
    have hr := List.mem_of_getElem? h1
    have hx := List.mem_of_getElem? h2
    simp only [cutFour, List.mem_cons, List.not_mem_nil, or_false] at hr
    rcases hr with rfl | rfl | rfl | rfl | rfl <;> simp at hx <;> simp [hx]

/-- The force at the lower right. -/
noncomputable def cutForce : ℕ → ℕ → ℝ := fun p j => if p = 1 ∧ j = 0 then 1 else 0

theorem cut_load {n : ℕ} (hn : 1 < n) (p j : ℕ) (hj : j < 2) : IsLoad n [[1, 1, 0]] p j (cutForce p j) := by
  have n1 : ∀ q, Names n ([1, 1, 0] : List ℝ) q ↔ q = 1 := fun q => names_nat (p := 1) (q := q) hn (by simp)
  by_cases h1 : p = 1
  · subst h1
    right
    refine ⟨[], [1, 1, 0], [], rfl, (n1 1).2 rfl, by simp, ?_⟩
    rcases (by omega : j = 0 ∨ j = 1) with rfl | rfl <;> simp [cutForce]
  · left
    refine ⟨?_, by simp [cutForce, h1]⟩
    intro L hL hN
    rw [List.mem_singleton] at hL
    subst hL
    exact h1 ((n1 p).1 hN)

theorem cut_work (u : ℕ → ℕ → ℝ) : work cutFour.nodes.length cutForce (atCentre u) = work cutTwo.nodes.length cutForce u := by
  have h5 : cutFour.nodes.length = 5 := rfl
  have h4 : cutTwo.nodes.length = 4 := rfl
  rw [h5, h4]
  simp [work, Finset.sum_range_succ, cutForce, atCentre]

theorem cut_mesh {m0 m1 : Member ℝ} (h : Members Real.sqrt cutTwo [m0, m1]) (a0 : m0.nodes = [0, 1, 2]) (a1 : m1.nodes = [0, 2, 3]) :
    SolidMesh Real.sqrt cutTwo [m0, m1] where
  nodes := by simp [cutTwo]
  members := h
  firm := by
    intro el hel ty hty
    simp only [cutTwo, List.mem_cons, List.not_mem_nil, or_false] at hel
    rcases hel with rfl | rfl <;> simp at hty <;> simp [← hty]
  elastic := by
    intro el hel mi q params _ _ hp
    have := List.mem_of_getElem? hp
    simp only [cutTwo, List.mem_singleton] at this
    exact ⟨10, 1 / 4, [], this, by norm_num, by norm_num, by norm_num, by simp⟩
  used := by
    intro p hp
    have hp : p < 4 := hp
    rcases (by omega : p = 0 ∨ p = 1 ∨ p = 2 ∨ p = 3) with rfl | rfl | rfl | rfl <;> simp [a0, a1]
  connected := by
    have s01 : Shares cutTwo.nodes m0 m1 := ⟨0, 2, by simp [a0], by simp [a0], by simp [a1], by simp [a1],
      by left; norm_num [coordOf, fieldOf, entry, cutTwo]⟩
    have s10 : Shares cutTwo.nodes m1 m0 := ⟨0, 2, by simp [a1], by simp [a1], by simp [a0], by simp [a0],
      by left; norm_num [coordOf, fieldOf, entry, cutTwo]⟩
    intro a ha b hb
    simp only [List.mem_cons, List.not_mem_nil, or_false] at ha hb
    rcases ha with rfl | rfl <;> rcases hb with rfl | rfl
    · exact .refl
    · exact .single ⟨by simp, s01⟩
    · exact .single ⟨by simp, s10⟩
    · exact .refl

theorem cut_mesh' {k0 k1 k2 k3 : Member ℝ} (h : Members Real.sqrt cutFour [k0, k1, k2, k3]) (b0 : k0.nodes = [0, 1, 4])
    (b1 : k1.nodes = [1, 2, 4]) (b2 : k2.nodes = [2, 3, 4]) (b3 : k3.nodes = [3, 0, 4]) :
    SolidMesh Real.sqrt cutFour [k0, k1, k2, k3] where
  nodes := by simp [cutFour]
  members := h
  firm := by
    intro el hel ty hty
    simp only [cutFour, List.mem_cons, List.not_mem_nil, or_false] at hel
    rcases hel with rfl | rfl | rfl | rfl <;> simp at hty <;> simp [← hty]
  elastic := by
    intro el hel mi q params _ _ hp
    have := List.mem_of_getElem? hp
    simp only [cutFour, List.mem_singleton] at this
    exact ⟨10, 1 / 4, [], this, by norm_num, by norm_num, by norm_num, by simp⟩
  used := by
    intro p hp
    have hp : p < 5 := hp
    rcases (by omega : p = 0 ∨ p = 1 ∨ p = 2 ∨ p = 3 ∨ p = 4) with rfl | rfl | rfl | rfl | rfl <;> simp [b0, b1, b2, b3]
  connected := by
    have ap : ∀ q, q < 4 → Apart cutFour.nodes q 4 := by
      intro q hq
      rcases (by omega : q = 0 ∨ q = 1 ∨ q = 2 ∨ q = 3) with rfl | rfl | rfl | rfl <;> left <;>
        norm_num [coordOf, fieldOf, entry, cutFour]
    have go : ∀ {x y : Member ℝ} (q : ℕ), q < 4 → y ∈ [k0, k1, k2, k3] → q ∈ x.nodes → 4 ∈ x.nodes → q ∈ y.nodes → 4 ∈ y.nodes →
        Relation.ReflTransGen (fun a b => b ∈ [k0, k1, k2, k3] ∧ Shares cutFour.nodes a b) x y := fun q hq hy h1 h2 h3 h4 =>
      .single ⟨hy, q, 4, h1, h2, h3, h4, ap q hq⟩
    have g01 := go (x := k0) (y := k1) 1 (by omega) (by simp) (by simp [b0]) (by simp [b0]) (by simp [b1]) (by simp [b1])
    have g12 := go (x := k1) (y := k2) 2 (by omega) (by simp) (by simp [b1]) (by simp [b1]) (by simp [b2]) (by simp [b2])
    have g23 := go (x := k2) (y := k3) 3 (by omega) (by simp) (by simp [b2]) (by simp [b2]) (by simp [b3]) (by simp [b3])
    have g30 := go (x := k3) (y := k0) 0 (by omega) (by simp) (by simp [b3]) (by simp [b3]) (by simp [b0]) (by simp [b0])
    intro a ha b hb
    simp only [List.mem_cons, List.not_mem_nil, or_false] at ha hb
    rcases ha with rfl | rfl | rfl | rfl <;> rcases hb with rfl | rfl | rfl | rfl
    exacts [.refl, g01, g01.trans g12, g01.trans (g12.trans g23), g12.trans (g23.trans g30), .refl, g12, g12.trans g23,
      g23.trans g30, g23.trans (g30.trans g01), .refl, g23, g30, g30.trans g01, g30.trans (g01.trans g12), .refl]

theorem cut_supported : Supported cutTwo.cons cutTwo.nodes ∧ Supported cutFour.cons cutFour.nodes := by
  constructor
  · refine C95_two_pins cut_wf.1 (p := 0) (q := 3) (by simp [cutTwo]) (by simp [cutTwo])
      (by right; norm_num [coordOf, fieldOf, entry, cutTwo]) ?_ ?_ <;>
    · rintro j hj ⟨-, x, hx, h1, -⟩
      rcases (by omega : j = 0 ∨ j = 1) with rfl | rfl <;>
      · obtain rfl : -1 = x := by simpa [entry, cutTwo] using hx
        exact lt_irrefl _ h1
  · refine C95_two_pins cut_wf.2 (p := 0) (q := 3) (by simp [cutFour]) (by simp [cutFour])
      (by right; norm_num [coordOf, fieldOf, entry, cutFour]) ?_ ?_ <;>
    · rintro j hj ⟨-, x, hx, h1, -⟩
      rcases (by omega : j = 0 ∨ j = 1) with rfl | rfl <;>
      · obtain rfl : -1 = x := by simpa [entry, cutFour] using hx
        exact lt_irrefl _ h1

/-- Case for C112: with four triangles the loaded corner yields at least as much as with two. -/
example : ∃ res res', Gui.solidsAuto Real.sqrt cramerR cramerR cutTwo false = .ok res ∧
    Gui.solidsAuto Real.sqrt cramerR cramerR cutFour false = .ok res' ∧ fieldOf res.disp 1 0 ≤ fieldOf res'.disp 1 0 := by
  obtain ⟨m0, m1, hms, a0, a1⟩ := cutTwo_members
  obtain ⟨k0, k1, k2, k3, hms', b0, b1, b2, b3⟩ := cutFour_members
  have hm := cut_mesh hms a0 a1
  have hm' := cut_mesh' hms' b0 b1 b2 b3
  obtain ⟨w, w'⟩ := cut_wf
  obtain ⟨s, s'⟩ := cut_supported
  obtain ⟨res, hr, -⟩ := C95_solids_auto (de := cramerR) sqrtFn_real hm w cramerR_ok s
    ⟨1, 0, by omega, 0, rfl, by norm_num, by norm_num⟩ (by
      intro L hL
      obtain rfl : L = [1, 1, 0] := by simpa [cutTwo] using hL
      exact ⟨by simp, 1, (names_nat (p := 1) (by simp [cutTwo]) (by simp)).2 rfl⟩)
  obtain ⟨res', hr', -⟩ := C95_solids_auto (de := cramerR) sqrtFn_real hm' w' cramerR_ok s'
    ⟨1, 0, by omega, 0, rfl, by norm_num, by norm_num⟩ (by
      intro L hL
      obtain rfl : L = [1, 1, 0] := by simpa [cutFour] using hL
      exact ⟨by simp, 1, (names_nat (p := 1) (by simp [cutFour]) (by simp)).2 rfl⟩)
  refine ⟨res, res', hr, hr', ?_⟩
  have key := C112_softer (F := cutForce) (F' := cutForce) sqrtFn_real (cut_refines a0 a1 b0 b1 b2 b3) hm'.physical w w' cramerR_ok hms hms'
    ((C95_stable_iff sqrtFn_real hm w).2 s) ((C95_stable_iff sqrtFn_real hm' w').2 s') (fun p j _ hj => cut_load (by simp [cutTwo]) p j hj)
    (fun p j _ hj => cut_load (by simp [cutFour]) p j hj) (fun u _ => cut_work u) hr hr'
  have h5 : cutFour.nodes.length = 5 := rfl
  have h4 : cutTwo.nodes.length = 4 := rfl
  rw [h5, h4] at key
  simpa [work, Finset.sum_range_succ, cutForce] using key

end demo
end SolidsPy
