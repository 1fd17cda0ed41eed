import Verif.Props.UserEnergy
import Verif.Props.SolidPatch
import Verif.Props.Accepted
import Verif.Props.Refinement

/-! # C156: refining a mesh of tetrahedra -/

set_option linter.unusedSectionVars false

namespace SolidsPy
open Spec Assem Matrix Fem Uel

section
variable {K : Type} [Field K] [LinearOrder K] [IsStrictOrderedRing K] [FloorRing K]

/-- On the nodes `l`, the field `u` in space takes the values of the linear function with value `c` at the origin and gradient `G`. -/
def Spec.LinearOn3 (nodes : List (List K)) (l : List ℕ) (u : ℕ → ℕ → K) (c : Fin 3 → K) (G : Matrix (Fin 3) (Fin 3) K) : Prop :=
  ∀ p ∈ l, ∀ j : Fin 3, u p j = affine c G (placeOf nodes p) j

/-- Volume of the tetrahedron with the given nodes. -/
def Spec.tetVolume (nodes : List (List K)) (l : List ℕ) : K :=
  sixVolume (fun a : Fin 4 => placeOf nodes (l.getD a 0)) / 6

/-- The mesh of tetrahedra `elements'` refines the mesh `elements`.  The tetrahedra with the same parent have together its volume, and
each its material; the nodal field `T u` of the refined mesh is the linear interpolation of the nodal field `u`, and vanishes at the
supports of the refined mesh if `u` vanishes at those of the coarse mesh. -/
structure Spec.Refines3 (T : (ℕ → ℕ → K) → ℕ → ℕ → K) (cons cons' : Table K) (elements elements' : List (List ℤ)) (nodes nodes' : Table K)
    (ms ms' : List (Member K)) (parent : Fin ms'.length → Fin ms.length) : Prop where
  material : ∀ e, ∀ el ∈ elements[(parent e : ℕ)]?, ∀ el' ∈ elements'[(e : ℕ)]?, el'[2]? = el[2]?
  volume : ∀ e, ∑ e' with parent e' = e, tetVolume nodes' ms'[e'].nodes = tetVolume nodes ms[e].nodes
  linear : ∀ e u c G, LinearOn3 nodes ms[parent e].nodes u c G → LinearOn3 nodes' ms'[e].nodes (T u) c G
  supports : ∀ u, Admissible cons 3 u → Admissible cons' 3 (T u)

variable {mats nodes nodes' cons cons' loads loads' full full' : Table K} {elements elements' : List (List ℤ)} {ms ms' : List (Member K)}

/-- Four values at the corners of a tetrahedron belong to one linear function. -/
theorem tet_linear {X : Matrix (Fin 4) (Fin 3) K} (h0 : ((tetDer : Matrix (Fin 3) (Fin 4) K) * X).det ≠ 0) (u : Fin 4 × Fin 3 → K) :
    ∃ c G, u = sample X (affine c G) := by
  rw [tetDer_mul] at h0
  set J : Matrix (Fin 3) (Fin 3) K := Matrix.of fun p i => X p.succ i - X 0 i with hJ
  let D : Matrix (Fin 3) (Fin 3) K := Matrix.of fun (p k : Fin 3) => u (p.succ, k) - u (0, k)
  let G : Matrix (Fin 3) (Fin 3) K := (J⁻¹ * D).transpose
  have hG : ∀ (p k : Fin 3), ∑ i, G k i * (X p.succ i - X 0 i) = u (p.succ, k) - u (0, k) := by
    intro p k
    have e : J * (J⁻¹ * D) = D := by
      rw [← Matrix.mul_assoc, Matrix.mul_nonsing_inv _ (isUnit_iff_ne_zero.2 h0), Matrix.one_mul]
    have := congrFun (congrFun e p) k
    rw [Matrix.mul_apply] at this
    simp only [D, Matrix.of_apply] at this
    rw [← this]
    refine Finset.sum_congr rfl fun i _ => ?_
    simp only [G, Matrix.transpose_apply, hJ, Matrix.of_apply]
    ring
  refine ⟨fun k => u (0, k) - ∑ i, G k i * X 0 i, G, ?_⟩
  funext ⟨a, k⟩
  unfold sample affine
  dsimp only
  refine Fin.cases ?_ (fun p => ?_) a
  · ring
  · have := hG p k
    simp only [mul_sub, Finset.sum_sub_distrib] at this
    linear_combination -this

theorem tet_jdet (X : Matrix (Fin 4) (Fin 3) K) {x : Shape K 3 4 × K} (hx : x ∈ ruleTet4) : jdet x.1 X = sixVolume X := by
  obtain ⟨y, -, rfl⟩ := List.mem_map.1 hx
  have hD : ∀ r s t : K, (shapeTet4 r s t).2 = (tetDer : Matrix (Fin 3) (Fin 4) K) := fun _ _ _ => rfl
  unfold jdet sixVolume
  rw [hD, tetDer_mul]

/-- C156.  The energy form of a tetrahedron is its volume times strain times stress. -/
theorem C156_element_energy {X : Matrix (Fin 4) (Fin 3) K} {E nu ρ : K} {k m} (h : Returns elastTet4 X [E, nu, ρ] k m)
    {C : Matrix (Fin 6) (Fin 6) K} (hC : elastMat [E, nu] = .ok C) (c c' : Fin 3 → K) (G G' : Matrix (Fin 3) (Fin 3) K) :
    sample X (affine c' G') ⬝ᵥ k.mulVec (sample X (affine c G)) = sixVolume X / 6 * (strainOf3 G' ⬝ᵥ C.mulVec (strainOf3 G)) := by
  obtain ⟨hg, hr⟩ := returns_solid (K := K) .tet4
  obtain ⟨C', ρ', ⟨-, h1, -⟩, ha, rfl, -⟩ := (hr _ _ _ _).1 h
  have h1' : elastMat [E, nu] = .ok C' := h1
  rw [hC, Except.ok.injEq] at h1'
  subst h1'
  unfold stiff3
  rw [stiff_form]
  have hs : ∀ x ∈ ruleTet4, ∀ c G, (bMat3 (grad x.1.2 X)).mulVec (sample X (affine c G)) = strainOf3 G := by
    intro x hx c G
    rw [bMat3_mulVec]
    simp only [grad_affine (tol_pos.trans (ha x hx)).ne' (hg.rows x hx)]
    rfl
  rw [List.map_congr_left (g := fun x => x.2 * (sixVolume X * (strainOf3 G' ⬝ᵥ C.mulVec (strainOf3 G)))) (fun x hx => by
    rw [hs x hx, hs x hx, tet_jdet X hx]
    ring), List.sum_map_mul_right]
  have : (List.map (fun x : Shape K 3 4 × K => x.2) ruleTet4).sum = 1 / 6 := by
    unfold ruleTet4
    simp [Gauss.ptsTet3, Gauss.wtsTet3]
    ring
  rw [this]
  ring

/-- A tetrahedron of the mesh. -/
theorem tet_member {el : List ℤ} {mb : Member K} (h : Describes elastTet4 mats nodes el mb) :
    ∃ mi, ∃ q : ℕ, ∃ E nu ρ C, el[2]? = some mi ∧ Resolves mats.length mi q ∧ mats[q]? = some [E, nu, ρ] ∧ elastMat [E, nu] = .ok C ∧
      (∀ u, ∃ c G, LinearOn3 nodes mb.nodes u c G) ∧
      ∀ V U c c' G G', LinearOn3 nodes mb.nodes V c' G' → LinearOn3 nodes mb.nodes U c G →
        mb.form 3 V U = tetVolume nodes mb.nodes * (strainOf3 G' ⬝ᵥ C.mulVec (strainOf3 G)) := by
  obtain ⟨mi, q, params, X, k, mm, a1, a2, a3, hr, hpl⟩ := member_placed3 .tet4 h
  obtain ⟨-, hr'⟩ := returns_solid (K := K) .tet4
  obtain ⟨C, ρ', hm, ha, -, -⟩ := (hr' _ _ _ _).1 hr
  obtain ⟨E, nu, ρ, rfl⟩ : ∃ E nu ρ, params = [E, nu, ρ] := by
    match params, hm.1 with
    | [E, nu, ρ], _ => exact ⟨E, nu, ρ, rfl⟩
  have hX : ∀ a : Fin 4, X a = placeOf nodes (mb.nodes.getD a 0) := by
    intro a
    funext i
    unfold placeOf coordOf fieldOf
    rw [hpl.coord a i]
    rfl
  have hpick : ∀ (u : ℕ → ℕ → K) c G, LinearOn3 nodes mb.nodes u c G ↔ mb.pick3 4 u = sample X (affine c G) := by
    intro u c G
    constructor
    · intro H
      funext ⟨a, j⟩
      have ha : (a : ℕ) < mb.nodes.length := by rw [hpl.size]; exact a.2
      unfold Member.pick3 sample
      dsimp only
      rw [hX a]
      refine H _ ?_ j
      rw [List.getD_eq_getElem?_getD, List.getElem?_eq_getElem ha, Option.getD_some]
      exact List.getElem_mem ha
    · intro H p hp j
      obtain ⟨a, ha, rfl⟩ := List.mem_iff_getElem.1 hp
      have := congrFun H (⟨a, by rw [← hpl.size]; exact ha⟩, j)
      unfold Member.pick3 sample at this
      dsimp only at this
      rw [hX, List.getD_eq_getElem?_getD, List.getElem?_eq_getElem ha, Option.getD_some] at this
      exact this
  have hv : sixVolume X / 6 = tetVolume nodes mb.nodes := by
    unfold tetVolume
    congr 2
    funext a
    exact hX a
  have hC : elastMat [E, nu] = .ok C := hm.2.1
  refine ⟨mi, q, E, nu, ρ, C, a1, a2, a3, hC, fun u => ?_, fun V U c c' G G' hV hU => ?_⟩
  · obtain ⟨c, G, e⟩ := tet_linear (X := X) (by
      have h6 := (acc_tet4 X).1 ha
      rw [tetDer_mul]
      exact (lt_trans (by norm_num) h6).ne') (mb.pick3 4 u)
    exact ⟨c, G, (hpick u c G).2 e⟩
  · rw [hpl.form, (hpick _ _ _).1 hV, (hpick _ _ _).1 hU, C156_element_energy hr hC, hv]

variable {T : (ℕ → ℕ → K) → ℕ → ℕ → K} {parent : Fin ms'.length → Fin ms.length}

/-- C156.  The interpolated field has the energy of the field. -/
theorem C156_energy (h : Refines3 T cons cons' elements elements' nodes nodes' ms ms' parent)
    (hms : List.Forall₂ (Describes elastTet4 mats nodes) elements ms) (hms' : List.Forall₂ (Describes elastTet4 mats nodes') elements' ms')
    (V U : ℕ → ℕ → K) : (ms'.map fun m => m.form 3 (T V) (T U)).sum = (ms.map fun m => m.form 3 V U).sum := by
  rw [sum_members, sum_members]
  have key : ∀ e : Fin ms.length, ∃ g : K, ms[e].form 3 V U = tetVolume nodes ms[e].nodes * g ∧
      ∀ e', parent e' = e → ms'[e'].form 3 (T V) (T U) = tetVolume nodes' ms'[e'].nodes * g := by
    intro e
    have he : (e : ℕ) < elements.length := by rw [hms.length_eq]; exact e.2
    have hmem : Describes elastTet4 mats nodes elements[(e : ℕ)] ms[e] := hms.get (i := e) he e.2
    obtain ⟨mi, q, E, nu, ρ, C, a1, a2, a3, a4, a5, a6⟩ := tet_member hmem
    obtain ⟨c, G, hU⟩ := a5 U
    obtain ⟨c', G', hV⟩ := a5 V
    refine ⟨strainOf3 G' ⬝ᵥ C.mulVec (strainOf3 G), a6 V U c c' G G' hV hU, fun e' hp => ?_⟩
    subst hp
    have he' : (e' : ℕ) < elements'.length := by rw [hms'.length_eq]; exact e'.2
    have hmem' : Describes elastTet4 mats nodes' elements'[(e' : ℕ)] ms'[e'] := hms'.get (i := e') he' e'.2
    obtain ⟨mi', q', E', nu', ρ', C', b1, b2, b3, b4, b5, b6⟩ := tet_member hmem'
    have hmat := h.material e' elements[(parent e' : ℕ)] (by
        rw [List.getElem?_eq_getElem he]; rfl) elements'[(e' : ℕ)] (by rw [List.getElem?_eq_getElem he']; rfl)
    rw [a1, b1, Option.some.injEq] at hmat
    subst hmat
    obtain rfl := resolves_unique a2 b2
    rw [a3, Option.some.injEq] at b3
    simp only [List.cons.injEq] at b3
    obtain ⟨rfl, rfl, -⟩ := b3
    rw [a4, Except.ok.injEq] at b4
    subst b4
    exact b6 (T V) (T U) c c' G G' (h.linear e' V c' G' hV) (h.linear e' U c G hU)
  choose g h1 h2 using key
  rw [← Finset.sum_fiberwise_of_maps_to (s := Finset.univ) (t := Finset.univ) (g := parent) (fun _ _ => Finset.mem_univ _)]
  refine Finset.sum_congr rfl fun e _ => ?_
  rw [h1 e, ← h.volume e, Finset.sum_mul]
  refine Finset.sum_congr rfl fun e' he' => ?_
  exact h2 e e' (Finset.mem_filter.1 he').2

variable {n n' m m' nd : ℕ} {f f' : Uel K} {count count' : ℤ → Py ℕ} {sp de sp' de' : Sol.Solver K} {F F' : ℕ → ℕ → K} {sparse sparse' : Bool}
  {tab tab' : ℤ → Py (Uel K)} {mats' : Table K}

/-- Energy of the difference of two nodal fields. -/
def Spec.gapEnergy (nd : ℕ) (ms : List (Member K)) (V U : ℕ → ℕ → K) : K := storedEnergy nd ms fun p j => V p j - U p j

theorem gapEnergy_eq (hs : SymmetricElements nd ms) (V U : ℕ → ℕ → K) : 2 * gapEnergy nd ms V U =
    (ms.map fun m => m.form nd V V).sum - 2 * (ms.map fun m => m.form nd U V).sum + (ms.map fun m => m.form nd U U).sum := by
  unfold gapEnergy
  rw [← stored_sum]
  have e : (fun p j => V p j - U p j) = fun p j => 1 * V p j + -1 * U p j := by
    funext p j
    ring
  rw [e, forms_square ms (form_symm_of hs)]
  ring

/-- Fields of a first model carried to a second model keep their energy and vanish at its supports. -/
structure Spec.Nested (nd : ℕ) (T : (ℕ → ℕ → K) → ℕ → ℕ → K) (cons cons' : Table K) (ms ms' : List (Member K)) : Prop where
  supports : ∀ u, Admissible cons nd u → Admissible cons' nd (T u)
  energy : ∀ V U, (ms'.map fun m => m.form nd (T V) (T U)).sum = (ms.map fun m => m.form nd V U).sum

/-- Models of any user's elements: what the loads gain is the energy of the change of the displacements. -/
theorem nested_gap (hn : Nested nd T cons cons' ms ms') (h : UserCase nd n m f count sp de cons elements mats nodes ms)
    (h' : UserCase nd n' m' f' count' sp' de' cons' elements' mats' nodes' ms') (hs : SymmetricElements nd ms) (hs' : SymmetricElements nd ms')
    (hst : Stable cons nd ms) (hst' : Stable cons' nd ms') (hF : UserLoads nd nodes.length loads F) (hF' : UserLoads nd nodes'.length loads' F')
    (hw : ∀ u, Admissible cons nd u → loadWork nd nodes'.length F' (T u) = loadWork nd nodes.length F u)
    (hr : userRun tab f nd m count sp de sparse cons elements mats nodes loads = .ok full)
    (hr' : userRun tab' f' nd m' count' sp' de' sparse' cons' elements' mats' nodes' loads' = .ok full')
    {V : ℕ → ℕ → K} (hV : Admissible cons nd V) :
    gapEnergy nd ms' (fieldOf full') (T V) = gapEnergy nd ms (fieldOf full) V +
      1 / 2 * (loadWork nd nodes'.length F' (fieldOf full') - loadWork nd nodes.length F (fieldOf full)) := by
  have e := (h.virtual hF).1 (h.equilibrium hst hr)
  have e' := (h'.virtual hF').1 (h'.equilibrium hst' hr')
  have w1 := e.2 V hV
  have w2 := e.2 _ e.1
  have w3 := e'.2 _ (hn.supports V hV)
  have w4 := e'.2 _ e'.1
  have w5 := hw V hV
  have g := gapEnergy_eq hs (fieldOf full) V
  have g' := gapEnergy_eq hs' (fieldOf full') (T V)
  rw [hn.energy, ← w3, ← w4] at g'
  rw [← w1, ← w2] at g
  rw [w5] at g'
  linarith

/-- C156.  Refining a mesh of tetrahedra: what the loads gain is the energy of the change of the displacements. -/
theorem C156_gap (hn : Refines3 T cons cons' elements elements' nodes nodes' ms ms' parent)
    (h : UserCase 3 4 m elastTet4 count sp de cons elements mats nodes ms)
    (h' : UserCase 3 4 m' elastTet4 count' sp' de' cons' elements' mats nodes' ms')
    (hst : Stable cons 3 ms) (hst' : Stable cons' 3 ms') (hF : UserLoads 3 nodes.length loads F) (hF' : UserLoads 3 nodes'.length loads' F')
    (hw : ∀ u, Admissible cons 3 u → loadWork 3 nodes'.length F' (T u) = loadWork 3 nodes.length F u)
    (hr : userRun tab elastTet4 3 m count sp de sparse cons elements mats nodes loads = .ok full)
    (hr' : userRun tab' elastTet4 3 m' count' sp' de' sparse' cons' elements' mats nodes' loads' = .ok full')
    {V : ℕ → ℕ → K} (hV : Admissible cons 3 V) :
    gapEnergy 3 ms' (fieldOf full') (T V) = gapEnergy 3 ms (fieldOf full) V +
      1 / 2 * (loadWork 3 nodes'.length F' (fieldOf full') - loadWork 3 nodes.length F (fieldOf full)) :=
  nested_gap ⟨hn.supports, C156_energy hn h.members h'.members⟩ h h' (C155_library .tet4 h.members).2.1 (C155_library .tet4 h'.members).2.1
    hst hst' hF hF' hw hr hr' hV

theorem gapEnergy_self (hs : SymmetricElements nd ms) (U : ℕ → ℕ → K) : gapEnergy nd ms U U = 0 := by
  have := gapEnergy_eq hs U U
  linarith

/-- C156.  On the refined mesh the same loads do at least as much work. -/
theorem C156_softer (hn : Refines3 T cons cons' elements elements' nodes nodes' ms ms' parent)
    (h : UserCase 3 4 m elastTet4 count sp de cons elements mats nodes ms)
    (h' : UserCase 3 4 m' elastTet4 count' sp' de' cons' elements' mats nodes' ms') (he : ElasticMats mats elements')
    (hst : Stable cons 3 ms) (hst' : Stable cons' 3 ms') (hF : UserLoads 3 nodes.length loads F) (hF' : UserLoads 3 nodes'.length loads' F')
    (hw : ∀ u, Admissible cons 3 u → loadWork 3 nodes'.length F' (T u) = loadWork 3 nodes.length F u)
    (hr : userRun tab elastTet4 3 m count sp de sparse cons elements mats nodes loads = .ok full)
    (hr' : userRun tab' elastTet4 3 m' count' sp' de' sparse' cons' elements' mats nodes' loads' = .ok full') :
    loadWork 3 nodes.length F (fieldOf full) ≤ loadWork 3 nodes'.length F' (fieldOf full') := by
  have e := (h.virtual hF).1 (h.equilibrium hst hr)
  have g := C156_gap hn h h' hst hst' hF hF' hw hr hr' e.1
  rw [gapEnergy_self (C155_library .tet4 h.members).2.1] at g
  have g0 : 0 ≤ gapEnergy 3 ms' (fieldOf full') (T (fieldOf full)) := stored_nonneg ((C155_library .tet4 h'.members).2.2 he) _
  linarith

/-- C156.  Of all fields of the coarse mesh its displacements are the nearest, in energy, to those of the refined mesh. -/
theorem C156_nearest (hn : Refines3 T cons cons' elements elements' nodes nodes' ms ms' parent)
    (h : UserCase 3 4 m elastTet4 count sp de cons elements mats nodes ms)
    (h' : UserCase 3 4 m' elastTet4 count' sp' de' cons' elements' mats nodes' ms') (he : ElasticMats mats elements)
    (hst : Stable cons 3 ms) (hst' : Stable cons' 3 ms') (hF : UserLoads 3 nodes.length loads F) (hF' : UserLoads 3 nodes'.length loads' F')
    (hw : ∀ u, Admissible cons 3 u → loadWork 3 nodes'.length F' (T u) = loadWork 3 nodes.length F u)
    (hr : userRun tab elastTet4 3 m count sp de sparse cons elements mats nodes loads = .ok full)
    (hr' : userRun tab' elastTet4 3 m' count' sp' de' sparse' cons' elements' mats nodes' loads' = .ok full')
    {V : ℕ → ℕ → K} (hV : Admissible cons 3 V) :
    gapEnergy 3 ms' (fieldOf full') (T (fieldOf full)) ≤ gapEnergy 3 ms' (fieldOf full') (T V) := by
  have e := (h.virtual hF).1 (h.equilibrium hst hr)
  rw [C156_gap hn h h' hst hst' hF hF' hw hr hr' e.1, C156_gap hn h h' hst hst' hF hF' hw hr hr' hV,
    gapEnergy_self (C155_library .tet4 h.members).2.1]
  have g0 : 0 ≤ gapEnergy 3 ms (fieldOf full) V := stored_nonneg ((C155_library .tet4 h.members).2.2 he) _
  linarith

end

section demo

/-- One tetrahedron held at three nodes, and the same halved by a plane through the middle of one edge. -/
def oneNodes : Table ℚ := [[0, 0, 0, 0], [1, 1, 0, 0], [2, 0, 1, 0], [3, 0, 0, 1]]
def oneCons : Table ℚ := [[-1, -1, -1], [-1, -1, -1], [-1, -1, -1], [0, 0, 0]]
def oneEls : List (List ℤ) := [[0, 9, 0, 0, 1, 2, 3]]
def halfNodes : Table ℚ := [[0, 0, 0, 0], [1, 1, 0, 0], [2, 0, 1, 0], [3, 0, 0, 1], [4, 0, 1/2, 1/2]]
def halfCons : Table ℚ := [[-1, -1, -1], [-1, -1, -1], [-1, -1, -1], [0, 0, 0], [0, 0, 0]]
def halfEls : List (List ℤ) := [[0, 9, 0, 0, 1, 2, 4], [1, 9, 0, 0, 1, 4, 3]]

/-- The new node moves with the edge. -/
def onEdge (u : ℕ → ℕ → ℚ) (p j : ℕ) : ℚ := if p = 4 then (u 2 j + u 3 j) / 2 else u p j

theorem one_body : ∃ a, SolidBody 4 elastTet4 oneEls tetMats oneNodes [a] ∧ a.nodes = [0, 1, 2, 3] := by
  obtain ⟨a, ha, na⟩ := describe_exists (f := elastTet4) (mats := tetMats) (nodes := oneNodes) (id := 0) (ty := 9) (ps := [0, 1, 2, 3])
    (params := [10, 1/4, 1]) (rows := [[0, 0, 0, 0], [1, 1, 0, 0], [2, 0, 1, 0], [3, 0, 0, 1]]) rfl
    (.cons rfl (.cons rfl (.cons rfl (.cons rfl .nil)))) (by decide +kernel)
  refine ⟨a, ⟨.cons ha .nil, .inl ⟨rfl, rfl⟩, ?_, ?_, ?_⟩, na⟩
  · intro el _ mi q params _ _ hp
    refine ⟨10, 1/4, 1, ?_, by norm_num, by norm_num, by norm_num, by norm_num⟩
    match q, hp with
    | 0, hp => simpa [tetMats] using hp.symm
    | q + 1, hp => simp [tetMats] at hp
  · intro p hp
    have : p < 4 := hp
    exact ⟨a, by simp, by rw [na]; interval_cases p <;> simp⟩
  · intro x hx y hy
    simp only [List.mem_cons, List.not_mem_nil, or_false] at hx hy
    rw [hx, hy]

theorem half_body : ∃ a b, SolidBody 4 elastTet4 halfEls tetMats halfNodes [a, b] ∧ a.nodes = [0, 1, 2, 4] ∧ b.nodes = [0, 1, 4, 3] := by
  obtain ⟨a, ha, na⟩ := describe_exists (f := elastTet4) (mats := tetMats) (nodes := halfNodes) (id := 0) (ty := 9) (ps := [0, 1, 2, 4])
    (params := [10, 1/4, 1]) (rows := [[0, 0, 0, 0], [1, 1, 0, 0], [2, 0, 1, 0], [4, 0, 1/2, 1/2]]) rfl
    (.cons rfl (.cons rfl (.cons rfl (.cons rfl .nil)))) (by decide +kernel)
  obtain ⟨b, hb, nb⟩ := describe_exists (f := elastTet4) (mats := tetMats) (nodes := halfNodes) (id := 1) (ty := 9) (ps := [0, 1, 4, 3])
    (params := [10, 1/4, 1]) (rows := [[0, 0, 0, 0], [1, 1, 0, 0], [4, 0, 1/2, 1/2], [3, 0, 0, 1]]) rfl
    (.cons rfl (.cons rfl (.cons rfl (.cons rfl .nil)))) (by decide +kernel)
  have face : Bent halfNodes 0 1 4 := by unfold Bent; decide +kernel
  refine ⟨a, b, ⟨.cons ha (.cons hb .nil), .inl ⟨rfl, rfl⟩, ?_, ?_, ?_⟩, na, nb⟩
  · intro el _ mi q params _ _ hp
    refine ⟨10, 1/4, 1, ?_, by norm_num, by norm_num, by norm_num, by norm_num⟩
    match q, hp with
    | 0, hp => simpa [tetMats] using hp.symm
    | q + 1, hp => simp [tetMats] at hp
  · intro p hp
    have : p < 3 ∨ p = 3 ∨ p = 4 := by simp [halfNodes] at hp; omega
    rcases this with h | rfl | rfl
    · exact ⟨a, by simp, by rw [na]; interval_cases p <;> simp⟩
    · exact ⟨b, by simp, by rw [nb]; simp⟩
    · exact ⟨b, by simp, by rw [nb]; simp⟩
  · have hab : SharesFace halfNodes a b := ⟨0, 1, 4, by rw [na]; simp, by rw [na]; simp, by rw [na]; simp, by rw [nb]; simp,
      by rw [nb]; simp, by rw [nb]; simp, face⟩
    have hba : SharesFace halfNodes b a := ⟨0, 1, 4, by rw [nb]; simp, by rw [nb]; simp, by rw [nb]; simp, by rw [na]; simp,
      by rw [na]; simp, by rw [na]; simp, face⟩
    intro x hx y hy
    simp only [List.mem_cons, List.not_mem_nil, or_false] at hx hy
    rcases hx with rfl | rfl <;> rcases hy with rfl | rfl
    · exact .refl
    · exact .single ⟨by simp, hab⟩
    · exact .single ⟨by simp, hba⟩
    · exact .refl

theorem one_model : UserModel 3 4 oneCons oneNodes oneEls where
  codes := by
    intro p j v _ h
    have : ∀ r ∈ oneCons, ∀ x ∈ r, x = 0 ∨ x = -1 := by decide +kernel
    obtain ⟨r, h1, h2⟩ := entry_some.1 h
    exact this r (List.mem_of_getElem? h1) v (List.mem_of_getElem? h2)
  width := by decide
  size := rfl
  typed := by decide

theorem half_model : UserModel 3 4 halfCons halfNodes halfEls where
  codes := by
    intro p j v _ h
    have : ∀ r ∈ halfCons, ∀ x ∈ r, x = 0 ∨ x = -1 := by decide +kernel
    obtain ⟨r, h1, h2⟩ := entry_some.1 h
    exact this r (List.mem_of_getElem? h1) v (List.mem_of_getElem? h2)
  width := by decide
  size := rfl
  typed := by decide

theorem one_held : Spec.Held oneCons oneNodes ∧ Spec.Held halfCons halfNodes := by
  have fix : ∀ p < 3, ∀ j < 3, ¬ Free oneCons 3 p j := by
    intro p hp j hj hf
    have := hf.2
    interval_cases p <;> interval_cases j <;> revert this <;> decide +kernel
  have fix' : ∀ p < 3, ∀ j < 3, ¬ Free halfCons 3 p j := by
    intro p hp j hj hf
    have := hf.2
    interval_cases p <;> interval_cases j <;> revert this <;> decide +kernel
  exact ⟨C136_three_pins rfl (p := 0) (q := 1) (r := 2) (by decide) (by decide) (by decide) (.inl (by decide +kernel))
    (fix 0 (by omega)) (fix 1 (by omega)) (fix 2 (by omega)),
    C136_three_pins rfl (p := 0) (q := 1) (r := 2) (by decide) (by decide) (by decide) (.inl (by decide +kernel))
    (fix' 0 (by omega)) (fix' 1 (by omega)) (fix' 2 (by omega))⟩

theorem half_place : placeOf halfNodes 4 = fun i => (placeOf oneNodes 2 i + placeOf oneNodes 3 i) / 2 := by
  funext i
  fin_cases i <;> norm_num [placeOf, coordOf, fieldOf, entry, halfNodes, oneNodes]

theorem half_place' (p : ℕ) (hp : p < 4) : placeOf halfNodes p = placeOf oneNodes p := by
  funext i
  interval_cases p <;> fin_cases i <;> norm_num [placeOf, coordOf, fieldOf, entry, halfNodes, oneNodes]

theorem half_refines {a b c : Member ℚ} (ha : a.nodes = [0, 1, 2, 3]) (hb : b.nodes = [0, 1, 2, 4]) (hc : c.nodes = [0, 1, 4, 3]) :
    Refines3 onEdge oneCons halfCons oneEls halfEls oneNodes halfNodes [a] [b, c] ![0, 0] where
  material := by
    intro e el hel el' hel'
    fin_cases e <;>
    · simp [oneEls] at hel
      simp [halfEls] at hel'
      rw [← hel, ← hel']
      rfl
  volume := by
    intro e
    fin_cases e
    rw [Finset.sum_filter]
    change (∑ e' : Fin 2, if (![0, 0] : Fin 2 → Fin 1) e' = 0 then tetVolume halfNodes [b, c][(e' : ℕ)].nodes else 0) =
      tetVolume oneNodes a.nodes
    rw [Fin.sum_univ_two, if_pos (by decide), if_pos (by decide)]
    change tetVolume halfNodes b.nodes + tetVolume halfNodes c.nodes = _
    rw [ha, hb, hc]
    decide +kernel
  linear := by
    intro e u c0 G h
    have h : LinearOn3 oneNodes a.nodes u c0 G := by fin_cases e <;> exact h
    rw [ha] at h
    have key : ∀ p, p < 5 → ∀ j : Fin 3, onEdge u p j = affine c0 G (placeOf halfNodes p) j := by
      intro p hp j
      unfold onEdge
      by_cases h4 : p = 4
      · subst h4
        rw [if_pos rfl, h 2 (by simp) j, h 3 (by simp) j, half_place]
        unfold affine
        simp only [Fin.sum_univ_three]
        ring
      · rw [if_neg h4, half_place' p (by omega)]
        exact h p (by simp; omega) j
    intro p hp j
    refine key p ?_ j
    fin_cases e
    · have : p ∈ b.nodes := hp
      rw [hb] at this
      simp at this
      omega
    · have : p ∈ c.nodes := hp
      rw [hc] at this
      simp at this
      omega
  supports := by
    intro u hu p j hp hj hf
    have hp : p < 5 := hp
    unfold onEdge
    by_cases h4 : p = 4
    · subst h4
      exact absurd ⟨hj, by interval_cases j <;> decide +kernel⟩ hf
    · rw [if_neg h4]
      refine hu p j (by simp [oneCons]; omega) hj fun h => hf ⟨hj, ?_⟩
      have := h.2
      revert this
      have hp' : p < 4 := by omega
      interval_cases p <;> interval_cases j <;> decide +kernel

/-- Case for C156: with two tetrahedra the loaded corner yields at least as much as with one. -/
example (tab : ℤ → Py (Uel ℚ)) (sparse : Bool) : ∃ full full',
    userRun tab elastTet4 3 12 (fun _ => .ok 12) cramerSolver cramerSolver sparse oneCons oneEls tetMats oneNodes [[3, 0, 0, 1]] = .ok full ∧
    userRun tab elastTet4 3 12 (fun _ => .ok 12) cramerSolver cramerSolver sparse halfCons halfEls tetMats halfNodes [[3, 0, 0, 1]] = .ok full' ∧
    fieldOf full 3 2 ≤ fieldOf full' 3 2 := by
  obtain ⟨a, ba, na⟩ := one_body
  obtain ⟨b, c, bb, nb, nc⟩ := half_body
  have h : UserCase 3 4 12 elastTet4 (fun _ => .ok 12) cramerSolver cramerSolver oneCons oneEls tetMats oneNodes [a] :=
    ⟨elementOf_solid .tet4, one_model, by
      intro el hel
      simp only [oneEls, List.mem_cons, List.not_mem_nil, or_false] at hel
      subst hel
      exact ⟨9, rfl, rfl⟩, by norm_num, by norm_num, ba.members, cramerSolver_ok, cramerSolver_ok⟩
  have h' : UserCase 3 4 12 elastTet4 (fun _ => .ok 12) cramerSolver cramerSolver halfCons halfEls tetMats halfNodes [b, c] :=
    ⟨elementOf_solid .tet4, half_model, by
      intro el hel
      simp only [halfEls, List.mem_cons, List.not_mem_nil, or_false] at hel
      rcases hel with rfl | rfl <;> exact ⟨9, rfl, rfl⟩, by norm_num, by norm_num, bb.members, cramerSolver_ok, cramerSolver_ok⟩
  have s := (C136_stable_iff (cons := oneCons) ba rfl).2 one_held.1
  have s' := (C136_stable_iff (cons := halfCons) bb rfl).2 one_held.2
  have l : ∀ n, 3 < n → UserLoads (K := ℚ) 3 n [[3, 0, 0, 1]] (fun a b => if a = 3 ∧ b = 2 then 1 else 0) := fun n hn p _ j hj => by
    have n1 : ∀ q, Names n ([3, 0, 0, 1] : List ℚ) q ↔ q = 3 := fun q => names_nat (p := 3) (q := q) hn (by simp)
    by_cases hp : p = 3
    · subst hp
      refine .inr ⟨[], [3, 0, 0, 1], [], rfl, (n1 3).2 rfl, by simp, ?_⟩
      interval_cases j <;> simp
    · refine .inl ⟨fun L hL hN => ?_, by simp [hp]⟩
      rw [List.mem_singleton] at hL
      subst hL
      exact hp ((n1 p).1 hN)
  obtain ⟨full, r, -⟩ := C135_solved (tab := tab) (loads := [[3, 0, 0, 1]]) h.element h.model h.counts h.some_dofs h.room h.members s
    h.sparse h.dense sparse (by
      intro L hL
      rw [List.mem_singleton] at hL
      subst hL
      exact ⟨by simp, 3, (names_nat (p := 3) (q := 3) (by decide) (by simp)).2 rfl⟩)
  obtain ⟨full', r', -⟩ := C135_solved (tab := tab) (loads := [[3, 0, 0, 1]]) h'.element h'.model h'.counts h'.some_dofs h'.room h'.members s'
    h'.sparse h'.dense sparse (by
      intro L hL
      rw [List.mem_singleton] at hL
      subst hL
      exact ⟨by simp, 3, (names_nat (p := 3) (q := 3) (by decide) (by simp)).2 rfl⟩)
  refine ⟨full, full', r, r', ?_⟩
  have he : ElasticMats tetMats halfEls := by
    intro el hel mi q params b1 b2 b3
    obtain ⟨E, nu, ρ, c1, c2, c3⟩ := bb.elastic el hel mi q params b1 b2 b3
    exact ⟨E, nu, ρ, c1, c2.le, c3⟩
  have key := C156_softer (half_refines na nb nc) h h' he s s' (l _ (by decide)) (l _ (by decide)) (fun u _ => by
    rw [loadWork_unit (by decide) (by norm_num), loadWork_unit (by decide) (by norm_num)]
    rfl) r r'
  rwa [loadWork_unit (by decide) (by norm_num), loadWork_unit (by decide) (by norm_num)] at key

end demo
end SolidsPy
