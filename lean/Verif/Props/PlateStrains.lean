import Verif.Props.GridModel
import Verif.Props.Recovery

/-! # C100: runs with strains -/

set_option linter.unusedSectionVars false

namespace SolidsPy
open Spec Assem Matrix Fem Uel Gauss Pre

section
variable {K : Type} [Field K] [LinearOrder K] [IsStrictOrderedRing K] [FloorRing K]
variable {sq : K → K} {sp de : Sol.Solver K} {d : Gui.Data K} {plot : Bool} {res : Gui.Result K}
  {ms : List (Member K)} {L H E nu : K} {nx ny : ℕ}

theorem strains_quad4 {X : Matrix (Fin 4) (Fin 2) K} {params : List K} {k m} (h : Returns elastQuad4 X params k m)
    (ul : Table K) : ∃ eps, Post.elemStrains 1 (matRows X) ul = .ok eps ∧ 4 ≤ eps.length := by
  obtain ⟨-, st, hr⟩ := returns_plane (K := K) .quad4
  obtain ⟨C, ρ, -, ha, -⟩ := (hr _ _ _ _).1 h
  have hm : ∀ p ∈ [((-0.577350269189625764, -0.577350269189625764) : ℚ × ℚ), (-0.577350269189625764, 0.577350269189625764),
       (0.577350269189625764, -0.577350269189625764), (0.577350269189625764, 0.577350269189625764)],
      1e-8 < jdet (shapeQuad4 (p.1 : K) (p.2 : K)) X := by
    intro p hp
    simp only [List.mem_cons, List.not_mem_nil, or_false] at hp
    have key : ∃ w, (shapeQuad4 (p.1 : K) (p.2 : K), w) ∈ ruleQuad shapeQuad4 pts1d2 wts1d2 := by
      rcases hp with rfl | rfl | rfl | rfl
      · exact ⟨_, List.mem_of_getElem? (i := 0) rfl⟩
      · exact ⟨_, List.mem_of_getElem? (i := 1) rfl⟩
      · exact ⟨_, List.mem_of_getElem? (i := 2) rfl⟩
      · exact ⟨_, List.mem_of_getElem? (i := 3) rfl⟩
    obtain ⟨w, hw⟩ := key
    have h8 := ha _ hw
    exact h8
  have he := StrainRoutine.el4.ok (u := fun a => (ul.getD a.1 []).getD a.2 0) (X := X) |>.2 ⟨hm, rfl, rfl⟩
  refine ⟨_, by simp only [Post.elemStrains, toMat_matRows, ok_bind, he]; rfl, ?_⟩
  · simp

theorem strains_tri6 {X : Matrix (Fin 6) (Fin 2) K} {params : List K} {k m} (h : Returns elastTri6 X params k m)
    (ul : Table K) : ∃ eps, Post.elemStrains 2 (matRows X) ul = .ok eps ∧ 6 ≤ eps.length := by
  obtain ⟨-, st, hr⟩ := returns_plane (K := K) .tri6
  obtain ⟨C, ρ, -, ha, -⟩ := (hr _ _ _ _).1 h
  have hm : ∀ p ∈ ptsTri3, 1e-8 < jdet (shapeTri6 (p.1 : K) (p.2 : K)) X := by
    intro p hp
    obtain ⟨i, hi⟩ := List.getElem?_of_mem hp
    have hw : ∃ w, (p, w) ∈ ptsTri3.zip wtsTri3 := by
      have hlt : i < wtsTri3.length := (List.getElem?_eq_some_iff.1 hi).1
      exact ⟨_, List.mem_of_getElem? (i := i) (List.getElem?_zip_eq_some.2 ⟨hi, List.getElem?_eq_getElem hlt⟩)⟩
    obtain ⟨w, hw⟩ := hw
    have h8 := ha _ (List.mem_map.2 ⟨_, hw, rfl⟩)
    exact h8
  have he := StrainRoutine.el6.ok (u := fun a => (ul.getD a.1 []).getD a.2 0) (X := X) |>.2 ⟨hm, rfl, rfl⟩
  refine ⟨_, by simp only [Post.elemStrains, toMat_matRows, ok_bind, he]; rfl, ?_⟩
  · simp [ptsTri3]

theorem strains_tri3 {X : Matrix (Fin 3) (Fin 2) K} {params : List K} {k m} (h : Returns elastTri3 X params k m)
    (ul : Table K) : ∃ eps, Post.elemStrains 3 (matRows X) ul = .ok eps ∧ 3 ≤ eps.length := by
  obtain ⟨-, st, hr⟩ := returns_plane (K := K) .tri3
  obtain ⟨C, ρ, -, ha, -⟩ := (hr _ _ _ _).1 h
  have hc : ∀ r s r' s' : K, jdet (shapeTri3 r s) X = jdet (shapeTri3 r' s') X := fun _ _ _ _ => rfl
  have hm : ∀ p ∈ ptsTri1, 1e-8 < jdet (shapeTri3 (p.1 : K) (p.2 : K)) X := by
    intro p hp
    have := ha _ (List.mem_of_getElem? (i := 0) rfl)
    rw [hc _ _ _ _]
    exact this
  have he := StrainRoutine.el3.ok (u := fun a => (ul.getD a.1 []).getD a.2 0) (X := X) |>.2 ⟨hm, rfl, rfl⟩
  refine ⟨_, by simp only [Post.elemStrains, toMat_matRows, ok_bind, he]; rfl, ?_⟩
  · simp [ptsTri1]

/-- Coordinates read by `strain_nodes` are those handed to the element routine. -/
theorem coordsOf_rows {nodes : Table K} (h3 : ∀ r ∈ nodes, r.length = 3) {el : List ℤ} {ps : List ℕ}
    {rows : List (List K)} (h1 : List.Forall₂ (Resolves nodes.length) (el.drop 3) ps)
    (h2 : List.Forall₂ (fun p row => nodes[p]? = some row) ps rows) :
    coordsOf nodes el = .ok (rows.map (List.drop 1)) := by
  unfold coordsOf
  rw [mapM_ok]
  generalize el.drop 3 = zs at h1
  induction h1 generalizing rows with
  | nil => cases h2; exact .nil
  | cons hr _ ih =>
    cases h2 with
    | @cons _ row _ _ hrow t =>
      refine .cons ?_ (ih t)
      rw [pyGet_resolves.2 ⟨_, hr, hrow⟩, ok_bind]
      have := h3 row (List.mem_of_getElem? hrow)
      match row, this with
      | [a, b, c], _ =>
        rw [pyGet_one.2 rfl, ok_bind, pyGet_two.2 rfl, ok_bind]
        rfl

/-- C100.  `strain_nodes` returns on every plane mesh of one type (1, 2 or 3) whose elements are accepted and whose
materials have two values, for every table of displacements. -/
theorem C100_strain_nodes_returns (h3 : ∀ r ∈ d.nodes, r.length = 3) (hms : Members sq d ms) {ty : ℤ}
    (hty : ty = 1 ∨ ty = 2 ∨ ty = 3) (hall : ∀ el ∈ d.elements, el[1]? = some ty) (hne : d.elements ≠ [])
    (hmat : ∀ r ∈ d.mats, r.length = 2) {sol : Table K} (hl : sol.length = d.nodes.length)
    (hsol : ∀ r ∈ sol, 2 ≤ r.length) :
    ∃ E S, Post.strainNodes d.nodes d.elements d.mats sol = .ok (E, S) := by
  have part : ∀ el ∈ d.elements, ∀ ndof nne ng, Assem.eletype ty = .ok (ndof, nne, ng) →
      ∃ eps C, ElemPart ty ndof nne d.nodes d.mats sol el eps C ∧
        (∀ z ∈ el.drop 3, ∃ k, Resolves d.nodes.length z k) ∧ (el.drop 3).length ≤ eps.length := by
    intro el hel ndof nne ng het
    obtain ⟨i, hi, rfl⟩ := List.mem_iff_getElem.1 hel
    have hi' : i < ms.length := by rw [← hms.length_eq]; exact hi
    have hm := hms.get (i := i) hi hi'
    simp only [List.get_eq_getElem] at hm
    generalize d.elements[i] = el at hm hel
    obtain ⟨ty', mi, params, rows, f, kl, ml, a1, a2, ⟨q, a3, a4⟩, a5, a6, a7, a8, a9⟩ := hm
    rw [hall el hel, Option.some.injEq] at a1
    subst a1
    have hx := coordsOf_rows h3 a5 a6
    obtain ⟨us, hus⟩ : ∃ us, dispOf sol el = .ok us := by
      unfold dispOf
      rw [mapM_exists]
      intro z hz
      obtain ⟨j, hj, rfl⟩ := List.mem_iff_getElem.1 hz
      have hj' := a5.length_eq ▸ hj
      have hr := a5.get (i := j) hj hj'
      simp only [List.get_eq_getElem] at hr
      rw [← hl] at hr
      obtain ⟨u, hu⟩ : ∃ u, pyGet sol (el.drop 3)[j] = .ok u := by
        refine ⟨_, pyGet_resolves.2 ⟨_, hr, List.getElem?_eq_getElem ?_⟩⟩
        unfold Resolves at hr
        omega
      obtain ⟨_, _, hu'⟩ := pyGet_resolves.1 hu
      have hu2 := hsol u (List.mem_of_getElem? hu')
      match u, hu2 with
      | a :: b :: t, _ =>
        rw [hu, ok_bind, pyGet_zero.2 rfl, ok_bind, pyGet_one.2 rfl, ok_bind]
        exact ⟨_, rfl⟩
    have hres : ∀ z ∈ el.drop 3, ∃ k, Resolves d.nodes.length z k := by
      intro z hz
      obtain ⟨j, hj, rfl⟩ := List.mem_iff_getElem.1 hz
      have hj' := a5.length_eq ▸ hj
      have hr := a5.get (i := j) hj hj'
      simp only [List.get_eq_getElem] at hr
      exact ⟨_, hr⟩
    have hp2 := hmat params (List.mem_of_getElem? a4)
    have hlen : (el.drop 3).length = rows.length := a5.length_eq.trans a6.length_eq
    have hmi : pyGet d.mats mi = .ok params := pyGet_resolves.2 ⟨q, a3, a4⟩
    unfold Routine at a7
    have fin : ∀ {n : ℕ} {X : Matrix (Fin n) (Fin 2) K} {k m} (hpe : PlaneElement n f),
        rows.map (List.drop 1) = matRows X → Returns f X params k m →
        ndof = 2 * n → nne = n →
        (∃ eps, Post.elemStrains ty (matRows X) us = .ok eps ∧ n ≤ eps.length) →
        ∃ eps C, ElemPart ty ndof nne d.nodes d.mats sol el eps C ∧
        (∀ z ∈ el.drop 3, ∃ k, Resolves d.nodes.length z k) ∧ (el.drop 3).length ≤ eps.length := by
      rintro n X k m hpe hX hr rfl rfl ⟨eps, he, hle⟩
      obtain ⟨R, hR⟩ := plane_rule hpe
      obtain ⟨-, st, hrr⟩ := returns_plane hR
      obtain ⟨C, ρ, hC, -⟩ := (hrr _ _ _ _).1 hr
      have hn : rows.length = nne := by
        have := congrArg List.length hX
        simpa [matRows] using this
      refine ⟨eps, C, ⟨mi, params, _, us, pyGet_two.2 a2, hmi, ?_, by rw [hlen, hn], rfl, hx, hus, by rw [hX]; exact he⟩,
        hres, by rw [hlen, hn]; exact hle⟩
      have := hC.2.1
      rwa [List.take_of_length_le (by omega)] at this
    rcases hty with rfl | rfl | rfl
    · simp only [eleFun, Except.ok.injEq] at a7
      subst a7
      obtain ⟨X, k, m, hX, -, -, hr⟩ := C38_plane_shape .quad4 a8
      simp only [eletype, Except.ok.injEq, Prod.mk.injEq] at het
      exact fin .quad4 hX hr het.1.symm het.2.1.symm (strains_quad4 hr us)
    · simp only [eleFun, Except.ok.injEq] at a7
      subst a7
      obtain ⟨X, k, m, hX, -, -, hr⟩ := C38_plane_shape .tri6 a8
      simp only [eletype, Except.ok.injEq, Prod.mk.injEq] at het
      exact fin .tri6 hX hr het.1.symm het.2.1.symm (strains_tri6 hr us)
    · simp only [eleFun, Except.ok.injEq] at a7
      subst a7
      obtain ⟨X, k, m, hX, -, -, hr⟩ := C38_plane_shape .tri3 a8
      simp only [eletype, Except.ok.injEq, Prod.mk.injEq] at het
      exact fin .tri3 hX hr het.1.symm het.2.1.symm (strains_tri3 hr us)
  obtain ⟨⟨ndof, nne, ng⟩, het⟩ : ∃ t, Assem.eletype ty = .ok t := by
    rcases hty with rfl | rfl | rfl <;> exact ⟨_, rfl⟩
  have loop : ∀ (l : List (List ℤ)) (acc : Post.NodeAcc K d.nodes.length), (∀ el ∈ l, el ∈ d.elements) →
      ∃ acc', l.foldlM (Post.strainElem ty ndof nne d.nodes d.mats sol) acc = .ok acc' := by
    intro l
    induction l with
    | nil => exact fun acc _ => ⟨acc, rfl⟩
    | cons el l ih =>
      intro acc hl
      obtain ⟨eps, C, h1, h2, h3⟩ := part el (hl el List.mem_cons_self) ndof nne ng het
      rw [List.foldlM_cons, strainElem_ok.2 ⟨eps, C, h1, h2, h3, rfl⟩, ok_bind]
      exact ih _ fun e he => hl e (List.mem_cons_of_mem _ he)
  obtain ⟨el0, els, hels⟩ := List.exists_cons_of_ne_nil hne
  obtain ⟨acc', hacc⟩ := loop d.elements ⟨fun _ _ => 0, fun _ _ => 0, fun _ => 0⟩ fun _ h => h
  unfold Post.strainNodes
  have h0 : pyGet d.elements 0 = .ok el0 := pyGet_zero.2 (by rw [hels]; rfl)
  rw [h0, ok_bind, pyGet_one.2 (hall el0 (by rw [hels]; exact List.mem_cons_self)), ok_bind, het, ok_bind]
  dsimp only
  rw [hacc, ok_bind]
  exact ⟨_, _, rfl⟩

/-- C100.  Asking for strains changes nothing else in a run: `solids_auto` with strains returns exactly when it returns
without them and `strain_nodes` returns on its displacements, and the displacements are the same. -/
theorem C100_same_run {E S} : Gui.solidsAutoStrains sq sp de d false = .ok (res, E, S) ↔
    Gui.solidsAuto sq sp de d false = .ok res ∧
      Post.strainNodes d.nodes d.elements d.mats res.disp = .ok (E, S) := by
  unfold Gui.solidsAutoStrains Gui.solidsAuto
  simp only [bind_ok, Prod.exists, if_false, Bool.false_eq_true, pure_ok]
  constructor
  · rintro ⟨op, bc, neq, h1, st, mm, h2, rhs, h3, u, h4, ok, h5, full, h6, e, s, h7, pl, rfl, h8⟩
    simp only [Prod.mk.injEq] at h8
    obtain ⟨rfl, rfl, rfl⟩ := h8
    exact ⟨⟨op, bc, neq, h1, st, mm, h2, rhs, h3, u, h4, ok, h5, full, h6, _, rfl, rfl⟩, h7⟩
  · rintro ⟨⟨op, bc, neq, h1, st, mm, h2, rhs, h3, u, h4, ok, h5, full, h6, _, rfl, rfl⟩, h7⟩
    exact ⟨op, bc, neq, h1, st, mm, h2, rhs, h3, u, h4, ok, h5, full, h6, E, S, h7, _, rfl, rfl⟩

theorem disp_shape (h : Gui.solidsAuto sq sp de d plot = .ok res) :
    res.disp.length = d.nodes.length ∧ ∀ r ∈ res.disp, r.length = 2 := by
  unfold Gui.solidsAuto at h
  simp only [bind_ok, Prod.exists] at h
  obtain ⟨op, bc, neq, h1, st, mm, h2, rhs, h3, u, h4, ok, h5, full, h6, h7⟩ := h
  have hd : res.disp = full := by
    split_ifs at h7
    · obtain ⟨pl, -, h8⟩ := bind_ok.1 h7
      rw [← pure_ok.1 h8]
    · obtain ⟨pl, -, h8⟩ := bind_ok.1 h7
      rw [← pure_ok.1 h8]
  rw [hd]
  exact Post.completeDisp_shape h6

/-- C100.  A run that returns without strains returns with them, on meshes of one of the types 1, 2, 3. -/
theorem C100_driver (h3 : ∀ r ∈ d.nodes, r.length = 3) (hms : Members sq d ms) {ty : ℤ}
    (hty : ty = 1 ∨ ty = 2 ∨ ty = 3) (hall : ∀ el ∈ d.elements, el[1]? = some ty) (hne : d.elements ≠ [])
    (hmat : ∀ r ∈ d.mats, r.length = 2) (hres : Gui.solidsAuto sq sp de d false = .ok res) :
    ∃ E S, Gui.solidsAutoStrains sq sp de d false = .ok (res, E, S) := by
  obtain ⟨hl, hw⟩ := disp_shape hres
  obtain ⟨E, S, h⟩ := C100_strain_nodes_returns h3 hms hty hall hne hmat hl fun r hr => (hw r hr).ge
  exact ⟨E, S, C100_same_run.2 ⟨hres, h⟩⟩

/-- C100.  A plate meshed by `rect_grid` whose loads and supports agree with a uniform strain: the strains and
stresses returned are that strain and its stress, at every node. -/
theorem C100_uniform_state (hs : SqrtFn sq) (h : GridModel d L H nx ny E nu []) (hmat : ∀ r ∈ d.mats, r.length = 2)
    (htol : 1e-8 < L / nx * (H / ny) / 4) (hE : 0 < E) (h1 : -1 < nu) (h2 : nu < 1) (hwf : WellFormed d)
    (hsp : SolverOk sp) (hsup : Supported d.cons d.nodes) {C : Matrix (Fin 3) (Fin 3) K}
    (hC : umat [E, nu] = .ok C) (c : Fin 2 → K) (G : Matrix (Fin 2) (Fin 2) K)
    (hfix : ∀ p < d.nodes.length, ∀ j : Fin 2, ¬ Free d.cons 2 p j → affine c G (posOf d.nodes p) j = 0)
    (hload : ∀ r q, r ≤ ny → q ≤ nx → ∀ j : Fin 2, Free d.cons 2 (nodeNo nx r q) j →
      IsLoad d.nodes.length d.loads (nodeNo nx r q) j
        (edgeLoad (C.mulVec (strainOf G)) nx ny (L / nx) (H / ny) r q j))
    (hres : Gui.solidsAuto sq sp de d false = .ok res) :
    ∃ eps sig, Gui.solidsAutoStrains sq sp de d false = .ok (res, eps, sig) ∧
      ∀ p i, eps p i = some (strainOf G i) ∧ sig p i = some (C.mulVec (strainOf G) i) := by
  have key := C97_uniform_state hs h htol hE h1 h2 (by simp) hwf hsp hsup hC c G hfix hload hres
  obtain ⟨ms, hm⟩ := C97_mesh (sq := sq) h htol hE h1 h2 (by simp)
  have hpos : 0 < L / nx * (H / ny) := by
    have := tol_pos.trans htol
    linarith
  have hnx : 0 < nx := by
    rcases Nat.eq_zero_or_pos nx with rfl | h
    · simp at hpos
    · exact h
  have hny : 0 < ny := by
    rcases Nat.eq_zero_or_pos ny with rfl | h
    · simp at hpos
    · exact h
  have rows : ∀ (v : ℕ) nd, d.nodes[v]? = some nd → ∃ id x y, nd = [id, x, y] := by
    intro v nd hv
    have hlt : v < d.nodes.length := (List.getElem?_eq_some_iff.1 hv).1
    rw [h.size] at hlt
    obtain ⟨r, q, hr, hq, rfl⟩ := node_split hlt
    obtain ⟨id, hid⟩ := h.row hr hq
    rw [hid, Option.some.injEq] at hv
    exact ⟨_, _, _, hv.symm⟩
  have h3 : ∀ r ∈ d.nodes, r.length = 3 := by
    intro r hr
    obtain ⟨i, hi⟩ := List.getElem?_of_mem hr
    obtain ⟨_, _, _, rfl⟩ := rows i r hi
    rfl
  have hels : ∀ el ∈ d.elements, el[1]? = some 1 ∧ el[2]? = some 0 := by
    intro el hel
    rw [h.elements] at hel
    obtain ⟨r, q, hr, hq, e⟩ := mem_grid hel
    have e2 := gridEls_getElem? (nx := nx) hr hq
    change (rectGrid L H nx ny).2.2[r * nx + q]? = _ at e2
    rw [e, Option.some.injEq] at e2
    subst e2
    exact ⟨rfl, rfl⟩
  have hlen : d.elements.length = nx * ny := by
    rw [h.elements]
    exact (C65_elements L H nx ny).2.2.1
  have hne : 0 < d.elements.length := by
    rw [hlen]
    exact Nat.mul_pos hnx hny
  obtain ⟨eps, sig, hrun⟩ := C100_driver h3 hm.members (.inl rfl) (fun el hel => (hels el hel).1)
    (List.ne_nil_of_length_pos hne) hmat hres
  refine ⟨eps, sig, hrun, fun p i => ?_⟩
  have hsn := (C100_same_run.1 hrun).2
  have hsam : Samples d.nodes res.disp c G := by
    refine ⟨(disp_shape hres).1, ?_⟩
    intro v nd u hnd hu x y hx hy
    have hv : v < d.nodes.length := (List.getElem?_eq_some_iff.1 hnd).1
    have k0 := key v hv 0
    have k1 := key v hv 1
    have hp0 : posOf d.nodes v 0 = x := by simp [posOf, coordOf, fieldOf, entry, hnd, hx]
    have hp1 : posOf d.nodes v 1 = y := by simp [posOf, coordOf, fieldOf, entry, hnd, hy]
    simp only [entry, hu, Option.bind_some, affine, Fin.sum_univ_two, hp0, hp1] at k0 k1
    exact ⟨k0, k1⟩
  have h0 : d.elements[0]? = some d.elements[0] := List.getElem?_eq_getElem hne
  have ht := (hels d.elements[0] (List.getElem_mem _)).1
  have hk : ∃ el ∈ d.elements, Lists d.nodes.length el p := by
    have hp := p.2
    have hp' : p.1 < (nx + 1) * (ny + 1) := by rw [← h.size]; exact hp
    obtain ⟨e, row, hrow, hmem⟩ := C65_used L H hnx hny hp'
    rw [← h.elements] at hrow
    exact ⟨row, List.mem_of_getElem? hrow, _, hmem, hp, .inl rfl⟩
  refine ⟨C74_strain hsn hsam h0 (.inl ht) hk i, C74_stress hsn hsam h0 (.inl ht) hk ?_ i⟩
  intro el hel _
  exact ⟨0, [E, nu], pyGet_two.2 (hels el hel).2, pyGet_zero.2 h.material, hC⟩

/-- C100.  The plate in tension: with strains the run returns, and every node has the strain `(σ/E, -νσ/E, 0)` and the
stress `(σ, 0, 0)`. -/
theorem C100_tension (hs : SqrtFn sq) (hsp : SolverOk sp) {σ : K} (htol : 1e-8 < L / nx * (H / ny) / 4) (hE : 0 < E)
    (h1 : -1 < nu) (h2 : nu < 1) :
    ∃ res eps sig, Gui.solidsAutoStrains sq sp de (tensionPlate L H E nu σ nx ny) false = .ok (res, eps, sig) ∧
      res.warned = false ∧
      ∀ p i, eps p i = some ((![σ / E, -(nu * σ / E), 0] : Fin 3 → K) i) ∧
        sig p i = some ((![σ, 0, 0] : Fin 3 → K) i) := by
  obtain ⟨res, hres, hw, -⟩ := C97_tension (de := de) hs hsp (σ := σ) htol hE h1 h2
  have hg := plate_grid L H E nu σ nx ny
  have hpos : 0 < L / nx * (H / ny) := by
    have := tol_pos.trans htol
    linarith
  have hny : 0 < ny := by
    rcases Nat.eq_zero_or_pos ny with rfl | h
    · simp at hpos
    · exact h
  have hnu : nu ^ 2 ≠ 1 := by nlinarith
  obtain ⟨C, hC⟩ := (C35_returns_iff [E, nu]).2 ⟨E, nu, rfl, hnu⟩
  have hst := tension_stress (σ := σ) hE.ne' hC
  obtain ⟨eps, sig, hrun, hall⟩ := C100_uniform_state hs hg (by simp [tensionPlate]) htol hE h1 h2
    (plate_wf L H E nu σ nx ny) hsp (plate_supported hny hpos.ne') hC _ _ (tension_fix L H E nu σ nx ny)
    (by rw [hst]; exact tension_load hpos) hres
  refine ⟨res, eps, sig, hrun, hw, fun p i => ?_⟩
  obtain ⟨e1, e2⟩ := hall p i
  rw [hst] at e2
  refine ⟨?_, e2⟩
  rw [e1]
  fin_cases i <;> simp [strainOf, tensionG]

end

/-! ## Case -/

/-- Case for C100: the plate of C97's case, with strains: every node has the stress (10, 0, 0). -/
example : ∃ res eps sig, Gui.solidsAutoStrains Real.sqrt cramerR cramerR
    (tensionPlate (4 : ℝ) 2 1000 (1 / 4) 10 2 1) false = .ok (res, eps, sig) ∧
    ∀ p, sig p 0 = some 10 ∧ sig p 1 = some 0 ∧ eps p 1 = some (-(1 / 400)) := by
  obtain ⟨res, eps, sig, h1, -, h3⟩ := C100_tension (K := ℝ) (L := 4) (H := 2) (E := 1000) (nu := 1 / 4) (nx := 2)
    (ny := 1) (de := cramerR) (σ := 10) sqrtFn_real cramerR_ok (by norm_num) (by norm_num) (by norm_num) (by norm_num)
  refine ⟨res, eps, sig, h1, fun p => ⟨?_, ?_, ?_⟩⟩
  · simpa using (h3 p 0).2
  · simpa using (h3 p 1).2
  · rw [(h3 p 1).1]
    norm_num

end SolidsPy
