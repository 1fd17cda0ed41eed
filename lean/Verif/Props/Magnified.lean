import Verif.Props.Placement
import Verif.Props.GridModel

/-! # Size of the model (C110) -/

set_option linter.unusedSectionVars false

namespace SolidsPy
open Spec Assem Matrix

section
variable {K : Type} [Field K] [LinearOrder K] [IsStrictOrderedRing K] [FloorRing K]
variable {sq : K → K} {sp de : Sol.Solver K} {d d' : Gui.Data K} {ms ms' : List (Member K)} {s : K}

/-- `d'` is the model `d` with all lengths multiplied by `s`; the nodal forces, constraints, elements and materials are the same. -/
structure Spec.Magnified (s : K) (d d' : Gui.Data K) : Prop where
  elements : d'.elements = d.elements
  mats : d'.mats = d.mats
  cons : d'.cons = d.cons
  loads : d'.loads = d.loads
  size : d'.nodes.length = d.nodes.length
  width : ∀ r ∈ d'.nodes, r.length = 3
  coord : ∀ p < d.nodes.length, ∀ i : Fin 2, coordOf d'.nodes p i = s * coordOf d.nodes p i

/-- All elements are plane continuum elements. -/
def Spec.Continuum (d : Gui.Data K) : Prop := ∀ el ∈ d.elements, ∀ ty, el[1]? = some ty → ty ∈ [(1 : ℤ), 2, 3, 4]

theorem Spec.Continuum.plane (h : Continuum d) (h3 : ∀ r ∈ d.nodes, r.length = 3) : PlaneModel d :=
  ⟨h3, fun el hel ty hty => .inl (h el hel ty hty)⟩

theorem magnified_coord {nodes nodes' : Table K} {m m' : Member K} {n : ℕ} {X X' : Matrix (Fin n) (Fin 2) K} {k k'}
    (h : Placed nodes m X k) (h' : Placed nodes' m' X' k') (hn : m'.nodes = m.nodes) (hin : ∀ p ∈ m.nodes, p < nodes.length)
    (hc : ∀ p < nodes.length, ∀ i : Fin 2, coordOf nodes' p i = s * coordOf nodes p i) : X' = s • X := by
  ext a i
  have ha : (a : ℕ) < m.nodes.length := by rw [h.size]; exact a.2
  have hp : m.nodes.getD a 0 < nodes.length := by
    rw [List.getD_eq_getElem?_getD, List.getElem?_eq_getElem ha, Option.getD_some]
    exact hin _ (List.getElem_mem ha)
  have := hc _ hp i
  have e1 := h.coord a i
  have e2 := h'.coord a i
  rw [hn] at e2
  unfold coordOf fieldOf at this
  rw [e1, e2] at this
  exact this

theorem members_in {m : Member K} {el : List ℤ} {mats nodes : Table K} (h : IsMember (Routine sq) mats nodes el m) :
    ∀ p ∈ m.nodes, p < nodes.length := by
  obtain ⟨_, _, _, _, _, _, _, -, -, -, b5, -, -⟩ := h
  intro p hp
  obtain ⟨i, hi, rfl⟩ := List.mem_iff_getElem.1 hp
  exact (b5.get (i := i) (by rw [b5.length_eq]; exact hi) hi).1

theorem structural_plane {n : ℕ} {f : Uel K} {ty : ℤ} (hty : ty ∈ [(1 : ℤ), 2, 3, 4])
    (h : Uel.eleFun sq ty = .ok f) {X : Matrix (Fin n) (Fin 2) K} {params : List K} {k m}
    (hr : Returns f X params k m) : PlaneElement n f := by
  obtain ⟨n', hf'⟩ := structural_of_type hty h
  obtain ⟨A, B, hAB, hA, -⟩ := hr
  obtain ⟨X', k', m', hX, hk, -⟩ := C38_plane_shape hf' hAB
  have : n = n' := by
    have := congrArg List.length hX
    simpa [matRows] using this
  subst this
  exact hf'

theorem magnified_forms (hs : s ≠ 0) (hc : Continuum d) (h3 : ∀ r ∈ d.nodes, r.length = 3) (hm : Magnified s d d')
    (hms : Members sq d ms) (hms' : Members sq d' ms') :
    List.Forall₂ (fun m m' => ∀ V U, m'.form 2 V U = m.form 2 V U) ms ms' := by
  unfold Members at *
  rw [hm.elements, hm.mats] at hms'
  have key : ∀ els : List (List ℤ), (∀ el ∈ els, el ∈ d.elements) → ∀ ms ms',
      List.Forall₂ (IsMember (Routine sq) d.mats d.nodes) els ms → List.Forall₂ (IsMember (Routine sq) d.mats d'.nodes) els ms' →
      List.Forall₂ (fun m m' : Member K => ∀ V U, m'.form 2 V U = m.form 2 V U) ms ms' := by
    intro els hels ms ms' h h'
    induction h generalizing ms' with
    | nil => cases h'; exact .nil
    | cons a _ ih =>
      cases h' with
      | cons b t =>
        refine .cons (fun V U => ?_) (ih (fun el hel => hels el (List.mem_cons_of_mem _ hel)) _ t)
        have hel := hels _ List.mem_cons_self
        obtain ⟨hn, ty, mi, q, params, params', n, f, X, X', k, k', mm, mm', a1, a2, a3, a4, a5, a5', a6, a7, a8, a9, a10⟩ :=
          members_twin a b h3 hm.width ((hc.plane h3).types _ hel) rfl hm.size
        have hf := structural_plane (hc _ hel ty a1) a2 a7
        rw [a5, Option.some.injEq] at a5'
        subst a5'
        have hX := magnified_coord a8 a10 hn (members_in a) hm.coord
        subst hX
        have hk := (C46_plane_size hf hs a7 a9).1
        subst hk
        rw [a10.form, a8.form]
        unfold Member.pick
        rw [hn]
  exact key _ (fun _ h => h) _ _ hms hms'

theorem Spec.Magnified.carries (hs : s ≠ 0) (hc : Continuum d) (h3 : ∀ r ∈ d.nodes, r.length = 3) (hm : Magnified s d d')
    (hms : Members sq d ms) (hms' : Members sq d' ms') : Carries id 1 d d' ms ms' where
  size := hm.size
  adm V hV := by rw [hm.cons]; exact hV
  onto V' hV' := ⟨V', by rw [← hm.cons]; exact hV', fun _ _ _ _ => rfl⟩
  zero V hV := hV
  form V U := by
    rw [one_mul]
    have := magnified_forms hs hc h3 hm hms hms'
    clear hms hms'
    induction this with
    | nil => rfl
    | cons h _ ih => rw [List.map_cons, List.map_cons, List.sum_cons, List.sum_cons, ih, id, id, h]

/-- Enlarged elements are accepted. -/
theorem C110_accepted (hs : 1 ≤ s) (hc : Continuum d) (h3 : ∀ r ∈ d.nodes, r.length = 3) (hm : Magnified s d d')
    (hms : Members sq d ms) : ∃ ms', Members sq d' ms' := by
  unfold Members at *
  rw [hm.elements, hm.mats]
  have key : ∀ els : List (List ℤ), (∀ el ∈ els, el ∈ d.elements) → ∀ ms,
      List.Forall₂ (IsMember (Routine sq) d.mats d.nodes) els ms → ∃ ms',
      List.Forall₂ (IsMember (Routine sq) d.mats d'.nodes) els ms' := by
    intro els hels ms h
    induction h with
    | nil => exact ⟨[], .nil⟩
    | @cons el m els ms a _ ih =>
      obtain ⟨ms', h1⟩ := ih fun el hel => hels el (List.mem_cons_of_mem _ hel)
      have hel := hels _ List.mem_cons_self
      obtain ⟨ty, mi, q, params, n, f, X, k, mm, a1, a2, a3, a4, a5, a6, a7, a8⟩ :=
        member_placed a h3 ((hc.plane h3).types _ hel)
      have hf := structural_plane (hc _ hel ty a1) a2 a7
      obtain ⟨m', c1, -⟩ := member_moved a hm.size hm.width a1 a2 a3 a4 a5 a8 (C46_plane_magnify hf hs a7) (by
        intro a' i
        have ha := members_in a
        have hp : m.nodes.getD a' 0 < d.nodes.length := by
          have hl : (a' : ℕ) < m.nodes.length := by rw [a8.size]; exact a'.2
          rw [List.getD_eq_getElem?_getD, List.getElem?_eq_getElem hl, Option.getD_some]
          exact ha _ (List.getElem_mem hl)
        rw [coord_entry hm.width (by rw [hm.size]; exact hp) i, hm.coord _ hp i]
        unfold coordOf fieldOf
        rw [a8.coord a' i]
        rfl)
      exact ⟨m' :: ms', .cons c1 h1⟩
  exact key _ (fun _ h => h) _ hms

/-- Held at one size, held at any size. -/
theorem C110_stable (hs : s ≠ 0) (hc : Continuum d) (h3 : ∀ r ∈ d.nodes, r.length = 3) (hm : Magnified s d d') (hwf : WellFormed d)
    (hwf' : WellFormed d') (hms : Members sq d ms) (hms' : Members sq d' ms') (hst : Stable d.cons 2 ms) : Stable d'.cons 2 ms' :=
  (hm.carries hs hc h3 hms hms').stable one_ne_zero hwf hwf' hms hms' hst

/-- The displacements under given nodal forces do not depend on the size. -/
theorem C110_displacements (hs : s ≠ 0) (hc : Continuum d) (h3 : ∀ r ∈ d.nodes, r.length = 3) (hm : Magnified s d d')
    (hwf : WellFormed d) (hwf' : WellFormed d') (hsp : SolverOk sp) (hms : Members sq d ms) (hms' : Members sq d' ms')
    (hst : Stable d.cons 2 ms) {plot plot' : Bool} {res res' : Gui.Result K} (h : Gui.solidsAuto sq sp de d plot = .ok res)
    (h' : Gui.solidsAuto sq sp de d' plot' = .ok res') : res'.disp = res.disp := by
  have hst' := C110_stable hs hc h3 hm hwf hwf' hms hms' hst
  obtain ⟨⟨hl, hw⟩, he⟩ := C18_nodal_equilibrium hwf hsp hms hst h
  obtain ⟨⟨hl', hw'⟩, -⟩ := C18_nodal_equilibrium hwf' hsp hms' hst' h'
  have he' : Equilibrium d'.cons 2 d'.loads ms' (fieldOf res.disp) := by
    rw [hm.cons, hm.loads]
    refine ⟨he.1, fun p j hf => ?_⟩
    have hp : p < d.nodes.length := by rw [← hwf.size]; exact free_lt hf
    have := (hm.carries hs hc h3 hms hms').form
    simp only [id, one_mul] at this
    rw [internal_eq_form (members_inn hms') _ (by rw [hm.size]; exact hp) hf.1, this,
      ← internal_eq_form (members_inn hms) _ hp hf.1]
    exact he.2 p j hf
  refine disp_eq hl' hw' (by rw [hl, hm.size]) hw fun p hp j hj => ?_
  rw [C19_only_equilibrium hwf' hsp hms' hst' h' he' p j hp hj]
  rw [hm.size] at hp
  have hp' : p < res.disp.length := by rw [hl]; exact hp
  have hr := hw _ (List.getElem_mem hp')
  have : entry res.disp p j = some (res.disp[p][j]'(by omega)) := by
    rw [entry_some]
    exact ⟨_, List.getElem?_eq_getElem hp', List.getElem?_eq_getElem _⟩
  unfold fieldOf
  rw [this]
  rfl

/-- A run on the enlarged model returns. -/
theorem C110_returns (hs : 1 ≤ s) (hc : Continuum d) (h3 : ∀ r ∈ d.nodes, r.length = 3) (hm : Magnified s d d')
    (hwf : WellFormed d) (hwf' : WellFormed d') (hsp : SolverOk sp) (hms : Members sq d ms) (hst : Stable d.cons 2 ms)
    (hfree : ∃ p j, Free d.cons 2 p j) (hl : ∀ L ∈ d.loads, 3 ≤ L.length ∧ ∃ p, Names d.nodes.length L p) :
    ∃ res, Gui.solidsAuto sq sp de d' false = .ok res := by
  obtain ⟨ms', hms'⟩ := C110_accepted hs hc h3 hm hms
  refine C93_solids_auto_returns ⟨hm.width, by rw [hm.elements]; exact (hc.plane h3).types⟩ hwf' hsp hms'
    (C110_stable (by linarith) hc h3 hm hwf hwf' hms hms' hst) (by rw [hm.cons]; exact hfree) ?_
  rw [hm.loads, hm.size]
  exact hl

/-- The model with all coordinates multiplied by `s`. -/
def magnify (s : K) (d : Gui.Data K) : Gui.Data K :=
  { d with nodes := d.nodes.map fun r => r.take 1 ++ (r.drop 1).map (s * ·) }

theorem magnify_ok (s : K) (h3 : ∀ r ∈ d.nodes, r.length = 3) : Magnified s d (magnify s d) where
  elements := rfl
  mats := rfl
  cons := rfl
  loads := rfl
  size := by simp [magnify]
  width r hr := by
    obtain ⟨r', hr', rfl⟩ := List.mem_map.1 hr
    have := h3 r' hr'
    match r', this with
    | [_, _, _], _ => rfl
  coord p hp i := by
    have hr := h3 _ (List.getElem_mem hp)
    unfold coordOf fieldOf entry magnify
    dsimp only
    rw [List.getElem?_map, List.getElem?_eq_getElem hp]
    generalize d.nodes[p] = r at hr
    match r, hr with
    | [_, _, _], _ => fin_cases i <;> rfl

end

/-- A plate in tension three times as large, under the same nodal forces. -/
example : ∃ res res', Gui.solidsAuto Real.sqrt cramerR cramerR (tensionPlate (4 : ℝ) 2 1000 (1 / 4) 10 2 1) false = .ok res ∧
    Gui.solidsAuto Real.sqrt cramerR cramerR (magnify 3 (tensionPlate (4 : ℝ) 2 1000 (1 / 4) 10 2 1)) false = .ok res' ∧
    res'.disp = res.disp := by
  have hg := plate_grid (4 : ℝ) 2 1000 (1 / 4) 10 2 1
  have hwf := plate_wf (4 : ℝ) 2 1000 (1 / 4) 10 2 1
  obtain ⟨ms, h⟩ := C97_mesh (sq := Real.sqrt) hg (by norm_num) (by norm_num) (by norm_num) (by norm_num) (by simp)
  have hst := (C95_stable_iff sqrtFn_real h hwf).2 (plate_supported (by omega) (by norm_num))
  have h3 : ∀ r ∈ (tensionPlate (4 : ℝ) 2 1000 (1 / 4) 10 2 1).nodes, r.length = 3 := by simp [tensionPlate]
  have hc : Continuum (tensionPlate (4 : ℝ) 2 1000 (1 / 4) 10 2 1) := by
    intro el hel ty hty
    obtain ⟨-, -, hl, he⟩ := C65_elements (4 : ℝ) 2 2 1
    obtain ⟨e, hlt, rfl⟩ := List.mem_iff_getElem.1 hel
    obtain ⟨a, b, c, d, h5, -⟩ := he e (by rw [← hl]; exact hlt)
    have h6 : (tensionPlate (4 : ℝ) 2 1000 (1 / 4) 10 2 1).elements[e]? = some [(e : ℤ), 1, 0, a, b, c, d] := h5
    rw [List.getElem?_eq_getElem hlt, Option.some.injEq] at h6
    rw [h6] at hty
    simp at hty
    simp [← hty]
  have hm := magnify_ok (3 : ℝ) h3
  have hwf' : WellFormed (magnify 3 (tensionPlate (4 : ℝ) 2 1000 (1 / 4) 10 2 1)) := ⟨hwf.codes, hwf.width, by rw [hm.size]; exact hwf.size⟩
  obtain ⟨ms', hms'⟩ := C110_accepted (by norm_num) hc h3 hm h.members
  obtain ⟨res, h1, -⟩ := C97_tension (K := ℝ) (L := 4) (H := 2) (E := 1000) (nu := 1 / 4) (nx := 2) (ny := 1)
    (de := cramerR) (σ := 10) sqrtFn_real cramerR_ok (by norm_num) (by norm_num) (by norm_num) (by norm_num)
  obtain ⟨res', h2⟩ := C110_returns (de := cramerR) (by norm_num) hc h3 hm hwf hwf' cramerR_ok h.members hst (by
      refine ⟨nodeNo 2 0 2, 0, ?_⟩
      have := plate_free (4 : ℝ) 2 1000 (1 / 4) 10 (nx := 2) (ny := 1) (r := 0) (c := 2) (by omega) (by omega) 0
      simp only [Fin.val_zero] at this
      rw [this]
      simp) (by
      intro l hl
      simp only [tensionPlate, List.mem_map, List.mem_range] at hl
      obtain ⟨i, hi, rfl⟩ := hl
      refine ⟨by simp, nodeNo 2 i 2, ?_⟩
      rw [hg.size]
      exact (names_nat (nodeNo_lt (by omega) (le_refl _)) rfl).2 rfl)
  exact ⟨res, res', h1, h2, C110_displacements (by norm_num) hc h3 hm hwf hwf' cramerR_ok h.members hms' hst h1 h2⟩

end SolidsPy
