import Mathlib.Analysis.Calculus.Deriv.Slope
import Mathlib.Analysis.Calculus.Deriv.Pow
import Verif.Props.Wellposed
import Verif.Props.Variation

/-! # C164: how the displacements change with the moduli and with the loads

Derivatives of the displacements computed by `solids_auto`, for real data: the adjoint formula for Young's moduli, the sign and the
lower bound it gives for the work of the loads, and Castigliano's theorem for the loads. -/

set_option linter.unusedSectionVars false

namespace SolidsPy
open Filter Topology

namespace Spec

/-- The material table in which the modulus of row `q` is multiplied by `1 + t g(q)`. -/
def retuned (g : ℕ → ℝ) (t : ℝ) (mats : List (List ℝ)) : List (List ℝ) :=
  mats.mapIdx fun q r => match r with
    | [] => []
    | E :: rest => (1 + t * g q) * E :: rest

/-- `ws` lists the weight `g(q)` of the material row `q` that each element names. -/
def Weights (g : ℕ → ℝ) (n : ℕ) (els : List (List ℤ)) (ws : List ℝ) : Prop :=
  List.Forall₂ (fun el w => ∃ mi q, el[2]? = some mi ∧ Resolves n mi q ∧ w = g q) els ws

/-- The weighted sum of the stiffness forms of the elements. -/
noncomputable def weighted (ws : List ℝ) (ms : List (Member ℝ)) (v u : ℕ → ℕ → ℝ) : ℝ :=
  (List.zipWith (fun w m => w * m.form 2 v u) ws ms).sum

end Spec

open Spec Fem Uel Assem Matrix Gauss

section
variable {sq : ℝ → ℝ} {sp de : Sol.Solver ℝ} {d : Gui.Data ℝ} {ms ms' : List (Member ℝ)} {F G : ℕ → ℕ → ℝ} {g : ℕ → ℝ}
  {ws : List ℝ} {t : ℝ}

theorem retuned_length : (retuned g t d.mats).length = d.mats.length := by simp [retuned]

theorem retuned_row {q : ℕ} {E : ℝ} {rest : List ℝ} {mats : Table ℝ} (h : mats[q]? = some (E :: rest)) :
    (retuned g t mats)[q]? = some ((1 + t * g q) * E :: rest) := by simp [retuned, List.getElem?_mapIdx, h]

theorem member_retuned (hs : SqrtFn sq) {mats nodes : Table ℝ} {el : List ℤ} {m m' : Member ℝ} {w : ℝ}
    (h : IsMember (Routine sq) mats nodes el m) (h' : IsMember (Routine sq) (retuned g t mats) nodes el m')
    (h3 : ∀ r ∈ nodes, r.length = 3)
    (hty : ∀ ty, el[1]? = some ty → ty ∈ [(1 : ℤ), 2, 3, 4] ∨ (ty = 6 ∧ (el.drop 3).length = 2))
    (hw : ∃ mi q, el[2]? = some mi ∧ Resolves mats.length mi q ∧ w = g q) (v u : ℕ → ℕ → ℝ) :
    m'.form 2 v u = (1 + t * w) * m.form 2 v u := by
  obtain ⟨hn, ty, mi, q, params, params', n, f, X, X', k, k', mm, mm', a1, a2, a3, a4, a5, b5, a6, a7, a8, b7,
    b8⟩ := members_twin h h' h3 h3 hty (by simp [retuned]) rfl
  obtain rfl := a8.coord_unique b8 hn
  obtain ⟨mi', q', e1, e2, rfl⟩ := hw
  rw [a3, Option.some.injEq] at e1
  subst e1
  obtain rfl := resolves_unique a4 e2
  cases params with
  | nil =>
    exfalso
    rcases a6 with hf | ⟨rfl, rfl⟩
    · obtain ⟨R, hR⟩ := plane_rule hf
      obtain ⟨hg, st, hr⟩ := returns_plane hR
      obtain ⟨C, ρ, hm, -⟩ := (hr _ _ _ _).1 a7
      have := hm.2.1
      simp [Fem.umat] at this
    · obtain ⟨-, h1⟩ := (C51_accepts_iff hs _ _).1 ⟨k, mm, a7⟩
      simp at h1
  | cons E rest =>
    rw [retuned_row a5, Option.some.injEq] at b5
    subst b5
    rw [a8.form, b8.form, a6.young hs a7 b7, pick_congr hn, pick_congr hn, Matrix.smul_mulVec, dotProduct_smul, smul_eq_mul]

theorem forms_retuned (hs : SqrtFn sq) (hp : PlaneModel d) (hms : Members sq d ms)
    (hms' : Members sq { d with mats := retuned g t d.mats } ms') (hw : Weights g d.mats.length d.elements ws) (v u : ℕ → ℕ → ℝ) :
    (ms'.map fun m => m.form 2 v u).sum = (ms.map fun m => m.form 2 v u).sum + t * weighted ws ms v u := by
  unfold Members at hms hms'
  dsimp only at hms'
  unfold Weights at hw
  have ht := hp.types
  unfold weighted
  generalize d.elements = els at hms hms' hw ht
  induction hms generalizing ms' ws with
  | nil => cases hms'; cases hw; simp
  | cons h _ ih =>
    cases hms' with
    | cons h' t' =>
      cases hw with
      | cons hw hws =>
        have i := ih t' hws fun el hel => ht el (List.mem_cons_of_mem _ hel)
        have j := member_retuned hs h h' hp.nodes (ht _ List.mem_cons_self) hw v u
        simp only [List.map_cons, List.sum_cons, List.zipWith_cons_cons]
        rw [i, j]
        ring

/-- C164.  The exact change of the work of any loads `G` on the displacements, in terms of the response `v` to those loads before the
change and of the displacements after it. -/
theorem C164_exchange (hs : SqrtFn sq) (hp : PlaneModel d) (hwf : WellFormed d) (hsp : SolverOk sp) (hms : Members sq d ms)
    (hst : Stable d.cons 2 ms) (hw : Weights g d.mats.length d.elements ws)
    (hms' : Members sq { d with mats := retuned g t d.mats } ms') (hst' : Stable d.cons 2 ms') {loads' : Table ℝ}
    (hG : LoadField { d with loads := loads' } G) (hF : LoadField d F) {p0 p1 p2 : Bool} {res0 res res' : Gui.Result ℝ}
    (h0 : Gui.solidsAuto sq sp de d p0 = .ok res0)
    (h1 : Gui.solidsAuto sq sp de { d with mats := retuned g t d.mats } p1 = .ok res)
    (h2 : Gui.solidsAuto sq sp de { d with loads := loads' } p2 = .ok res') :
    work d.nodes.length G (fieldOf res.disp) - work d.nodes.length G (fieldOf res0.disp) =
      - t * weighted ws ms (fieldOf res'.disp) (fieldOf res.disp) := by
  have hwfL : WellFormed { d with loads := loads' } := ⟨hwf.codes, hwf.width, hwf.size⟩
  have hwfM : WellFormed { d with mats := retuned g t d.mats } := ⟨hwf.codes, hwf.width, hwf.size⟩
  have hmsL : Members sq { d with loads := loads' } ms := hms
  have e0 := (C18_nodal_equilibrium hwf hsp hms hst h0).2
  have e1 := (C18_nodal_equilibrium hwfM hsp hms' hst' h1).2
  have e2 := (C18_nodal_equilibrium hwfL hsp hmsL hst h2).2
  have hsym := (C93_elements hs hp hms).1
  have sw : ∀ v u, (ms.map fun m => m.form 2 v u).sum = (ms.map fun m => m.form 2 u v).sum := fun v u =>
    congrArg List.sum (List.map_congr_left fun m hm => hsym m hm v u)
  have a0 := load_work hwf hms hF e0 e2.1
  have a1 := load_work hwfM hms' hF e1 e2.1
  have b0 := load_work hwfL hmsL hG e2 e0.1
  have b1 := load_work hwfL hmsL hG e2 e1.1
  rw [forms_retuned hs hp hms hms' hw] at a1
  unfold work
  dsimp only at a1 b0 b1
  rw [b0, b1, sw, sw (fieldOf res0.disp)]
  linarith

theorem retuned_tends (g : ℕ → ℝ) (mats : Table ℝ) : TableTends (𝓝 0) (fun t => retuned g t mats) mats := by
  constructor
  · intro t
    apply List.ext_getElem?
    intro q
    simp only [retuned, List.getElem?_map, List.getElem?_mapIdx, Option.map_map]
    congr 1
    funext r
    cases r <;> rfl
  · intro p j
    unfold fieldOf entry retuned
    simp only [List.getElem?_mapIdx]
    cases hr : mats[p]? with
    | none => simp
    | some r =>
      cases r with
      | nil => simp
      | cons E rest =>
        cases j with
        | zero =>
          simp only [Option.map_some, Option.bind_some, List.getElem?_cons_zero, Option.getD_some]
          have hc : Continuous fun t : ℝ => (1 + t * g p) * E := by fun_prop
          simpa using hc.tendsto 0
        | succ j => simp

theorem const_tends {ι : Type} (l : Filter ι) (t : Table ℝ) : TableTends l (fun _ => t) t :=
  ⟨fun _ => rfl, fun _ _ => tendsto_const_nhds⟩

theorem model_retuned_tends (d : Gui.Data ℝ) (g : ℕ → ℝ) : ModelTends (𝓝 0) (fun t => { d with mats := retuned g t d.mats }) d :=
  ⟨fun _ => rfl, fun _ => rfl, const_tends _ _, retuned_tends _ _, const_tends _ _, fun _ => rfl⟩

theorem form_tendsto {ι : Type} {l : Filter ι} {n : ℕ} {m : Member ℝ} (hin : ∀ p ∈ m.nodes, p < n) {u : ι → ℕ → ℕ → ℝ} {u0 v : ℕ → ℕ → ℝ}
    (hu : ∀ p j, p < n → j < 2 → Tendsto (fun i => u i p j) l (𝓝 (u0 p j))) :
    Tendsto (fun i => m.form 2 v (u i)) l (𝓝 (m.form 2 v u0)) := by
  have hn : ∀ b, b < m.nodes.length → m.nodes.getD b 0 < n := fun b hb => hin _ (by
    rw [List.getD_eq_getElem?_getD, List.getElem?_eq_getElem hb]
    exact List.getElem_mem hb)
  unfold Member.form Member.force
  refine tendsto_finsetSum _ fun a _ => tendsto_finsetSum _ fun j _ => tendsto_const_nhds.mul ?_
  refine tendsto_finsetSum _ fun b hb => tendsto_finsetSum _ fun c hc => tendsto_const_nhds.mul ?_
  exact hu _ _ (hn b (Finset.mem_range.1 hb)) (Finset.mem_range.1 hc)

theorem weighted_tendsto {ι : Type} {l : Filter ι} {n : ℕ} (hin : ∀ m ∈ ms, ∀ p ∈ m.nodes, p < n) {u : ι → ℕ → ℕ → ℝ} {u0 v : ℕ → ℕ → ℝ}
    (hu : ∀ p j, p < n → j < 2 → Tendsto (fun i => u i p j) l (𝓝 (u0 p j))) :
    Tendsto (fun i => weighted ws ms v (u i)) l (𝓝 (weighted ws ms v u0)) := by
  unfold weighted
  induction ms generalizing ws with
  | nil => simpa using tendsto_const_nhds
  | cons m ms ih =>
    cases ws with
    | nil => simpa using tendsto_const_nhds
    | cons w ws =>
      simp only [List.zipWith_cons_cons, List.sum_cons]
      exact (tendsto_const_nhds.mul (form_tendsto (hin m List.mem_cons_self) hu)).add
        (ih fun m hm => hin m (List.mem_cons_of_mem _ hm))

/-- C164.  The adjoint formula.  The derivative of the work of any loads `G` on the computed displacements, when the modulus of each
material row `q` grows at the relative rate `g(q)`, is minus the weighted sum of the element forms of the response to `G` and the
displacements.  The model is solved for every small enough change. -/
theorem C164_adjoint (hp : PlaneModel d) (hwf : WellFormed d) (hsp : SolverOk sp) (hms : Members Real.sqrt d ms)
    (hst : Stable d.cons 2 ms) (hw : Weights g d.mats.length d.elements ws) {loads' : Table ℝ}
    (hG : LoadField { d with loads := loads' } G) (hF : LoadField d F) {p0 p2 : Bool} {res0 res' : Gui.Result ℝ}
    (h0 : Gui.solidsAuto Real.sqrt sp de d p0 = .ok res0)
    (h2 : Gui.solidsAuto Real.sqrt sp de { d with loads := loads' } p2 = .ok res') :
    (∀ᶠ t in 𝓝 0, ∃ res, Gui.solidsAuto Real.sqrt sp de { d with mats := retuned g t d.mats } false = .ok res) ∧
    ∀ (p1 : Bool) (res : ℝ → Gui.Result ℝ),
      (∀ᶠ t in 𝓝 0, Gui.solidsAuto Real.sqrt sp de { d with mats := retuned g t d.mats } p1 = .ok (res t)) →
      HasDerivAt (fun t => work d.nodes.length G (fieldOf (res t).disp))
        (- weighted ws ms (fieldOf res'.disp) (fieldOf res0.disp)) 0 := by
  obtain ⟨w1, w2⟩ := C161_wellposed (de := de) (model_retuned_tends d g) hp hwf hsp hms hst h0
  refine ⟨w1.mono fun t ht => ht.2, fun p1 res hres => ?_⟩
  have hlim := weighted_tendsto (ws := ws) (v := fieldOf res'.disp) (members_inn hms) (w2 p1 res hres)
  -- the identity near zero, and at zero
  have hid : ∀ᶠ t in 𝓝 (0 : ℝ), work d.nodes.length G (fieldOf (res t).disp) - work d.nodes.length G (fieldOf res0.disp) =
      - t * weighted ws ms (fieldOf res'.disp) (fieldOf (res t).disp) := by
    filter_upwards [w1, hres] with t ⟨⟨ms', hm', hs'⟩, _⟩ hr
    exact C164_exchange sqrtFn_real hp hwf hsp hms hst hw hm' hs' hG hF h0 hr h2
  have hz := hid.self_of_nhds
  rw [neg_zero, zero_mul, sub_eq_zero] at hz
  rw [hasDerivAt_iff_tendsto_slope]
  refine ((hlim.neg).mono_left nhdsWithin_le_nhds).congr' ?_
  filter_upwards [hid.filter_mono nhdsWithin_le_nhds, self_mem_nhdsWithin] with t ht hne
  have hne : t ≠ 0 := hne
  rw [slope_def_field, hz, ht, sub_zero]
  field_simp

/-- C164.  One displacement: minus the weighted element forms of the response to a unit load at that place. -/
theorem C164_displacement (hp : PlaneModel d) (hwf : WellFormed d) (hsp : SolverOk sp) (hms : Members Real.sqrt d ms)
    (hst : Stable d.cons 2 ms) (hw : Weights g d.mats.length d.elements ws) {loads' : Table ℝ} {p j : ℕ}
    (hpn : p < d.nodes.length) (hj : j < 2)
    (hG : LoadField { d with loads := loads' } fun p' j' => if p' = p ∧ j' = j then 1 else 0) (hF : LoadField d F) {p0 p1 p2 : Bool}
    {res0 res' : Gui.Result ℝ} (h0 : Gui.solidsAuto Real.sqrt sp de d p0 = .ok res0)
    (h2 : Gui.solidsAuto Real.sqrt sp de { d with loads := loads' } p2 = .ok res') {res : ℝ → Gui.Result ℝ}
    (h1 : ∀ᶠ t in 𝓝 0, Gui.solidsAuto Real.sqrt sp de { d with mats := retuned g t d.mats } p1 = .ok (res t)) :
    HasDerivAt (fun t => fieldOf (res t).disp p j) (- weighted ws ms (fieldOf res'.disp) (fieldOf res0.disp)) 0 := by
  have := (C164_adjoint hp hwf hsp hms hst hw hG hF h0 h2).2 p1 res h1
  have e : ∀ V : ℕ → ℕ → ℝ, work d.nodes.length (fun p' j' => if p' = p ∧ j' = j then 1 else 0) V = V p j := by
    intro V
    unfold work
    rw [Finset.sum_eq_single p, Finset.sum_eq_single j]
    · simp
    · intro b _ hb; simp [hb]
    · intro hb; exact absurd (Finset.mem_range.2 hj) hb
    · intro b _ hb; exact Finset.sum_eq_zero fun c _ => by simp [hb]
    · intro hb; exact absurd (Finset.mem_range.2 hpn) hb
  simpa only [e] using this

theorem weighted_nonneg (hw : ∀ w ∈ ws, 0 ≤ w) {u : ℕ → ℕ → ℝ} (hpsd : ∀ m ∈ ms, 0 ≤ m.form 2 u u) : 0 ≤ weighted ws ms u u := by
  unfold weighted
  induction ms generalizing ws with
  | nil => simp
  | cons m ms ih =>
    cases ws with
    | nil => simp
    | cons w ws =>
      simp only [List.zipWith_cons_cons, List.sum_cons]
      exact add_nonneg (mul_nonneg (hw w List.mem_cons_self) (hpsd m List.mem_cons_self))
        (ih (fun w h => hw w (List.mem_cons_of_mem _ h)) fun m h => hpsd m (List.mem_cons_of_mem _ h))

/-- C164.  The work of the loads themselves: its derivative is minus twice the weighted strain energy, so stiffening never raises it. -/
theorem C164_compliance (hp : PlaneModel d) (hwf : WellFormed d) (hsp : SolverOk sp) (hms : Members Real.sqrt d ms)
    (hst : Stable d.cons 2 ms) (hw : Weights g d.mats.length d.elements ws) (hF : LoadField d F) {p0 p1 : Bool} {res0 : Gui.Result ℝ}
    (h0 : Gui.solidsAuto Real.sqrt sp de d p0 = .ok res0) {res : ℝ → Gui.Result ℝ}
    (h1 : ∀ᶠ t in 𝓝 0, Gui.solidsAuto Real.sqrt sp de { d with mats := retuned g t d.mats } p1 = .ok (res t)) :
    HasDerivAt (fun t => work d.nodes.length F (fieldOf (res t).disp)) (- weighted ws ms (fieldOf res0.disp) (fieldOf res0.disp)) 0 ∧
    (Physical d → (∀ q, 0 ≤ g q) → - weighted ws ms (fieldOf res0.disp) (fieldOf res0.disp) ≤ 0) := by
  refine ⟨(C164_adjoint (loads' := d.loads) hp hwf hsp hms hst hw hF hF h0 h0).2 p1 res h1, fun hphys hg => ?_⟩
  rw [neg_nonpos]
  refine weighted_nonneg (fun w hm => ?_) fun m hm => (C93_elements sqrtFn_real hp hms).2 hphys m hm _
  clear hst hms h0 h1
  unfold Weights at hw
  generalize d.elements = els at hw
  induction hw with
  | nil => simp at hm
  | cons h _ ih =>
    obtain ⟨mi, q, -, -, rfl⟩ := h
    rcases List.mem_cons.1 hm with rfl | hm
    · exact hg q
    · exact ih hm

/-- C164.  The tangent is a lower bound: whatever the change of the moduli, the work of the loads is at least the value predicted by
the derivative. -/
theorem C164_tangent (hs : SqrtFn sq) (hp : PlaneModel d) (hwf : WellFormed d) (hsp : SolverOk sp) (hms : Members sq d ms)
    (hst : Stable d.cons 2 ms) (hw : Weights g d.mats.length d.elements ws)
    (hms' : Members sq { d with mats := retuned g t d.mats } ms') (hst' : Stable d.cons 2 ms')
    (hphys' : Physical { d with mats := retuned g t d.mats }) (hF : LoadField d F) {p0 p1 : Bool} {res0 res : Gui.Result ℝ}
    (h0 : Gui.solidsAuto sq sp de d p0 = .ok res0)
    (h1 : Gui.solidsAuto sq sp de { d with mats := retuned g t d.mats } p1 = .ok res) :
    work d.nodes.length F (fieldOf res0.disp) - t * weighted ws ms (fieldOf res0.disp) (fieldOf res0.disp) ≤
      work d.nodes.length F (fieldOf res.disp) := by
  have hwfM : WellFormed { d with mats := retuned g t d.mats } := ⟨hwf.codes, hwf.width, hwf.size⟩
  have hp' : PlaneModel { d with mats := retuned g t d.mats } := ⟨hp.nodes, hp.types⟩
  have e0 := (C18_nodal_equilibrium hwf hsp hms hst h0).2
  have e1 := (C18_nodal_equilibrium hwfM hsp hms' hst' h1).2
  have a0 := load_work hwf hms hF e0 e0.1
  have a1 := load_work hwfM hms' hF e1 e1.1
  have a2 := load_work hwfM hms' hF e1 e0.1
  obtain ⟨hsym, hpsd⟩ := C93_elements hs hp' hms'
  have hg := forms_sub ms' hsym (fieldOf res0.disp) (fieldOf res.disp)
  have hn : 0 ≤ (ms'.map fun m => m.form 2 (fun p j => fieldOf res0.disp p j - fieldOf res.disp p j)
      (fun p j => fieldOf res0.disp p j - fieldOf res.disp p j)).sum := by
    apply List.sum_nonneg
    intro x hx
    obtain ⟨m, hm, rfl⟩ := List.mem_map.1 hx
    exact hpsd hphys' m hm _
  rw [forms_retuned hs hp hms hms' hw (fieldOf res0.disp) (fieldOf res0.disp)] at hg
  unfold work
  dsimp only at a1 a2
  linarith

/-! ## Loads -/

/-- C164.  Castigliano's theorem.  When the loads grow from `x` along `y`, the derivative of the strain energy is the work of the
loads `y` on the displacements. -/
theorem C164_castigliano (hs : SqrtFn sq) (hp : PlaneModel d) (hwf : WellFormed d) (hsp : SolverOk sp) (hms : Members sq d ms)
    (hst : Stable d.cons 2 ms) (rows : List (ℝ × List ℝ × List ℝ)) (hlen : ∀ r ∈ rows, r.2.1.length = r.2.2.length)
    (hG : LoadField { d with loads := rows.map fun r => r.1 :: r.2.2 } G) {p0 p1 p2 : Bool} {res0 res' : Gui.Result ℝ} {res : ℝ → Gui.Result ℝ}
    (h0 : Gui.solidsAuto sq sp de { d with loads := rows.map fun r => r.1 :: r.2.1 } p0 = .ok res0)
    (h1 : ∀ t, Gui.solidsAuto sq sp de { d with loads := rows.map fun r => r.1 :: List.zipWith (fun x y => x + t * y) r.2.1 r.2.2 } p1 =
      .ok (res t))
    (h2 : Gui.solidsAuto sq sp de { d with loads := rows.map fun r => r.1 :: r.2.2 } p2 = .ok res') :
    HasDerivAt (fun t => strainEnergy ms (fieldOf (res t).disp)) (work d.nodes.length G (fieldOf res0.disp)) 0 := by
  have w : ∀ L, WellFormed { d with loads := L } := fun L => ⟨hwf.codes, hwf.width, hwf.size⟩
  have m : ∀ L, Members sq { d with loads := L } ms := fun L => hms
  have hsym := (C93_elements hs hp hms).1
  have hin := members_inn hms
  have lin : ∀ t p j, p < d.nodes.length → j < 2 →
      fieldOf (res t).disp p j = fieldOf res0.disp p j + t * fieldOf res'.disp p j := by
    intro t p j hp' hj
    have h3 := h1 t
    have := C22_linear_response hwf hsp hms hst 1 t rows hlen h0 h2 (p3 := p1) (r3 := res t) (by simpa only [one_mul] using h3) p j hp' hj
    unfold fieldOf at this ⊢
    rw [this, one_mul, Option.getD_some]
  have e0 := (C18_nodal_equilibrium (d := { d with loads := rows.map fun r => r.1 :: r.2.1 }) (w _) hsp (m _) hst h0).2
  have e2 := (C18_nodal_equilibrium (d := { d with loads := rows.map fun r => r.1 :: r.2.2 }) (w _) hsp (m _) hst h2).2
  have key := load_work (d := { d with loads := rows.map fun r => r.1 :: r.2.2 }) (w _) (m _) hG e2 e0.1
  dsimp only at key
  have quad : ∀ t, strainEnergy ms (fieldOf (res t).disp) = strainEnergy ms (fieldOf res0.disp) +
      t * (ms.map fun m => m.form 2 (fieldOf res0.disp) (fieldOf res'.disp)).sum + t ^ 2 * strainEnergy ms (fieldOf res'.disp) := by
    intro t
    unfold strainEnergy
    have hm : ∀ m ∈ ms, m.form 2 (fieldOf (res t).disp) (fieldOf (res t).disp) = m.form 2 (fieldOf res0.disp) (fieldOf res0.disp) +
        2 * t * m.form 2 (fieldOf res0.disp) (fieldOf res'.disp) + t ^ 2 * m.form 2 (fieldOf res'.disp) (fieldOf res'.disp) := by
      intro m hm
      have hn : ∀ b ∈ Finset.range m.nodes.length, m.nodes.getD b 0 < d.nodes.length := fun b hb => hin m hm _ (by
        rw [Finset.mem_range] at hb
        rw [List.getD_eq_getElem?_getD, List.getElem?_eq_getElem hb]
        exact List.getElem_mem hb)
      have c1 : m.form 2 (fieldOf (res t).disp) (fieldOf (res t).disp) =
          m.form 2 (fun p j => fieldOf res0.disp p j + t * fieldOf res'.disp p j) (fun p j => fieldOf res0.disp p j + t * fieldOf res'.disp p j) := by
        unfold Member.form Member.force
        refine Finset.sum_congr rfl fun a ha => Finset.sum_congr rfl fun j hj => ?_
        rw [lin t _ _ (hn a ha) (Finset.mem_range.1 hj)]
        congr 1
        refine Finset.sum_congr rfl fun b hb => Finset.sum_congr rfl fun c hc => ?_
        rw [lin t _ _ (hn b hb) (Finset.mem_range.1 hc)]
      have c2 := hsym m hm (fieldOf res'.disp) (fieldOf res0.disp)
      have c3 : ∀ v v' u u' : ℕ → ℕ → ℝ, m.form 2 (fun p j => v p j + t * v' p j) (fun p j => u p j + t * u' p j) =
          m.form 2 v u + t * m.form 2 v u' + t * m.form 2 v' u + t ^ 2 * m.form 2 v' u' := by
        intro v v' u u'
        unfold Member.form Member.force
        simp only [mul_add, add_mul, Finset.sum_add_distrib, Finset.mul_sum]
        ring_nf
      rw [c1, c3, c2]
      ring
    rw [List.map_congr_left hm]
    simp only [List.sum_map_add, List.sum_map_mul_left]
    ring
  have hd : HasDerivAt (fun t : ℝ => strainEnergy ms (fieldOf res0.disp) +
      t * (ms.map fun m => m.form 2 (fieldOf res0.disp) (fieldOf res'.disp)).sum + t ^ 2 * strainEnergy ms (fieldOf res'.disp))
      ((ms.map fun m => m.form 2 (fieldOf res0.disp) (fieldOf res'.disp)).sum) 0 := by
    have a := ((hasDerivAt_id (0 : ℝ)).mul_const ((ms.map fun m => m.form 2 (fieldOf res0.disp) (fieldOf res'.disp)).sum)).const_add
      (strainEnergy ms (fieldOf res0.disp))
    have b := ((hasDerivAt_pow 2 (0 : ℝ)).mul_const (strainEnergy ms (fieldOf res'.disp)))
    exact (a.add b).congr_deriv (by simp)
  rw [show work d.nodes.length G (fieldOf res0.disp) = _ from key]
  exact hd.congr_of_eventuallyEq (Eventually.of_forall quad)

/-! ## Trusses: the unit load method -/

/-- The stress `stress_truss` gives a bar, in terms of its elongation. -/
theorem bar_stress_elongation (hs : SqrtFn sq) {mats nodes disp : Table ℝ} {el : List ℤ} {m : Member ℝ} {b : Bar ℝ} {s : ℝ}
    (h : IsMember (Routine sq) mats nodes el m) (hb : IsBar nodes mats el b)
    (hd : disp.length = nodes.length) (hd2 : ∀ r ∈ disp, r.length = 2)
    (hσ : Post.stressTruss1 sq nodes mats disp el = .ok s) :
    s = b.E * (elongation b.X b.L (m.pick 2 (fieldOf disp)) / b.L) := by
  obtain ⟨hn, k, mm, more, hret, hpl⟩ := bar_placed h hb
  have hL : IsLength b.X b.L := by
    obtain ⟨_, _, _, _, _, _, _, hL⟩ := hb
    exact hL
  have hbar : BarMember nodes [el] mats disp 0 b.X b.E b.A (m.pick 2 (fieldOf disp)) := by
    obtain ⟨eid, mi', id, more, rfl, b2, b3, hL⟩ := hb
    refine ⟨_, mi', b.ends, id, fun _ => [], more, rfl, rfl, rfl, rfl, b2, fun a => ⟨b3 a, ?_⟩⟩
    obtain ⟨hlt, _⟩ := List.getElem?_eq_some_iff.1 (b3 a)
    rw [← hd] at hlt
    have hl := hd2 _ (List.getElem_mem hlt)
    rw [List.getElem?_eq_getElem hlt, Option.some.injEq]
    have hg : m.nodes.getD a 0 = b.ends a := by rw [hn]; fin_cases a <;> rfl
    have key : ∀ c : Fin 2, m.pick 2 (fieldOf disp) (a, c) = (disp[b.ends a]'hlt)[(c : ℕ)]'(by rw [hl]; exact c.2) := by
      intro c
      unfold Member.pick fieldOf entry
      dsimp only
      rw [hg, List.getElem?_eq_getElem hlt, Option.bind_some, List.getElem?_eq_getElem (by rw [hl]; exact c.2)]
      rfl
    rw [key 0, key 1]
    generalize disp[b.ends a]'hlt = r at hl
    match r, hl with
    | [x, y], _ => rfl
  have hs1 : Post.stressTruss sq nodes [el] mats disp = .ok [s] := mapM_ok.2 (.cons hσ .nil)
  have hσ' := C53_stress hs hs1 hbar hL
  simp only [List.getElem?_cons_zero, Option.some.injEq] at hσ'
  rw [hσ', mul_div_assoc]

/-- The stiffness form of a bar in two states: the product of its stresses times volume over modulus. -/
theorem bar_form (hs : SqrtFn sq) {mats nodes disp disp' : Table ℝ} {el : List ℤ} {m : Member ℝ} {b : Bar ℝ} {s s' : ℝ}
    (h : IsMember (Routine sq) mats nodes el m) (hb : IsBar nodes mats el b) (hE : b.E ≠ 0)
    (hd : disp.length = nodes.length) (hd2 : ∀ r ∈ disp, r.length = 2)
    (hd' : disp'.length = nodes.length) (hd2' : ∀ r ∈ disp', r.length = 2)
    (hσ : Post.stressTruss1 sq nodes mats disp el = .ok s) (hσ' : Post.stressTruss1 sq nodes mats disp' el = .ok s') :
    m.form 2 (fieldOf disp') (fieldOf disp) = s' * s * (b.A * b.L / b.E) := by
  have e1 := bar_stress_elongation hs h hb hd hd2 hσ
  have e2 := bar_stress_elongation hs h hb hd' hd2' hσ'
  obtain ⟨hn, k, mm, more, hret, hpl⟩ := bar_placed h hb
  have hL : IsLength b.X b.L := by
    obtain ⟨_, _, _, _, _, _, _, hL⟩ := hb
    exact hL
  have hL0 : b.L ≠ 0 := hL.1.ne'
  rw [hpl.form, C51_force hs hL hret, e1, e2]
  generalize m.pick 2 (fieldOf disp) = u
  generalize m.pick 2 (fieldOf disp') = v
  simp only [dotProduct, Fintype.sum_prod_type, Fin.sum_univ_two, Spec.pull, elongation]
  field_simp
  ring

/-- C164.  The unit load method for trusses (Maxwell, Mohr): the work of any loads `G` on the displacements is the sum over the bars of
the product of the stresses of the two load cases, as `stress_truss` gives them, times volume over modulus; and its derivative,
when the moduli grow at the rates `g`, is minus the weighted sum. -/
theorem C164_unit_load (hs : SqrtFn sq) (hp : PlaneModel d) (hwf : WellFormed d) (hsp : SolverOk sp) (hms : Members sq d ms)
    (hst : Stable d.cons 2 ms) {bars : List (Bar ℝ)}
    (hb : List.Forall₂ (IsBar d.nodes d.mats) d.elements bars) (hE : ∀ b ∈ bars, b.E ≠ 0)
    {loads' : Table ℝ} (hG : LoadField { d with loads := loads' } G) {p0 p2 : Bool} {res0 res' : Gui.Result ℝ}
    (h0 : Gui.solidsAuto sq sp de d p0 = .ok res0) (h2 : Gui.solidsAuto sq sp de { d with loads := loads' } p2 = .ok res')
    {σ σ' : List ℝ} (hσ : Post.stressTruss sq d.nodes d.elements d.mats res0.disp = .ok σ)
    (hσ' : Post.stressTruss sq d.nodes d.elements d.mats res'.disp = .ok σ') :
    work d.nodes.length G (fieldOf res0.disp) =
      (List.zipWith (fun b s => s.1 * s.2 * (b.A * b.L / b.E)) bars (List.zip σ' σ)).sum ∧
    ∀ ws : List ℝ, weighted ws ms (fieldOf res'.disp) (fieldOf res0.disp) =
      (List.zipWith (fun w x => w * x) ws (List.zipWith (fun b s => s.1 * s.2 * (b.A * b.L / b.E)) bars (List.zip σ' σ))).sum := by
  have hwfL : WellFormed { d with loads := loads' } := ⟨hwf.codes, hwf.width, hwf.size⟩
  have hmsL : Members sq { d with loads := loads' } ms := hms
  obtain ⟨⟨d1, d2⟩, e0⟩ := C18_nodal_equilibrium hwf hsp hms hst h0
  obtain ⟨⟨d1', d2'⟩, e2⟩ := C18_nodal_equilibrium hwfL hsp hmsL hst h2
  have key := load_work hwfL hmsL hG e2 e0.1
  have hsym := (C93_elements hs hp hms).1
  have swap : (ms.map fun m => m.form 2 (fieldOf res0.disp) (fieldOf res'.disp)).sum =
      (ms.map fun m => m.form 2 (fieldOf res'.disp) (fieldOf res0.disp)).sum :=
    congrArg List.sum (List.map_congr_left fun m hm => hsym m hm _ _)
  have hl : (ms.map fun m => m.form 2 (fieldOf res'.disp) (fieldOf res0.disp)) =
      List.zipWith (fun b s => s.1 * s.2 * (b.A * b.L / b.E)) bars (List.zip σ' σ) := by
    have hσ := mapM_ok.1 hσ
    have hσ' := mapM_ok.1 hσ'
    unfold Members at hms
    dsimp only at d1'
    clear * - hms hb hσ hσ' hs d1 d2 d1' d2' hE
    generalize d.elements = els at hms hb hσ hσ'
    induction hms generalizing bars σ σ' with
    | nil => cases hb; simp
    | cons a _ ih =>
      cases hb with
      | cons b hb =>
        cases hσ with
        | cons s hσ =>
          cases hσ' with
          | cons s' hσ' =>
            rw [List.map_cons, ih (fun b h => hE b (List.mem_cons_of_mem _ h)) hb hσ hσ',
              bar_form hs a b (hE _ List.mem_cons_self) d1 d2 d1' d2' s s']
            simp
  refine ⟨?_, fun ws => ?_⟩
  · unfold work
    dsimp only at key
    rw [key, swap, hl]
  · rw [← hl]
    unfold weighted
    rw [List.zipWith_map_right]

end

section demo

theorem trussR_force : LoadField trussR fun p j => if p = 2 then (if j = 0 then 4 else -6) else 0 := by
  intro p j hp hj
  have hn : Names trussR.nodes.length [2, (4 : ℝ), -6] 2 := (names_nat (by decide) rfl).2 rfl
  have hj' : j = 0 ∨ j = 1 := by omega
  by_cases h2 : p = 2
  · subst h2
    refine Or.inr ⟨[], [2, 4, -6], [], rfl, hn, by simp, ?_⟩
    rcases hj' with rfl | rfl <;> rfl
  · dsimp only
    rw [if_neg h2]
    refine Or.inl ⟨fun L hL => ?_, rfl⟩
    simp only [trussR, List.mem_singleton] at hL
    subst hL
    intro hc
    exact h2 ((names_nat (by decide) rfl).1 hc)

/-- Case for C164: in the truss of two bars the first bar carries the stress 5 over the length 5, with modulus 125; the work of the
loads falls at the rate 1 when that modulus grows. -/
example {res : ℝ → Gui.Result ℝ} (hres : ∀ᶠ t in 𝓝 (0 : ℝ), Gui.solidsAuto Real.sqrt cramerR cramerR
    { trussR with mats := [[(1 + t) * 125, 1], [9, 1]] } false = .ok (res t)) :
    HasDerivAt (fun t => 4 * fieldOf (res t).disp 2 0 - 6 * fieldOf (res t).disp 2 1) (-1) 0 := by
  obtain ⟨ms, hms⟩ := truss_members sqrtFn_real trussR_bars
  have hst := trussR_stable hms
  have hn : Names trussR.nodes.length [2, (4 : ℝ), -6] 2 := (names_nat (by decide) rfl).2 rfl
  obtain ⟨res0, h0⟩ := C93_solids_auto_returns (de := cramerR) trussR_plane trussR_wf cramerR_ok hms hst
    ⟨2, 0, trussR_free 0 (by omega)⟩ (by
      intro L hL
      simp only [trussR, List.mem_singleton] at hL
      subst hL
      exact ⟨by simp, 2, hn⟩)
  obtain ⟨σ, hσ⟩ := C92_stress_exists sqrtFn_real trussR_bars (by simp [trussBars]) h0
  have j0 := C92_method_of_joints sqrtFn_real trussR_wf cramerR_ok hms hst trussR_bars h0 hσ (trussR_free 0 (by omega))
    (j := 0) (trussR_force 2 0 (by simp [trussR]) (by omega))
  have j1 := C92_method_of_joints sqrtFn_real trussR_wf cramerR_ok hms hst trussR_bars h0 hσ (trussR_free 1 (by omega))
    (j := 1) (trussR_force 2 1 (by simp [trussR]) (by omega))
  have hlen : σ.length = 2 := mapM_length hσ
  have e : σ = [5, -9] := by
    match σ, hlen with
    | [s0, s1], _ =>
      simp [jointForce, trussBars, Fin.sum_univ_two, Spec.pull] at j0 j1
      have e0 : s0 = 5 := by linarith
      have e1 : s1 = -9 := by linarith
      rw [e0, e1]
  subst e
  have hw : Weights (fun q => if q = 0 then 1 else 0) trussR.mats.length trussR.elements [1, 0] :=
    .cons ⟨0, 0, rfl, ⟨by simp [trussR], Or.inl rfl⟩, rfl⟩ (.cons ⟨1, 1, rfl, ⟨by simp [trussR], Or.inl rfl⟩, rfl⟩ .nil)
  have hr : ∀ t : ℝ, retuned (fun q => if q = 0 then 1 else 0) t trussR.mats = [[(1 + t) * 125, 1], [9, 1]] := by
    intro t; simp [retuned, trussR]
  have hd := (C164_compliance (de := cramerR) trussR_plane trussR_wf cramerR_ok hms hst hw trussR_force h0 (p1 := false) (res := res)
    (by simpa only [hr] using hres)).1
  rw [(C164_unit_load sqrtFn_real trussR_plane trussR_wf cramerR_ok hms hst trussR_bars (by simp [trussBars])
    (loads' := trussR.loads) trussR_force h0 h0 hσ hσ).2 [1, 0]] at hd
  have hv : (List.zipWith (fun w x : ℝ => w * x) [1, 0] (List.zipWith (fun (b : Bar ℝ) s => s.1 * s.2 * (b.A * b.L / b.E)) trussBars
      (List.zip [5, -9] [5, -9]))).sum = 1 := by
    simp [trussBars]
    norm_num
  rw [hv] at hd
  refine hd.congr_of_eventuallyEq (Eventually.of_forall fun t => ?_)
  simp [work, trussR, Finset.sum_range_succ]
  ring

theorem trussR_runs (x y : ℝ) : ∃ res, Gui.solidsAuto Real.sqrt cramerR cramerR { trussR with loads := [[2, x, y]] } false = .ok res := by
  obtain ⟨ms, hms⟩ := truss_members sqrtFn_real trussR_bars
  exact C93_solids_auto_returns (d := { trussR with loads := [[2, x, y]] }) (de := cramerR) ⟨trussR_plane.nodes, trussR_plane.types⟩
    ⟨trussR_wf.codes, trussR_wf.width, trussR_wf.size⟩ cramerR_ok hms (trussR_stable hms)
    ⟨2, 0, trussR_free 0 (by omega)⟩ (by
      intro L hL
      simp only [List.mem_singleton] at hL
      subst hL
      exact ⟨by simp, 2, (names_nat (show 2 < trussR.nodes.length by simp [trussR]) rfl).2 rfl⟩)

/-- Case for C164: the derivative of the energy of the truss with respect to the horizontal load is the horizontal displacement. -/
example : ∃ ms res0, ∃ res : ℝ → Gui.Result ℝ, Members Real.sqrt trussR ms ∧
    Gui.solidsAuto Real.sqrt cramerR cramerR trussR false = .ok res0 ∧
    (∀ t, Gui.solidsAuto Real.sqrt cramerR cramerR { trussR with loads := [[2, 4 + t, -6]] } false = .ok (res t)) ∧
    HasDerivAt (fun t => strainEnergy ms (fieldOf (res t).disp)) (fieldOf res0.disp 2 0) 0 := by
  obtain ⟨ms, hms⟩ := truss_members sqrtFn_real trussR_bars
  obtain ⟨res0, h0⟩ := trussR_runs 4 (-6)
  obtain ⟨res', h2⟩ := trussR_runs 1 0
  choose res h1 using fun t : ℝ => trussR_runs (4 + t) (-6)
  refine ⟨ms, res0, res, hms, h0, h1, ?_⟩
  have hG : LoadField { trussR with loads := [[2, 1, 0]] } fun p j => if p = 2 ∧ j = 0 then 1 else 0 := by
    intro p j hp hj
    have hn : Names 3 [2, (1 : ℝ), 0] 2 := (names_nat (by decide) rfl).2 rfl
    have hj' : j = 0 ∨ j = 1 := by omega
    by_cases h2 : p = 2
    · subst h2
      refine Or.inr ⟨[], [2, 1, 0], [], rfl, hn, by simp, ?_⟩
      rcases hj' with rfl | rfl <;> simp
    · dsimp only
      rw [if_neg fun h => h2 h.1]
      refine Or.inl ⟨fun L hL => ?_, rfl⟩
      simp only [List.mem_singleton] at hL
      subst hL
      intro hc
      exact h2 ((names_nat (by decide) rfl).1 hc)
  have := C164_castigliano (d := trussR) (de := cramerR) sqrtFn_real trussR_plane trussR_wf cramerR_ok hms (trussR_stable hms)
    [(2, [4, -6], [1, 0])] (by simp) (G := fun p j => if p = 2 ∧ j = 0 then 1 else 0) hG (res := res) h0
    (fun t => by simpa using h1 t) h2
  simpa [work, trussR, Finset.sum_range_succ] using this

end demo

end SolidsPy
