import Verif.Props.UserEnergy
import Verif.Props.TrussStatics
import Verif.Props.Variation
import Mathlib.Algebra.QuadraticDiscriminant

/-! # C177: bounds for the displacement under a load -/

set_option linter.unusedSectionVars false

namespace SolidsPy
open Spec Assem Matrix

/-- The field that moves component `i` of node `q` by one and nothing else. -/
def Spec.oneField {K : Type} [Zero K] [One K] (q i : ℕ) : ℕ → ℕ → K := fun p j => if p = q ∧ j = i then 1 else 0

section
variable {K : Type} [Field K] [LinearOrder K] [IsStrictOrderedRing K] [FloorRing K]

theorem forms_cauchy {nd : ℕ} {ms : List (Member K)} (hs : ∀ m ∈ ms, ∀ v u, m.form nd v u = m.form nd u v)
    (h0 : ∀ m ∈ ms, ∀ u, 0 ≤ m.form nd u u) (v u : ℕ → ℕ → K) :
    (ms.map fun m => m.form nd v u).sum ^ 2 ≤ (ms.map fun m => m.form nd u u).sum * (ms.map fun m => m.form nd v v).sum := by
  have := discrim_le_zero (a := (ms.map fun m => m.form nd v v).sum) (b := 2 * (ms.map fun m => m.form nd v u).sum)
    (c := (ms.map fun m => m.form nd u u).sum) fun x => by
      have e := forms_square ms hs 1 x u v
      have p : 0 ≤ (ms.map fun m => m.form nd (fun p j => 1 * u p j + x * v p j) fun p j => 1 * u p j + x * v p j).sum :=
        List.sum_nonneg fun y hy => by
          obtain ⟨m, hm, rfl⟩ := List.mem_map.1 hy
          exact h0 m hm _
      rw [e] at p
      linarith
  unfold discrim at this
  linarith

variable {nd n : ℕ} {cons loads : Table K} {ms : List (Member K)} {F U V : ℕ → ℕ → K}

/-- The loads, doing work `w` on their displacements, do on any admissible field a work whose square is at most `w` times twice the
energy of that field. -/
theorem work_cauchy (hsz : cons.length = n) (hn : ∀ m ∈ ms, ∀ p ∈ m.nodes, p < n) (hs : ∀ m ∈ ms, ∀ v u, m.form nd v u = m.form nd u v)
    (h0 : ∀ m ∈ ms, ∀ u, 0 ≤ m.form nd u u) (hF : ∀ p < n, ∀ j < nd, IsLoad n loads p j (F p j)) (hU : Equilibrium cons nd loads ms U)
    (hV : Admissible cons nd V) : (∑ p ∈ Finset.range n, ∑ j ∈ Finset.range nd, V p j * F p j) ^ 2 ≤
      (∑ p ∈ Finset.range n, ∑ j ∈ Finset.range nd, U p j * F p j) * (ms.map fun m => m.form nd V V).sum := by
  have w := ((weak_iff hsz hn hF).1 hU).2
  rw [w V hV, w U hU.1]
  exact forms_cauchy hs h0 V U

theorem sum_unit {q i : ℕ} (hq : q < n) (hi : i < nd) (G : ℕ → ℕ → K) :
    ∑ p ∈ Finset.range n, ∑ j ∈ Finset.range nd, G p j * oneField q i p j = G q i := by
  have := loadWork_unit (K := K) hq hi G
  exact this

/-- The displacement at a single load is at least the load divided by the stiffness felt there when all else is held. -/
theorem single_bound (hsz : cons.length = n) (hn : ∀ m ∈ ms, ∀ p ∈ m.nodes, p < n) (hs : ∀ m ∈ ms, ∀ v u, m.form nd v u = m.form nd u v)
    (h0 : ∀ m ∈ ms, ∀ u, 0 ≤ m.form nd u u) {q i : ℕ} {P : K} (hF : ∀ p < n, ∀ j < nd, IsLoad n loads p j (P * oneField q i p j))
    (hU : Equilibrium cons nd loads ms U) (hf : Free cons nd q i) :
    0 ≤ P * U q i ∧ |P| ≤ |U q i| * internal nd ms (oneField q i) q i := by
  have hq : q < n := by rw [← hsz]; exact free_lt hf
  have hV : Admissible cons nd (oneField (K := K) q i) := fun p j _ _ hf' => if_neg (by rintro ⟨rfl, rfl⟩; exact hf' hf)
  have e : ∀ G : ℕ → ℕ → K, ∑ p ∈ Finset.range n, ∑ j ∈ Finset.range nd, G p j * (P * oneField q i p j) = P * G q i := fun G => by
    rw [← sum_unit hq hf.1 G, Finset.mul_sum]
    refine Finset.sum_congr rfl fun p _ => ?_
    rw [Finset.mul_sum]
    exact Finset.sum_congr rfl fun j _ => by ring
  have hW := ((weak_iff hsz hn hF).1 hU).2 U hU.1
  rw [e] at hW
  have hW0 : 0 ≤ P * U q i := by
    rw [hW]
    refine List.sum_nonneg fun y hy => ?_
    obtain ⟨m, hm, rfl⟩ := List.mem_map.1 hy
    exact h0 m hm _
  have hk : (ms.map fun m => m.form nd (oneField q i) (oneField q i)).sum = internal nd ms (oneField q i) q i := by
    rw [← virtual_work hn, ← sum_unit hq hf.1 (internal nd ms (oneField q i))]
    exact Finset.sum_congr rfl fun p _ => Finset.sum_congr rfl fun j _ => mul_comm _ _
  have hk0 : 0 ≤ internal nd ms (oneField (K := K) q i) q i := by
    rw [← hk]
    refine List.sum_nonneg fun y hy => ?_
    obtain ⟨m, hm, rfl⟩ := List.mem_map.1 hy
    exact h0 m hm _
  have c := work_cauchy hsz hn hs h0 hF hU hV
  rw [e, e, hk] at c
  have e1 : oneField (K := K) q i q i = 1 := if_pos ⟨rfl, rfl⟩
  rw [e1, mul_one] at c
  refine ⟨hW0, ?_⟩
  rcases eq_or_ne P 0 with rfl | hP
  · rw [abs_zero]
    positivity
  · have hP' := abs_pos.2 hP
    rw [← sq_abs, ← abs_of_nonneg hW0, abs_mul, pow_two, mul_assoc] at c
    exact le_of_mul_le_mul_left c hP'

end

section
variable {K : Type} [Field K] [LinearOrder K] [IsStrictOrderedRing K] [FloorRing K]
variable {sq : K → K} {sp de : Sol.Solver K} {d : Gui.Data K} {plot : Bool} {res : Gui.Result K} {ms : List (Member K)} {F : ℕ → ℕ → K}
  {bars : List (Bar K)}

/-- C177.  Plane models: with the loads doing the work `w` on the displacements returned, their work on an admissible field has a square
of at most `w` times twice the energy of the field. -/
theorem C177_field (hs : SqrtFn sq) (hp : PlaneModel d) (hphys : Physical d) (hwf : WellFormed d) (hsp : SolverOk sp) (hms : Members sq d ms)
    (hst : Stable d.cons 2 ms) (h : Gui.solidsAuto sq sp de d plot = .ok res) (hF : LoadField d F) {V : ℕ → ℕ → K}
    (hV : Admissible d.cons 2 V) :
    work d.nodes.length F V ^ 2 ≤ work d.nodes.length F (fieldOf res.disp) * (2 * strainEnergy ms V) := by
  obtain ⟨hsym, hpsd⟩ := C93_elements hs hp hms
  have := work_cauchy hwf.size (members_inn hms) hsym (hpsd hphys) (fun p hp j hj => hF p j hp hj) (C18_nodal_equilibrium hwf hsp hms hst h).2 hV
  unfold work strainEnergy
  rwa [← mul_assoc (2 : K), show (2 : K) * (1 / 2) = 1 by norm_num, one_mul]

/-- C177.  Plane models: a single load moves its node in its own direction, and at least by the load divided by the force needed for a
unit displacement there with all other nodes held. -/
theorem C177_single (hs : SqrtFn sq) (hp : PlaneModel d) (hphys : Physical d) (hwf : WellFormed d) (hsp : SolverOk sp) (hms : Members sq d ms)
    (hst : Stable d.cons 2 ms) (h : Gui.solidsAuto sq sp de d plot = .ok res) {q i : ℕ} {P : K}
    (hF : LoadField d fun p j => P * oneField q i p j) (hf : Free d.cons 2 q i) :
    0 ≤ P * fieldOf res.disp q i ∧ |P| ≤ |fieldOf res.disp q i| * internal 2 ms (oneField q i) q i := by
  obtain ⟨hsym, hpsd⟩ := C93_elements hs hp hms
  exact single_bound hwf.size (members_inn hms) hsym (hpsd hphys) (fun p hp j hj => hF p j hp hj) (C18_nodal_equilibrium hwf hsp hms hst h).2 hf

/-- The force at a joint of a truss for a unit displacement there, from the bars that meet there. -/
def Spec.jointStiffness (bars : List (Bar K)) (q : ℕ) (i : Fin 2) : K :=
  (bars.map fun b => if b.ends 0 = q ∨ b.ends 1 = q then b.E * b.A / b.L * ((b.X 1 i - b.X 0 i) / b.L) ^ 2 else 0).sum

theorem joint_stiffness (hs : SqrtFn sq) (hms : Members sq d ms) (hb : List.Forall₂ (IsBar d.nodes d.mats) d.elements bars) (q : ℕ)
    (i : Fin 2) : internal 2 ms (oneField q i) q i = jointStiffness bars q i := by
  rw [truss_internal hs hb hms]
  unfold jointStiffness
  congr 1
  refine List.map_congr_left fun b hbm => ?_
  have hL := bars_length hb b hbm
  have hne : b.ends 0 ≠ b.ends 1 := by
    obtain ⟨el, -, _, _, id, _, -, -, hX, -⟩ := forall₂_mem hb hbm
    intro e
    have h0 := hX 0
    have h1 := hX 1
    rw [e, h1] at h0
    simp only [Option.some.injEq, List.cons.injEq, and_true] at h0
    obtain ⟨-, h2, h3⟩ := h0
    have := hL.2
    rw [h2, h3] at this
    have := hL.1
    nlinarith
  rw [Fin.sum_univ_two]
  unfold elongation oneField pull
  by_cases h0 : b.ends 0 = q
  · have h1 : b.ends 1 ≠ q := fun h => hne (h0.trans h.symm)
    fin_cases i <;> simp [h0, h1] <;> ring
  · by_cases h1 : b.ends 1 = q
    · fin_cases i <;> simp [h0, h1] <;> ring
    · simp [h0, h1]

/-- C177.  Trusses: a single load `P` moves its joint at least by `P` divided by the sum of `E A / L` times the squared cosine over the
bars at the joint. -/
theorem C177_joint (hs : SqrtFn sq) (hp : PlaneModel d) (hphys : Physical d) (hwf : WellFormed d) (hsp : SolverOk sp) (hms : Members sq d ms)
    (hst : Stable d.cons 2 ms) (hb : List.Forall₂ (IsBar d.nodes d.mats) d.elements bars) (h : Gui.solidsAuto sq sp de d plot = .ok res)
    {q : ℕ} {i : Fin 2} {P : K} (hF : LoadField d fun p j => P * oneField q i p j) (hf : Free d.cons 2 q i) :
    0 ≤ P * fieldOf res.disp q i ∧ |P| ≤ |fieldOf res.disp q i| * jointStiffness bars q i := by
  rw [← joint_stiffness hs hms hb]
  exact C177_single hs hp hphys hwf hsp hms hst h hF hf

/-- C177.  Trusses: the work of the loads is at most the sum of `N² L / (E A)` over the bars, for any tensions that balance the loads. -/
theorem C177_tensions (hs : SqrtFn sq) (hwf : WellFormed d) (hsp : SolverOk sp) (hms : Members sq d ms)
    (hst : Stable d.cons 2 ms) (hb : List.Forall₂ (IsBar d.nodes d.mats) d.elements bars) (hE : ∀ b ∈ bars, 0 < b.E * b.A)
    (h : Gui.solidsAuto sq sp de d plot = .ok res) (hF : LoadField d F) {N : Fin bars.length → K}
    (hN : Balances d.nodes.length d.cons d.loads bars N) : work d.nodes.length F (fieldOf res.disp) ≤ storedWork bars N := by
  have he := (C18_nodal_equilibrium hwf hsp hms hst h).2
  have hEi : ∀ i : Fin bars.length, 0 < bars[i].E * bars[i].A := fun i => hE _ (List.getElem_mem _)
  have hLi : ∀ i : Fin bars.length, 0 < bars[i].L := fun i => (bars_length hb _ (List.getElem_mem _)).1
  have w : ∀ T : Fin bars.length → K, Balances d.nodes.length d.cons d.loads bars T →
      ∑ i, T i * bars[i].stretch (fieldOf res.disp) = work d.nodes.length F (fieldOf res.disp) := fun T hT => by
    rw [bars_work_free hwf hb he.1 T (fun p j => F p j) fun p j hf => hT p j hf _ (hF p j (by rw [← hwf.size]; exact free_lt hf) j.2)]
    unfold work
    exact Finset.sum_congr rfl fun p _ => by rw [Finset.sum_range]
  have w1 := w N hN
  have w2 := w (fun i => bars[i].E * bars[i].A / bars[i].L * bars[i].stretch (fieldOf res.disp)) fun p j hf x hx => by
    have e := bars_internal hs hms hb (fieldOf res.disp) p j
    have e2 := he.2 p j hf
    rw [hwf.size] at e2
    rw [e] at e2
    rw [isLoad_unique hx e2]
    ring
  have : 2 * work d.nodes.length F (fieldOf res.disp) ≤ storedWork bars N + work d.nodes.length F (fieldOf res.disp) := by
    conv_lhs => rw [← w1]
    conv_rhs => rw [← w2]
    unfold storedWork
    rw [Finset.mul_sum, ← Finset.sum_add_distrib]
    refine Finset.sum_le_sum fun i _ => ?_
    have h1 := hEi i
    have h2 := hLi i
    generalize bars[i].stretch (fieldOf res.disp) = s
    generalize bars[i].E * bars[i].A = c at *
    generalize bars[i].L = L at *
    have : 0 ≤ L / c * (N i - c / L * s) ^ 2 := by positivity
    have e : L / c * (N i - c / L * s) ^ 2 = N i ^ 2 * L / c + c / L * s * s - 2 * (N i * s) := by
      field_simp
      ring
    linarith
  linarith

end

section
variable {K : Type} [Field K] [LinearOrder K] [IsStrictOrderedRing K] [FloorRing K] {f : Uel K} {tab : ℤ → Py (Uel K)} {nd n m : ℕ}
  {count : ℤ → Py ℕ} {sp de : Sol.Solver K} {cons mats nodes loads full : Table K}
  {elements : List (List ℤ)} {ms : List (Member K)} {F V : ℕ → ℕ → K} {sparse : Bool}

/-- C177.  The user's own elements: work of the loads on an admissible field. -/
theorem C177_user_field (h : UserCase nd n m f count sp de cons elements mats nodes ms) (hst : Stable cons nd ms) (hs : SymmetricElements nd ms)
    (he : ElasticElements nd ms) (hF : UserLoads nd nodes.length loads F)
    (hr : userRun tab f nd m count sp de sparse cons elements mats nodes loads = .ok full) (hV : Admissible cons nd V) :
    loadWork nd nodes.length F V ^ 2 ≤ loadWork nd nodes.length F (fieldOf full) * (2 * storedEnergy nd ms V) := by
  rw [← stored_sum]
  exact work_cauchy h.model.size (describes_inn h.members) (form_symm_of hs) he hF (h.equilibrium hst hr) hV

/-- C177.  The user's own elements: a single load. -/
theorem C177_user_single (h : UserCase nd n m f count sp de cons elements mats nodes ms) (hst : Stable cons nd ms) (hs : SymmetricElements nd ms)
    (he : ElasticElements nd ms) {q i : ℕ} {P : K} (hF : UserLoads nd nodes.length loads fun p j => P * oneField q i p j)
    (hr : userRun tab f nd m count sp de sparse cons elements mats nodes loads = .ok full) (hf : Free cons nd q i) :
    0 ≤ P * fieldOf full q i ∧ |P| ≤ |fieldOf full q i| * internal nd ms (oneField q i) q i :=
  single_bound h.model.size (describes_inn h.members) (form_symm_of hs) he hF (h.equilibrium hst hr) hf

end

section
variable {sq : ℝ → ℝ} {cons mats nodes loads : Table ℝ} {elements : List (List ℤ)}
  {F V : ℕ → ℕ → ℝ} {ks : List (Member ℝ)} {bs : List Piece} {sp de : Sol.Solver ℝ} {sparse : Bool} {full : Table ℝ}

theorem pieces_nonneg (hs : SqrtFn sq) (hb : FramePieces mats nodes elements bs) (he : Elastic bs)
    (hk : List.Forall₂ (IsMember (Routine sq) mats nodes) elements ks) : ∀ m ∈ ks, ∀ u, 0 ≤ m.form 3 u u := by
  intro m hm u
  obtain ⟨el, hel, hr⟩ := forall₂_mem hk hm
  obtain ⟨x, hx', hx⟩ := forall₂_mem' hb hel
  rw [piece_twice hs hx hr]
  exact piece_nonneg hx.length.1 (he x hx').1 (he x hx').2 u

/-- C177.  Frames: work of the forces and couples on an admissible field. -/
theorem C177_frame_field (hs : SqrtFn sq) (hf : Frame cons nodes elements) (hb : FramePieces mats nodes elements bs) (he : Elastic bs)
    (hk : List.Forall₂ (IsMember (Routine sq) mats nodes) elements ks) (hst : Stable cons 3 ks) (hsp : SolverOk sp) (hde : SolverOk de)
    (hF : FrameLoads nodes.length loads F) (h : frameRun sq sp de sparse cons elements mats nodes loads = .ok full)
    (hV : Admissible cons 3 V) :
    frameWork nodes.length F V ^ 2 ≤ frameWork nodes.length F (fieldOf full) * (2 * beamsEnergy bs V) := by
  rw [← pieces_energy hs hb hk]
  exact work_cauchy hf.size (members_lt hk) (pieces_symm hs hb hk) (pieces_nonneg hs hb he hk) hF (frameRun_equilibrium hf hk hst hsp hde h) hV

/-- C177.  Frames: a single force or couple. -/
theorem C177_frame_single (hs : SqrtFn sq) (hf : Frame cons nodes elements) (hb : FramePieces mats nodes elements bs) (he : Elastic bs)
    (hk : List.Forall₂ (IsMember (Routine sq) mats nodes) elements ks) (hst : Stable cons 3 ks) (hsp : SolverOk sp) (hde : SolverOk de)
    {q i : ℕ} {P : ℝ} (hF : FrameLoads nodes.length loads fun p j => P * oneField q i p j)
    (h : frameRun sq sp de sparse cons elements mats nodes loads = .ok full) (hq : Free cons 3 q i) :
    0 ≤ P * fieldOf full q i ∧ |P| ≤ |fieldOf full q i| * internal 3 ks (oneField q i) q i :=
  single_bound hf.size (members_lt hk) (pieces_symm hs hb hk) (pieces_nonneg hs hb he hk) hF (frameRun_equilibrium hf hk hst hsp hde h) hq

end

/-! ## Cases -/

/-- Case for C177: the truss of the notebook with base 4, height 3 and load `W` at its tip: the tip sinks by at least `125 W / 9`, and the
work of the load is at most that of any tensions that balance it. -/
example (W : ℝ) (hW : 0 < W) : ∃ res ms, Gui.solidsAuto Real.sqrt cramerR cramerR (simpleTruss 4 3 (fun _ => 1) (fun _ => 1) W) false = .ok res ∧
    Members Real.sqrt (simpleTruss 4 3 (fun _ => 1) (fun _ => 1) W) ms ∧ fieldOf res.disp 0 1 ≤ -(125 / 9 * W) ∧
    ∀ N : Fin 3 → ℝ, Balances 3 (simpleTruss 4 3 (fun _ => 1) (fun _ => 1) W).cons (simpleTruss 4 3 (fun _ => 1) (fun _ => 1) W).loads
      (simpleBars 4 3 (fun _ => 1) (fun _ => 1)) N → -(W * fieldOf res.disp 0 1) ≤ storedWork (simpleBars 4 3 (fun _ => 1) (fun _ => 1)) N := by
  have hbars := simple_bars (b := 4) (h := 3) (E := fun _ => 1) (A := fun _ => 1) (W := W) (by norm_num) (by norm_num)
  have hpos := simple_positive (b := 4) (h := 3) (E := fun _ => 1) (A := fun _ => 1) (fun _ => one_pos) (fun _ => one_pos)
  obtain ⟨ms, hms⟩ := truss_members sqrtFn_real hbars
  have hst := simple_stable (by norm_num) (by norm_num) (fun _ => one_pos) (fun _ => one_pos) hms
  obtain ⟨res, hres⟩ := C93_solids_auto_returns (de := cramerR) simple_plane simple_wf cramerR_ok hms hst
    ⟨0, 0, (simple_free 0 0).2 (Or.inl ⟨rfl, by norm_num⟩)⟩ simple_loads
  have hphys : Physical (simpleTruss 4 3 (fun _ => 1) (fun _ => 1) W) := by
    intro el hel ty mi q params h1 h2 _ h4
    have h4 := List.mem_of_getElem? h4
    simp only [simpleTruss, List.mem_cons, List.not_mem_nil, or_false] at hel h4
    have hp : params = [1, 1] := by rcases h4 with h | h | h <;> exact h
    rcases hel with rfl | rfl | rfl <;> simp at h1 <;> exact ⟨fun h => absurd h1.symm h, fun _ => ⟨1, 1, [], hp, by norm_num⟩⟩
  have hF : LoadField (simpleTruss 4 3 (fun _ => 1) (fun _ => 1) W) fun p j => -W * oneField 0 (1 : Fin 2) p j := by
    intro p j hp hj
    have hlen : (simpleTruss 4 3 (fun _ => 1) (fun _ => 1) W).nodes.length = 3 := rfl
    rw [hlen] at hp ⊢
    have n0 : ∀ q, Names 3 ([0, 0, -W] : List ℝ) q ↔ q = 0 := fun q => names_nat (p := 0) (q := q) (by norm_num) (by simp)
    have n1 : ∀ q, Names 3 ([1, 0, 0] : List ℝ) q ↔ q = 1 := fun q => names_nat (p := 1) (q := q) (by norm_num) (by simp)
    interval_cases p
    · refine .inr ⟨[], [0, 0, -W], [[1, 0, 0]], rfl, (n0 0).2 rfl, by simp [n1], ?_⟩
      interval_cases j <;> simp [oneField]
    · refine .inr ⟨[[0, 0, -W]], [1, 0, 0], [], rfl, (n1 1).2 rfl, by simp, ?_⟩
      interval_cases j <;> simp [oneField]
    · refine .inl ⟨fun L hL => ?_, by simp [oneField]⟩
      simp only [simpleTruss, List.mem_cons, List.not_mem_nil, or_false] at hL
      rcases hL with rfl | rfl
      · simp [n0]
      · simp [n1]
  have hs5 : Real.sqrt (4 ^ 2 + 3 ^ 2) = 5 := by
    rw [show (4 : ℝ) ^ 2 + 3 ^ 2 = 5 ^ 2 by norm_num]
    exact Real.sqrt_sq (by norm_num)
  refine ⟨res, ms, hres, hms, ?_, fun N hN => ?_⟩
  · obtain ⟨h1, h2⟩ := C177_joint sqrtFn_real simple_plane hphys simple_wf cramerR_ok hms hst hbars hres hF
      ((simple_free 0 1).2 (Or.inl ⟨rfl, by norm_num⟩))
    have hk : jointStiffness (simpleBars 4 3 (fun _ => 1) (fun _ => 1)) 0 1 = 9 / 125 := by
      simp only [jointStiffness, simpleBars, hs5]
      simp
      norm_num
    rw [hk, abs_neg, abs_of_pos hW] at h2
    have hu : fieldOf res.disp 0 1 ≤ 0 := by
      by_contra hc
      have := mul_pos hW (not_le.1 hc)
      have h1' : 0 ≤ -W * fieldOf res.disp 0 1 := h1
      linarith
    have h2' : W ≤ |fieldOf res.disp 0 1| * (9 / 125) := h2
    rw [abs_of_nonpos hu] at h2'
    linarith
  · have := C177_tensions sqrtFn_real simple_wf cramerR_ok hms hst hbars hpos hres hF hN
    refine le_trans (le_of_eq ?_) this
    unfold work
    have e := sum_unit (n := 3) (nd := 2) (q := 0) (i := 1) (by norm_num) (by norm_num) (fieldOf res.disp)
    rw [← e, Finset.mul_sum, ← Finset.sum_neg_distrib]
    refine Finset.sum_congr rfl fun p _ => ?_
    rw [Finset.mul_sum, ← Finset.sum_neg_distrib]
    refine Finset.sum_congr rfl fun j _ => ?_
    simp only [Fin.val_one]
    ring

/-- Case for C177: a unit force at the corner of the frame of the tests. -/
example (sparse : Bool) : ∃ ks full, List.Forall₂ (IsMember (Routine Real.sqrt) testFrame.2.2.1 testFrame.2.2.2.1) testFrame.2.1 ks ∧
    frameRun Real.sqrt cramerR cramerR sparse testFrame.1 testFrame.2.1 testFrame.2.2.1 testFrame.2.2.2.1 [[1, 1, 0, 0]] = .ok full ∧
    1 ≤ fieldOf full 1 0 * internal 3 ks (oneField 1 0) 1 0 := by
  obtain ⟨bs, hb, he⟩ := testFrame_pieces
  obtain ⟨ks, hk⟩ := pieces_members sqrtFn_real hb
  have hst := testFrame_stable hk
  obtain ⟨full, r, -⟩ := C117_solved (loads := [[1, 1, 0, 0]]) testFrame_frame hk hst cramerR_ok cramerR_ok sparse fun l hl => by
    rw [List.mem_singleton] at hl
    subst hl
    exact ⟨by simp, 1, (names_nat (p := 1) (by simp [testFrame]) (by simp)).2 rfl⟩
  have hF : FrameLoads testFrame.2.2.2.1.length [[1, 1, 0, 0]] fun p j => 1 * oneField 1 0 p j := fun p hp j hj => by
    have n1 : ∀ q, Names testFrame.2.2.2.1.length ([1, 1, 0, 0] : List ℝ) q ↔ q = 1 := fun q => names_nat (p := 1) (q := q) (by simp [testFrame]) (by simp)
    by_cases h1 : p = 1
    · subst h1
      refine .inr ⟨[], [1, 1, 0, 0], [], rfl, (n1 1).2 rfl, by simp, ?_⟩
      interval_cases j <;> simp [oneField]
    · refine .inl ⟨fun L hL hN => ?_, by simp [oneField, h1]⟩
      rw [List.mem_singleton] at hL
      subst hL
      exact h1 ((n1 p).1 hN)
  obtain ⟨h1, h2⟩ := C177_frame_single sqrtFn_real testFrame_frame hb he hk hst cramerR_ok cramerR_ok hF r
    ((testFrame_free 1 0).2 ⟨rfl, by norm_num⟩)
  rw [one_mul] at h1
  rw [abs_one, abs_of_nonneg h1] at h2
  exact ⟨ks, full, hk, r, h2⟩

/-- Case for C177: a unit force on a node of a body of tetrahedra. -/
example (tab : ℤ → Py (Uel ℚ)) (sparse : Bool) : ∃ ms full,
    UserCase 3 4 12 Uel.elastTet4 (fun _ => .ok 12) cramerSolver cramerSolver tetCons tetEls tetMats tetNodes ms ∧
    userRun tab Uel.elastTet4 3 12 (fun _ => .ok 12) cramerSolver cramerSolver sparse tetCons tetEls tetMats tetNodes [[4, 0, 0, 1]] = .ok full ∧
    1 ≤ fieldOf full 4 2 * internal 3 ms (oneField 4 2) 4 2 := by
  obtain ⟨ms, h, h1, h2, h3⟩ := tet_case
  have l4 : UserLoads (K := ℚ) 3 tetNodes.length [[4, 0, 0, 1]] (fun a b => 1 * oneField 4 2 a b) := fun p _ j hj => by
    have n1 : ∀ q, Names tetNodes.length ([4, 0, 0, 1] : List ℚ) q ↔ q = 4 := fun q => names_nat (p := 4) (q := q) (by decide) (by simp)
    by_cases hp : p = 4
    · subst hp
      refine .inr ⟨[], [4, 0, 0, 1], [], rfl, (n1 4).2 rfl, by simp, ?_⟩
      interval_cases j <;> simp [oneField]
    · refine .inl ⟨fun L hL hN => ?_, by simp [oneField, hp]⟩
      rw [List.mem_singleton] at hL
      subst hL
      exact hp ((n1 p).1 hN)
  obtain ⟨full, r, -⟩ := C135_solved (tab := tab) (loads := [[4, 0, 0, 1]]) h.element h.model h.counts h.some_dofs h.room h.members h3
    h.sparse h.dense sparse (by
      intro L hL
      rw [List.mem_singleton] at hL
      subst hL
      exact ⟨by simp, 4, (names_nat (p := 4) (q := 4) (by decide) (by simp)).2 rfl⟩)
  obtain ⟨e1, e2⟩ := C177_user_single h h3 h1 h2 l4 r ⟨by norm_num, by decide +kernel⟩
  rw [one_mul] at e1
  rw [abs_one, abs_of_nonneg e1] at e2
  exact ⟨ms, full, h, r, e2⟩

end SolidsPy
