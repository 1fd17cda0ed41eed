import Verif.Spec.Variation
import Verif.Proofs.Twin
import Verif.Props.Invariance

/-! # C98, C99: minimum potential energy, stiffening -/

set_option linter.unusedSectionVars false

namespace SolidsPy
open Spec Assem Matrix

section
variable {K : Type} [Field K] [LinearOrder K] [IsStrictOrderedRing K] [FloorRing K]
variable {sq : K → K} {sp de : Sol.Solver K} {d : Gui.Data K} {plot plot' : Bool}
  {res res' : Gui.Result K} {ms ms' : List (Member K)} {F : ℕ → ℕ → K}

/-- How far the potential energy of an admissible field lies above that of an equilibrium state. -/
theorem potential_gap (hwf : WellFormed d) (hms : Members sq d ms)
    (hsym : ∀ m ∈ ms, ∀ v u, m.form 2 v u = m.form 2 u v) (hF : LoadField d F) {U V : ℕ → ℕ → K}
    (hU : Equilibrium d.cons 2 d.loads ms U) (hV : Admissible d.cons 2 V) :
    potential d.nodes.length ms F V = potential d.nodes.length ms F U + 1 / 2 *
      (ms.map fun m => m.form 2 (fun p j => V p j - U p j) (fun p j => V p j - U p j)).sum := by
  have a := load_work hwf hms hF hU hV
  have b := load_work hwf hms hF hU hU.1
  rw [forms_sub ms hsym]
  unfold potential strainEnergy work
  rw [a, b]
  ring

/-- C98. Among all admissible displacement fields the one returned by `solids_auto` has the least
potential energy. -/
theorem C98_least_potential (hs : SqrtFn sq) (hp : PlaneModel d) (hphys : Physical d) (hwf : WellFormed d)
    (hsp : SolverOk sp) (hms : Members sq d ms) (hst : Stable d.cons 2 ms)
    (h : Gui.solidsAuto sq sp de d plot = .ok res) (hF : LoadField d F) {V : ℕ → ℕ → K}
    (hV : Admissible d.cons 2 V) :
    potential d.nodes.length ms F (fieldOf res.disp) ≤ potential d.nodes.length ms F V := by
  obtain ⟨hsym, hpsd⟩ := C93_elements hs hp hms
  have he := (C18_nodal_equilibrium hwf hsp hms hst h).2
  rw [potential_gap hwf hms hsym hF he hV]
  have : 0 ≤ (ms.map fun m => m.form 2 (fun p j => V p j - fieldOf res.disp p j)
      (fun p j => V p j - fieldOf res.disp p j)).sum := by
    apply List.sum_nonneg
    intro x hx
    obtain ⟨m, hm, rfl⟩ := List.mem_map.1 hx
    exact hpsd hphys m hm _
  linarith

/-- C98. Only the returned displacements attain the least potential energy. -/
theorem C98_only_minimiser (hs : SqrtFn sq) (hp : PlaneModel d) (hphys : Physical d) (hwf : WellFormed d)
    (hsp : SolverOk sp) (hms : Members sq d ms) (hst : Stable d.cons 2 ms)
    (h : Gui.solidsAuto sq sp de d plot = .ok res) (hF : LoadField d F) {V : ℕ → ℕ → K}
    (hV : Admissible d.cons 2 V)
    (hle : potential d.nodes.length ms F V ≤ potential d.nodes.length ms F (fieldOf res.disp)) :
    ∀ p j, p < d.nodes.length → j < 2 → V p j = fieldOf res.disp p j := by
  obtain ⟨hsym, hpsd⟩ := C93_elements hs hp hms
  have he := (C18_nodal_equilibrium hwf hsp hms hst h).2
  have hgap := potential_gap hwf hms hsym hF he hV
  have h0 : 0 ≤ (ms.map fun m => m.form 2 (fun p j => V p j - fieldOf res.disp p j)
      (fun p j => V p j - fieldOf res.disp p j)).sum := by
    apply List.sum_nonneg
    intro x hx
    obtain ⟨m, hm, rfl⟩ := List.mem_map.1 hx
    exact hpsd hphys m hm _
  intro p j hp' hj
  have := (C93_stable_iff hs hp hwf hphys hms).1 hst (fun p j => V p j - fieldOf res.disp p j)
    (fun p j hp hj hf => by dsimp only; rw [hV p j hp hj hf, he.1 p j hp hj hf, sub_zero])
    (by linarith) p j (by rw [hwf.size]; exact hp') hj
  exact sub_eq_zero.1 this

/-- C98 (Clapeyron). The energy stored by the returned displacements is half the work of the loads, so the
least potential energy is minus that. -/
theorem C98_clapeyron (hwf : WellFormed d) (hsp : SolverOk sp) (hms : Members sq d ms)
    (hst : Stable d.cons 2 ms) (h : Gui.solidsAuto sq sp de d plot = .ok res) (hF : LoadField d F) :
    strainEnergy ms (fieldOf res.disp) = 1 / 2 * work d.nodes.length F (fieldOf res.disp) ∧
    potential d.nodes.length ms F (fieldOf res.disp) =
      -(1 / 2 * work d.nodes.length F (fieldOf res.disp)) := by
  have he := (C18_nodal_equilibrium hwf hsp hms hst h).2
  have b := load_work hwf hms hF he he.1
  unfold potential strainEnergy
  unfold work
  rw [b]
  constructor <;> ring

/-! ## C99 -/

/-- Compliance of two structures under the same loads: the one with more supports and stiffer elements
yields less. -/
theorem compliance_le {d' : Gui.Data K} (hwf : WellFormed d) (hwf' : WellFormed d') (hms : Members sq d ms)
    (hms' : Members sq d' ms') (hn : d'.nodes.length = d.nodes.length)
    (hsym : ∀ m ∈ ms, ∀ v u, m.form 2 v u = m.form 2 u v)
    (hpsd : ∀ m ∈ ms, ∀ u, 0 ≤ m.form 2 u u) (hF : LoadField d F) (hF' : LoadField d' F)
    {U U' : ℕ → ℕ → K} (hU : Equilibrium d.cons 2 d.loads ms U)
    (hU' : Equilibrium d'.cons 2 d'.loads ms' U')
    (hadm : Admissible d.cons 2 U')
    (hle : (ms.map fun m => m.form 2 U' U').sum ≤ (ms'.map fun m => m.form 2 U' U').sum) :
    work d.nodes.length F U' ≤ work d.nodes.length F U := by
  have a := load_work hwf hms hF hU hadm
  have b := load_work hwf hms hF hU hU.1
  have c := load_work hwf' hms' hF' hU' hU'.1
  have g := forms_sub ms hsym U' U
  have g0 : 0 ≤ (ms.map fun m => m.form 2 (fun p j => U' p j - U p j)
      (fun p j => U' p j - U p j)).sum := by
    apply List.sum_nonneg
    intro x hx
    obtain ⟨m, hm, rfl⟩ := List.mem_map.1 hx
    exact hpsd m hm _
  rw [hn] at c
  unfold work
  rw [← a, ← b] at g
  rw [← c] at hle
  linarith

/-- C99. A stable structure stays stable when supports are added. -/
theorem C99_stable_more_supports (hs : SqrtFn sq) (hp : PlaneModel d) (hphys : Physical d)
    (hwf : WellFormed d) (hms : Members sq d ms) (hst : Stable d.cons 2 ms) {cons' : Table K}
    (hwf' : WellFormed { d with cons := cons' })
    (hc : ∀ p j, Free cons' 2 p j → Free d.cons 2 p j) : Stable cons' 2 ms := by
  have hl : cons'.length = d.cons.length := hwf'.size.trans hwf.size.symm
  have hp' : PlaneModel { d with cons := cons' } := ⟨hp.nodes, hp.types⟩
  exact (C93_stable_iff hs hp' hwf' (d := { d with cons := cons' }) hphys hms).2 fun u hu h0 p j hp0 hj =>
    (C93_stable_iff hs hp hwf hphys hms).1 hst u (fun p j hp hj hf =>
      hu p j (by rw [hl]; exact hp) hj fun hf' => hf (hc p j hf')) h0 p j (by rw [← hl]; exact hp0) hj

/-- C99. Adding supports never increases the work of the loads: if every degree of freedom that is free
with the constraints `cons'` was free before, the loads do at most as much work. -/
theorem C99_more_supports (hs : SqrtFn sq) (hp : PlaneModel d) (hphys : Physical d) (hwf : WellFormed d)
    (hsp : SolverOk sp) (hms : Members sq d ms) (hst : Stable d.cons 2 ms)
    (h : Gui.solidsAuto sq sp de d plot = .ok res) (hF : LoadField d F) {cons' : Table K}
    (hwf' : WellFormed { d with cons := cons' })
    (hc : ∀ p j, Free cons' 2 p j → Free d.cons 2 p j)
    (h' : Gui.solidsAuto sq sp de { d with cons := cons' } plot' = .ok res') :
    work d.nodes.length F (fieldOf res'.disp) ≤ work d.nodes.length F (fieldOf res.disp) := by
  obtain ⟨hsym, hpsd⟩ := C93_elements hs hp hms
  have he := (C18_nodal_equilibrium hwf hsp hms hst h).2
  have hl : cons'.length = d.cons.length := hwf'.size.trans hwf.size.symm
  have ha : ∀ u, Admissible cons' 2 u → Admissible d.cons 2 u := fun u hu p j hp hj hf =>
    hu p j (by rw [hl]; exact hp) hj fun hf' => hf (hc p j hf')
  have hms' : Members sq { d with cons := cons' } ms := hms
  have hst' := C99_stable_more_supports hs hp hphys hwf hms hst hwf' hc
  have he' := (C18_nodal_equilibrium hwf' hsp hms' hst' h').2
  exact compliance_le hwf hwf' hms hms' rfl hsym (hpsd hphys) hF hF he he' (ha _ he'.1) le_rfl

theorem forms_sublist {mats nodes : Table K} {els els' : List (List ℤ)} {ms ms' : List (Member K)}
    (hms : List.Forall₂ (IsMember (Routine sq) mats nodes) els ms)
    (hms' : List.Forall₂ (IsMember (Routine sq) mats nodes) els' ms') (hsub : els.Sublist els')
    (hpsd : ∀ m ∈ ms', ∀ u, 0 ≤ m.form 2 u u) (u : ℕ → ℕ → K) :
    (ms.map fun m => m.form 2 u u).sum ≤ (ms'.map fun m => m.form 2 u u).sum := by
  induction hsub generalizing ms ms' with
  | slnil =>
    cases hms
    cases hms'
    simp
  | cons el hsub ih =>
    cases hms' with
    | cons a t =>
      simp only [List.map_cons, List.sum_cons]
      have := ih hms t fun m hm => hpsd m (List.mem_cons_of_mem _ hm)
      have := hpsd _ List.mem_cons_self u
      linarith
  | cons_cons el hsub ih =>
    cases hms' with
    | cons a t =>
      cases hms with
      | cons a' t' =>
        simp only [List.map_cons, List.sum_cons]
        rw [isMember_unique a a']
        have := ih t' t fun m hm => hpsd m (List.mem_cons_of_mem _ hm)
        linarith

theorem stable_of_forms_le (hs : SqrtFn sq) (hp : PlaneModel d) (hphys : Physical d)
    (hwf : WellFormed d) (hms : Members sq d ms) (hst : Stable d.cons 2 ms) {d' : Gui.Data K}
    (hc : d'.cons = d.cons) (hp' : PlaneModel d') (hphys' : Physical d') (hwf' : WellFormed d')
    (hms' : Members sq d' ms')
    (key : ∀ u, (ms.map fun m => m.form 2 u u).sum ≤ (ms'.map fun m => m.form 2 u u).sum) :
    Stable d.cons 2 ms' := by
  rw [← hc]
  exact (C93_stable_iff hs hp' hwf' hphys' hms').2 fun u hu h0 p j hp0 hj =>
    (C93_stable_iff hs hp hwf hphys hms).1 hst u (by rw [← hc]; exact hu)
      (le_antisymm (by rw [← h0]; exact key u) (by
        apply List.sum_nonneg
        intro x hx
        obtain ⟨m, hm, rfl⟩ := List.mem_map.1 hx
        exact (C93_elements hs hp hms).2 hphys m hm _)) p j (by rw [← hc]; exact hp0) hj

/-- C99. A stable structure stays stable when elements are added. -/
theorem C99_stable_more_elements (hs : SqrtFn sq) (hp : PlaneModel d) (hphys : Physical d)
    (hwf : WellFormed d) (hms : Members sq d ms) (hst : Stable d.cons 2 ms) {elements' : List (List ℤ)}
    (hsub : d.elements.Sublist elements') (hp' : PlaneModel { d with elements := elements' })
    (hphys' : Physical { d with elements := elements' })
    (hms' : Members sq { d with elements := elements' } ms') : Stable d.cons 2 ms' :=
  stable_of_forms_le hs hp hphys hwf hms hst (d' := { d with elements := elements' }) rfl hp' hphys'
    ⟨hwf.codes, hwf.width, hwf.size⟩ hms'
    (forms_sublist hms hms' hsub ((C93_elements hs hp' hms').2 hphys'))

/-- C99. Adding elements never increases the work of the loads. -/
theorem C99_more_elements (hs : SqrtFn sq) (hp : PlaneModel d) (hphys : Physical d) (hwf : WellFormed d)
    (hsp : SolverOk sp) (hms : Members sq d ms) (hst : Stable d.cons 2 ms)
    (h : Gui.solidsAuto sq sp de d plot = .ok res) (hF : LoadField d F) {elements' : List (List ℤ)}
    (hsub : d.elements.Sublist elements') (hp' : PlaneModel { d with elements := elements' })
    (hphys' : Physical { d with elements := elements' })
    (h' : Gui.solidsAuto sq sp de { d with elements := elements' } plot' = .ok res') :
    work d.nodes.length F (fieldOf res'.disp) ≤ work d.nodes.length F (fieldOf res.disp) := by
  obtain ⟨hsym, hpsd⟩ := C93_elements hs hp hms
  have he := (C18_nodal_equilibrium hwf hsp hms hst h).2
  have hwf' : WellFormed { d with elements := elements' } := ⟨hwf.codes, hwf.width, hwf.size⟩
  obtain ⟨ms', hms'⟩ := C18_members_exist hwf' h'
  obtain ⟨hsym', hpsd'⟩ := C93_elements hs hp' hms'
  have key : ∀ u, (ms.map fun m => m.form 2 u u).sum ≤ (ms'.map fun m => m.form 2 u u).sum :=
    forms_sublist hms hms' hsub (hpsd' hphys')
  have hst' := C99_stable_more_elements hs hp hphys hwf hms hst hsub hp' hphys' hms'
  have he' := (C18_nodal_equilibrium hwf' hsp hms' hst' h').2
  exact compliance_le hwf hwf' hms hms' rfl hsym (hpsd hphys) hF hF he he' he'.1 (key _)

/-- The material tables agree up to Young's moduli, which are multiplied by factors between `a` and `b`. -/
def Stiffened (a b : K) (mats mats' : Table K) : Prop :=
  List.Forall₂ (fun r r' => ∃ c E rest, a ≤ c ∧ c ≤ b ∧ r = E :: rest ∧ r' = c * E :: rest) mats mats'

theorem Structural.young (hs : SqrtFn sq) {n : ℕ} {f : Uel K} (hf : Structural sq n f)
    {X : Matrix (Fin n) (Fin 2) K} {E : K} {rest : List K} {k m k' m'} {c : K}
    (h : Returns f X (E :: rest) k m) (h' : Returns f X (c * E :: rest) k' m') : k' = c • k := by
  rcases hf with hf | ⟨rfl, rfl⟩
  · cases rest with
    | nil =>
      obtain ⟨R, hR⟩ := plane_rule hf
      obtain ⟨hg, st, hr⟩ := returns_plane hR
      obtain ⟨C, ρ, hm, -⟩ := (hr _ _ _ _).1 h
      have := hm.2.1
      simp [Fem.umat] at this
    | cons nu rest => exact (returns_unique (C46_plane_young hf h c) h').1
  · obtain ⟨h0, h1⟩ := (C51_accepts_iff hs X _).1 ⟨k, m, h⟩
    obtain ⟨L, hL⟩ := exists_length hs h0
    match rest, h1, h, h' with
    | A :: rest, _, h, h' =>
      obtain ⟨rfl, rfl⟩ := (truss_returns hs hL).1 h
      obtain ⟨rfl, rfl⟩ := (truss_returns hs hL).1 h'
      ext p q
      simp only [barK, Matrix.smul_apply, Matrix.of_apply, smul_eq_mul]
      ring

theorem member_young (hs : SqrtFn sq) {mats mats' nodes : Table K} {el : List ℤ} {m m' : Member K} {a b : K}
    (h : IsMember (Routine sq) mats nodes el m) (h' : IsMember (Routine sq) mats' nodes el m')
    (h3 : ∀ r ∈ nodes, r.length = 3)
    (hty : ∀ ty, el[1]? = some ty → ty ∈ [(1 : ℤ), 2, 3, 4] ∨ (ty = 6 ∧ (el.drop 3).length = 2))
    (hm : Stiffened a b mats mats') :
    ∃ c, a ≤ c ∧ c ≤ b ∧ ∀ v u, m'.form 2 v u = c * m.form 2 v u := by
  obtain ⟨hn, ty, mi, q, params, params', n, f, X, X', k, k', mm, mm', a1, a2, a3, a4, a5, b5, a6, a7, a8, b7,
    b8⟩ := members_twin h h' h3 h3 hty hm.length_eq.symm rfl
  obtain rfl := a8.coord_unique b8 hn
  obtain ⟨hq, rfl⟩ := List.getElem?_eq_some_iff.1 a5
  obtain ⟨hq', rfl⟩ := List.getElem?_eq_some_iff.1 b5
  obtain ⟨c, E, rest, hc1, hc2, e1, e2⟩ := hm.get (i := q) hq hq'
  simp only [List.get_eq_getElem] at e1 e2
  rw [e1] at a7
  rw [e2] at b7
  refine ⟨c, hc1, hc2, fun v u => ?_⟩
  rw [a8.form, b8.form, a6.young hs a7 b7, pick_congr hn, pick_congr hn, Matrix.smul_mulVec,
    dotProduct_smul, smul_eq_mul]

theorem forms_two (hs : SqrtFn sq) (hp : PlaneModel d) (hms : Members sq d ms) {mats' : Table K} {a b : K}
    (hms' : Members sq { d with mats := mats' } ms') (hmat : Stiffened a b d.mats mats') :
    List.Forall₂ (fun m m' => ∃ c, a ≤ c ∧ c ≤ b ∧ ∀ v u, m'.form 2 v u = c * m.form 2 v u) ms ms' := by
  unfold Members at hms hms'
  dsimp only at hms'
  have ht := hp.types
  generalize d.elements = els at hms hms' ht
  induction hms generalizing ms' with
  | nil => cases hms'; exact .nil
  | cons h _ ih =>
    cases hms' with
    | cons h' t =>
      exact .cons (member_young hs h h' hp.nodes (ht _ List.mem_cons_self) hmat)
        (ih t fun el hel => ht el (List.mem_cons_of_mem _ hel))

theorem Physical.stiffened (hphys : Physical d) {mats' : Table K} {a b : K} (ha : 0 ≤ a)
    (hmat : Stiffened a b d.mats mats') : Physical { d with mats := mats' } := by
  intro el hel ty mi q params h1 h2 h3 h4
  dsimp only at h3 h4
  obtain ⟨hq', rfl⟩ := List.getElem?_eq_some_iff.1 h4
  have hq : q < d.mats.length := by rw [hmat.length_eq]; exact hq'
  obtain ⟨c, E, rest, hc1, hc2, e1, e2⟩ := hmat.get (i := q) hq hq'
  simp only [List.get_eq_getElem] at e1 e2
  rw [← hmat.length_eq] at h3
  obtain ⟨p1, p2⟩ := hphys el hel ty mi q _ h1 h2 h3 (List.getElem?_eq_getElem hq)
  rw [e1] at p1 p2
  rw [e2]
  have hc := ha.trans hc1
  constructor
  · intro ht
    obtain ⟨E', nu, rest', e, hE, r⟩ := p1 ht
    rw [List.cons.injEq] at e
    obtain ⟨rfl, rfl⟩ := e
    exact ⟨c * E, nu, rest', rfl, mul_nonneg hc hE, r⟩
  · intro ht
    obtain ⟨E', A, rest', e, hE⟩ := p2 ht
    rw [List.cons.injEq] at e
    obtain ⟨rfl, rfl⟩ := e
    exact ⟨c * E, A, rest', rfl, by rw [mul_assoc]; exact mul_nonneg hc hE⟩

theorem forms_stiffened (hs : SqrtFn sq) (hp : PlaneModel d) (hphys : Physical d) (hms : Members sq d ms)
    {mats' : Table K} {b : K} (hms' : Members sq { d with mats := mats' } ms')
    (hmat : Stiffened 1 b d.mats mats') (u : ℕ → ℕ → K) :
    (ms.map fun m => m.form 2 u u).sum ≤ (ms'.map fun m => m.form 2 u u).sum := by
  have hpsd := (C93_elements hs hp hms).2 hphys
  have two := forms_two hs hp hms hms' hmat
  clear hms hms'
  induction two with
  | nil => simp
  | @cons m m' _ _ hmm _ ih =>
    obtain ⟨c, hc, _, hcu⟩ := hmm
    simp only [List.map_cons, List.sum_cons]
    have h1 := ih fun m hm => hpsd m (List.mem_cons_of_mem _ hm)
    have h2 := hpsd m List.mem_cons_self u
    rw [hcu]
    nlinarith

/-- C99. A stable structure stays stable when Young's moduli increase. -/
theorem C99_stable_stiffer_materials (hs : SqrtFn sq) (hp : PlaneModel d) (hphys : Physical d)
    (hwf : WellFormed d) (hms : Members sq d ms) (hst : Stable d.cons 2 ms) {mats' : Table K} {b : K}
    (hmat : Stiffened 1 b d.mats mats') (hms' : Members sq { d with mats := mats' } ms') :
    Stable d.cons 2 ms' :=
  stable_of_forms_le hs hp hphys hwf hms hst (d' := { d with mats := mats' }) rfl ⟨hp.nodes, hp.types⟩
    (hphys.stiffened zero_le_one hmat) ⟨hwf.codes, hwf.width, hwf.size⟩ hms'
    (forms_stiffened hs hp hphys hms hms' hmat)

/-- C99. Increasing Young's moduli never increases the work of the loads. -/
theorem C99_stiffer_materials (hs : SqrtFn sq) (hp : PlaneModel d) (hphys : Physical d) (hwf : WellFormed d)
    (hsp : SolverOk sp) (hms : Members sq d ms) (hst : Stable d.cons 2 ms)
    (h : Gui.solidsAuto sq sp de d plot = .ok res) (hF : LoadField d F) {mats' : Table K} {b : K}
    (hmat : Stiffened 1 b d.mats mats')
    (h' : Gui.solidsAuto sq sp de { d with mats := mats' } plot' = .ok res') :
    work d.nodes.length F (fieldOf res'.disp) ≤ work d.nodes.length F (fieldOf res.disp) := by
  obtain ⟨hsym, hpsd0⟩ := C93_elements hs hp hms
  have hpsd := hpsd0 hphys
  clear hpsd0
  have he := (C18_nodal_equilibrium hwf hsp hms hst h).2
  have hwf' : WellFormed { d with mats := mats' } := ⟨hwf.codes, hwf.width, hwf.size⟩
  obtain ⟨ms', hms'⟩ := C18_members_exist hwf' h'
  have hst' := C99_stable_stiffer_materials hs hp hphys hwf hms hst hmat hms'
  have he' := (C18_nodal_equilibrium hwf' hsp hms' hst' h').2
  exact compliance_le hwf hwf' hms hms' rfl hsym hpsd hF hF he he' he'.1
    (forms_stiffened hs hp hphys hms hms' hmat _)

/-- C99. Multiplying all Young's moduli by `c` divides the displacements by `c`. -/
theorem C99_modulus_scaling (hs : SqrtFn sq) (hp : PlaneModel d) (hwf : WellFormed d)
    (hsp : SolverOk sp) (hms : Members sq d ms) (hst : Stable d.cons 2 ms)
    (h : Gui.solidsAuto sq sp de d plot = .ok res) {mats' : Table K} {c : K} (hc : c ≠ 0)
    (hmat : Stiffened c c d.mats mats')
    (h' : Gui.solidsAuto sq sp de { d with mats := mats' } plot' = .ok res') :
    ∀ p j, p < d.nodes.length → j < 2 → entry res'.disp p j = some (fieldOf res.disp p j / c) := by
  have he := (C18_nodal_equilibrium hwf hsp hms hst h).2
  have hwf' : WellFormed { d with mats := mats' } := ⟨hwf.codes, hwf.width, hwf.size⟩
  obtain ⟨ms', hms'⟩ := C18_members_exist hwf' h'
  have two := forms_two hs hp hms hms' hmat
  have hI : ∀ u p j, p < d.nodes.length → j < 2 → internal 2 ms' u p j = c * internal 2 ms u p j := by
    intro u p j hp hj
    have key : ∀ v, (ms'.map fun m => m.form 2 v u).sum = c * (ms.map fun m => m.form 2 v u).sum := by
      intro v
      clear he hst h h' hms hms'
      induction two with
      | nil => simp
      | @cons m m' _ _ hmm _ ih =>
        obtain ⟨c', h1, h2, hcu⟩ := hmm
        obtain rfl := le_antisymm h2 h1
        simp only [List.map_cons, List.sum_cons]
        rw [ih, hcu]
        ring
    rw [internal_eq_form (members_inn hms) u hp hj, internal_eq_form (members_inn hms') u hp hj, key]
  have hst' : Stable d.cons 2 ms' := by
    intro u hu h0
    refine hst u hu fun p j hf => ?_
    have := h0 p j hf
    have hpl := free_lt hf
    rw [hwf.size] at hpl
    rw [hI u p j hpl hf.1] at this
    exact (mul_eq_zero.1 this).resolve_left hc
  have e : ∀ x : K, x / c = c⁻¹ * x := fun x => by rw [div_eq_mul_inv, mul_comm]
  simp only [e]
  refine C19_only_equilibrium hwf' hsp hms' hst' h' (V := fun p j => c⁻¹ * fieldOf res.disp p j)
    ⟨fun p j hp hj hf => ?_, fun p j hf => ?_⟩
  · dsimp only
    rw [he.1 p j hp hj hf, mul_zero]
  · have hpl := free_lt hf
    rw [hwf.size] at hpl
    have := he.2 p j hf
    rw [hI _ p j hpl hf.1, internal_smul, mul_inv_cancel_left₀ hc]
    exact this

end

/-! ## A case: the truss of C93 -/

section demo

/-- Its loads. -/
noncomputable def trussF (p j : ℕ) : ℝ := if p = 2 then if j = 0 then 4 else -6 else 0

theorem trussR_names : Names trussR.nodes.length [2, (4 : ℝ), -6] 2 := (names_nat (by decide) rfl).2 rfl

theorem trussR_load : LoadField trussR trussF := by
  intro p j hp hj
  have hj' : j = 0 ∨ j = 1 := by omega
  by_cases h2 : p = 2
  · subst h2
    refine Or.inr ⟨[], [2, 4, -6], [], rfl, trussR_names, by simp, ?_⟩
    rcases hj' with rfl | rfl <;> simp [trussF]
  · refine Or.inl ⟨?_, by simp [trussF, h2]⟩
    intro L hL
    simp only [trussR, List.mem_singleton] at hL
    subst hL
    intro hn
    exact h2 ((names_nat (p := 2) (by simp [trussR]) (by simp)).1 hn)

theorem trussR_rows : ∀ L ∈ trussR.loads, 3 ≤ L.length ∧ ∃ p, Names trussR.nodes.length L p := by
  intro L hL
  simp only [trussR, List.mem_singleton] at hL
  subst hL
  exact ⟨by simp, 2, trussR_names⟩

/-- Case for C98: the truss stores less than it would with the loaded node pushed to `(1, 1)`. -/
example : ∃ ms res, Members Real.sqrt trussR ms ∧
    Gui.solidsAuto Real.sqrt cramerR cramerR trussR false = .ok res ∧
    potential 3 ms trussF (fieldOf res.disp) ≤
      potential 3 ms trussF (fun p _ => if p = 2 then 1 else 0) := by
  obtain ⟨ms, hms⟩ := truss_members sqrtFn_real trussR_bars
  have hst := trussR_stable hms
  obtain ⟨res, hres⟩ := C93_solids_auto_returns (de := cramerR) trussR_plane trussR_wf cramerR_ok hms hst
    ⟨2, 0, trussR_free 0 (by omega)⟩ trussR_rows
  refine ⟨ms, res, hms, hres, C98_least_potential sqrtFn_real trussR_plane trussR_physical trussR_wf cramerR_ok
    hms hst hres trussR_load ?_⟩
  intro p j hp hj hf
  dsimp only
  rw [if_neg]
  rintro rfl
  exact hf (trussR_free j hj)

/-- Case for C99: the truss with the vertical displacement of the loaded node blocked as well. -/
example : ∃ res res', Gui.solidsAuto Real.sqrt cramerR cramerR trussR false = .ok res ∧
    Gui.solidsAuto Real.sqrt cramerR cramerR { trussR with cons := [[-1, -1], [-1, -1], [0, -1]] } false =
      .ok res' ∧ work 3 trussF (fieldOf res'.disp) ≤ work 3 trussF (fieldOf res.disp) := by
  obtain ⟨ms, hms⟩ := truss_members sqrtFn_real trussR_bars
  have hst := trussR_stable hms
  obtain ⟨res, hres⟩ := C93_solids_auto_returns (de := cramerR) trussR_plane trussR_wf cramerR_ok hms hst
    ⟨2, 0, trussR_free 0 (by omega)⟩ trussR_rows
  have hwf' : WellFormed { trussR with cons := [[-1, -1], [-1, -1], [0, -1]] } := by
    refine ⟨?_, by simp, rfl⟩
    intro i j x hj hx
    obtain ⟨row, h1, h2⟩ := entry_some.1 hx
    have h1 := List.mem_of_getElem? h1
    have h2 := List.mem_of_getElem? h2
    simp only [List.mem_cons, List.not_mem_nil, or_false] at h1
    rcases h1 with rfl | rfl | rfl <;> simp at h2 <;> grind
  have hc : ∀ p j, Free ([[-1, -1], [-1, -1], [0, -1]] : Table ℝ) 2 p j → Free trussR.cons 2 p j := by
    rintro p j ⟨hj, x, hx, h1, h2⟩
    have hp : p = 2 := by
      by_contra hp
      obtain ⟨row, h3, h4⟩ := entry_some.1 hx
      have h5 := (List.getElem?_eq_some_iff.1 h3).1
      simp at h5
      have : p = 0 ∨ p = 1 := by omega
      rcases this with rfl | rfl <;> simp at h3 <;> subst h3 <;>
      · have h4 := List.mem_of_getElem? h4
        simp at h4
        linarith
    subst hp
    exact trussR_free j hj
  have hst' := C99_stable_more_supports sqrtFn_real trussR_plane trussR_physical trussR_wf hms hst hwf' hc
  obtain ⟨res', hres'⟩ := C93_solids_auto_returns (de := cramerR) (d := { trussR with cons := [[-1, -1], [-1, -1], [0, -1]] })
    ⟨trussR_plane.nodes, trussR_plane.types⟩ hwf' cramerR_ok hms hst'
    ⟨2, 0, by omega, 0, by simp [entry], by norm_num, by norm_num⟩ trussR_rows
  exact ⟨res, res', hres, hres', C99_more_supports sqrtFn_real trussR_plane trussR_physical trussR_wf cramerR_ok
    hms hst hres trussR_load hwf' hc hres'⟩

/-- Case for C99: the truss with the bar on the left doubled. -/
example : ∃ res res', Gui.solidsAuto Real.sqrt cramerR cramerR trussR false = .ok res ∧
    Gui.solidsAuto Real.sqrt cramerR cramerR { trussR with elements := trussR.elements ++ [[2, 6, 0, 0, 2]] } false =
      .ok res' ∧ work 3 trussF (fieldOf res'.disp) ≤ work 3 trussF (fieldOf res.disp) := by
  obtain ⟨ms, hms⟩ := truss_members sqrtFn_real trussR_bars
  have hst := trussR_stable hms
  obtain ⟨res, hres⟩ := C93_solids_auto_returns (de := cramerR) trussR_plane trussR_wf cramerR_ok hms hst
    ⟨2, 0, trussR_free 0 (by omega)⟩ trussR_rows
  have hb : List.Forall₂ (IsBar trussR.nodes trussR.mats) (trussR.elements ++ [[2, 6, 0, 0, 2]])
      (trussBars ++ [⟨![0, 2], !![0, 0; 4, 3], 125, 1, 5⟩]) := by
    refine List.rel_append trussR_bars (.cons ⟨2, 0, ![0, 2], [], rfl, rfl, ?_, ?_⟩ .nil)
    · intro a; fin_cases a <;> simp [trussR]
    · constructor <;> norm_num
  obtain ⟨ms', hms'⟩ := truss_members (d := { trussR with elements := trussR.elements ++ [[2, 6, 0, 0, 2]] })
    sqrtFn_real hb
  have hp' : PlaneModel { trussR with elements := trussR.elements ++ [[2, 6, 0, 0, 2]] } := by
    refine ⟨trussR_plane.nodes, ?_⟩
    intro el hel
    rcases List.mem_append.1 hel with hel | hel
    · exact trussR_plane.types el hel
    · rw [List.mem_singleton] at hel
      subst hel
      intro ty hty
      simp at hty
      simp [← hty]
  have hphys' : Physical { trussR with elements := trussR.elements ++ [[2, 6, 0, 0, 2]] } := by
    intro el hel
    rcases List.mem_append.1 hel with hel | hel
    · exact trussR_physical el hel
    · rw [List.mem_singleton] at hel
      subst hel
      exact fun ty mi q params h1 h2 => trussR_physical [0, 6, 0, 0, 2] (by simp [trussR]) ty mi q params h1 h2
  have hwf' : WellFormed { trussR with elements := trussR.elements ++ [[2, 6, 0, 0, 2]] } :=
    ⟨trussR_wf.codes, trussR_wf.width, trussR_wf.size⟩
  have hsub : trussR.elements.Sublist (trussR.elements ++ [[2, 6, 0, 0, 2]]) := List.sublist_append_left _ _
  have hst' := C99_stable_more_elements sqrtFn_real trussR_plane trussR_physical trussR_wf hms hst hsub hp' hphys' hms'
  obtain ⟨res', hres'⟩ := C93_solids_auto_returns (de := cramerR) hp' hwf' cramerR_ok hms' hst'
    ⟨2, 0, trussR_free 0 (by omega)⟩ trussR_rows
  exact ⟨res, res', hres, hres', C99_more_elements sqrtFn_real trussR_plane trussR_physical trussR_wf cramerR_ok
    hms hst hres trussR_load hsub hp' hphys' hres'⟩

/-- Case for C99: three times the moduli. -/
example : ∃ res res', Gui.solidsAuto Real.sqrt cramerR cramerR trussR false = .ok res ∧
    Gui.solidsAuto Real.sqrt cramerR cramerR { trussR with mats := [[375, 1], [27, 1]] } false = .ok res' ∧
    work 3 trussF (fieldOf res'.disp) ≤ work 3 trussF (fieldOf res.disp) ∧
    entry res'.disp 2 1 = some (fieldOf res.disp 2 1 / 3) := by
  obtain ⟨ms, hms⟩ := truss_members sqrtFn_real trussR_bars
  have hst := trussR_stable hms
  obtain ⟨res, hres⟩ := C93_solids_auto_returns (de := cramerR) trussR_plane trussR_wf cramerR_ok hms hst
    ⟨2, 0, trussR_free 0 (by omega)⟩ trussR_rows
  have hb : List.Forall₂ (IsBar trussR.nodes [[375, 1], [27, 1]]) trussR.elements
      [⟨![0, 2], !![0, 0; 4, 3], 375, 1, 5⟩, ⟨![1, 2], !![4, 0; 4, 3], 27, 1, 3⟩] := by
    refine .cons ⟨0, 0, ![0, 2], [], rfl, rfl, ?_, ?_⟩ (.cons ⟨1, 1, ![1, 2], [], rfl, rfl, ?_, ?_⟩ .nil)
    · intro a; fin_cases a <;> simp [trussR]
    · constructor <;> norm_num
    · intro a; fin_cases a <;> simp [trussR]
    · constructor <;> norm_num
  obtain ⟨ms', hms'⟩ := truss_members (d := { trussR with mats := [[375, 1], [27, 1]] }) sqrtFn_real hb
  have hmat : ∀ a b, a ≤ 3 → 3 ≤ b → Stiffened a b trussR.mats [[375, 1], [27, 1]] := fun a b ha hb =>
    .cons ⟨3, 125, [1], ha, hb, rfl, by norm_num⟩ (.cons ⟨3, 9, [1], ha, hb, rfl, by norm_num⟩ .nil)
  have h1 := hmat 1 3 (by norm_num) le_rfl
  have hst' := C99_stable_stiffer_materials sqrtFn_real trussR_plane trussR_physical trussR_wf hms hst h1 hms'
  obtain ⟨res', hres'⟩ := C93_solids_auto_returns (de := cramerR) (d := { trussR with mats := [[375, 1], [27, 1]] })
    ⟨trussR_plane.nodes, trussR_plane.types⟩ ⟨trussR_wf.codes, trussR_wf.width, trussR_wf.size⟩ cramerR_ok hms' hst'
    ⟨2, 0, trussR_free 0 (by omega)⟩ trussR_rows
  exact ⟨res, res', hres, hres', C99_stiffer_materials sqrtFn_real trussR_plane trussR_physical trussR_wf cramerR_ok
    hms hst hres trussR_load h1 hres', C99_modulus_scaling sqrtFn_real trussR_plane trussR_wf cramerR_ok hms hst
    hres (by norm_num) (hmat 3 3 le_rfl le_rfl) hres' 2 1 (by simp [trussR]) (by omega)⟩

end demo

end SolidsPy
