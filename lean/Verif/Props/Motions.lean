import Verif.Props.GridModel
import Verif.Proofs.Twin
import Mathlib.LinearAlgebra.Basis.VectorSpace
import Mathlib.LinearAlgebra.Matrix.Dual
import Mathlib.LinearAlgebra.Matrix.DotProduct

/-! # C108: models that can move -/

set_option linter.unusedSectionVars false

namespace SolidsPy
open Spec Assem Matrix

/-- A symmetric system is solvable exactly when the right hand side does no work on the null vectors. -/
theorem solvable_iff {K : Type} [Field K] {n : ℕ} {M : Matrix (Fin n) (Fin n) K} (hM : M.transpose = M) (b : Fin n → K) :
    (∃ x, M.mulVec x = b) ↔ ∀ v, M.mulVec v = 0 → v ⬝ᵥ b = 0 := by
  constructor
  · rintro ⟨x, rfl⟩ v hv
    rw [Matrix.dotProduct_mulVec, ← Matrix.mulVec_transpose, hM, hv, zero_dotProduct]
  · intro h
    by_contra hc
    have hb : b ∉ LinearMap.range M.mulVecLin := by
      rintro ⟨x, hx⟩
      exact hc ⟨x, hx⟩
    obtain ⟨φ, h1, h2⟩ := Submodule.exists_le_ker_of_notMem hb
    let v := (dotProductEquiv K (Fin n)).symm φ
    have hv : ∀ x, v ⬝ᵥ x = φ x := by
      intro x
      have := congrArg (fun ψ => ψ x) ((dotProductEquiv K (Fin n)).apply_symm_apply φ)
      exact this
    refine h1 ?_
    rw [← hv]
    refine h v ?_
    apply dotProduct_eq
    intro w
    rw [zero_dotProduct, ← hM, Matrix.mulVec_transpose, ← Matrix.dotProduct_mulVec, hv]
    exact h2 ⟨w, rfl⟩

section
variable {K : Type} [Field K] [LinearOrder K] [IsStrictOrderedRing K] [FloorRing K]

/-- Work of reduced vectors is work of nodal fields. -/
theorem reduced_work {cons : Table K} {nd neq : ℕ} {bc : List (List ℤ)}
    (h : eqcounter cons nd = .ok (neq, bc)) (hval : ValidCons cons nd) {v b : Fin neq → K} {V f : ℕ → ℕ → K}
    (hv : Completes cons bc nd neq v V)
    (hb : ∀ p j (i : Fin neq), Free cons nd p j → DofEq bc neq p j i → b i = f p j) :
    ∑ i, v i * b i = ∑ p ∈ Finset.range cons.length, ∑ j ∈ Finset.range nd, V p j * f p j := by
  classical
  rw [← Finset.sum_product']
  have h1 : ∀ i : Fin neq, v i * b i =
      ∑ x ∈ Finset.range cons.length ×ˢ Finset.range nd,
        if DofEq bc neq x.1 x.2 i then V x.1 x.2 * f x.1 x.2 else 0 := by
    intro i
    obtain ⟨p, j, hf, hr⟩ := exists_free h i.2
    have he : entry bc p j = some (i : ℤ) := by rw [(free_entry h hf).1, hr]
    have hi : DofEq bc neq p j i := ⟨i, he, by omega, i.2, Or.inl rfl⟩
    rw [Finset.sum_eq_single (p, j)]
    · rw [if_pos hi, (hv p (free_lt hf) j hf.1).1 i hi, hb p j i hf hi]
    · rintro ⟨p', j'⟩ hm hne
      rw [Finset.mem_product, Finset.mem_range, Finset.mem_range] at hm
      rw [if_neg]
      intro hd
      have := (owns_of_eqcounter h hval hf he i.2).2.2 p' j' hm.2 hd
      exact hne (Prod.ext this.1 this.2)
    · intro hm
      exact absurd (Finset.mem_product.2 ⟨Finset.mem_range.2 (free_lt hf), Finset.mem_range.2 hf.1⟩) hm
  rw [Finset.sum_congr rfl fun i _ => h1 i, Finset.sum_comm]
  refine Finset.sum_congr rfl fun x hx => ?_
  rw [Finset.mem_product, Finset.mem_range, Finset.mem_range] at hx
  by_cases hex : ∃ i : Fin neq, DofEq bc neq x.1 x.2 i
  · obtain ⟨i, hi⟩ := hex
    rw [Finset.sum_eq_single i]
    · rw [if_pos hi]
    · intro i' _ hne
      rw [if_neg]
      intro hd
      exact hne (Fin.ext (dofEq_unique hd hi))
    · intro hm; exact absurd (Finset.mem_univ i) hm
  · push Not at hex
    rw [(hv x.1 hx.1 x.2 hx.2).2 hex, zero_mul]
    exact Finset.sum_eq_zero fun i _ => by rw [if_neg (hex i)]

variable {sq : K → K} {sp de : Sol.Solver K} {d : Gui.Data K} {plot : Bool} {res : Gui.Result K}
  {ms : List (Member K)} {F : ℕ → ℕ → K}

/-- A degree of freedom that exists and is held. -/
def Held (cons : Table K) (p j : ℕ) : Prop := p < cons.length ∧ ¬ Free cons 2 p j

/-- C108.  Which supports hold a plane body of at least two points: there is a support in each direction, and two parallel ones whose
lines of action differ. -/
theorem C108_supported_iff {cons nodes : Table K} {a b : ℕ} (ha : a < cons.length) (hb : b < cons.length)
    (hab : Apart nodes a b) :
    Supported cons nodes ↔ (∃ p, Held cons p 0) ∧ (∃ q, Held cons q 1) ∧
      ∃ p q, ∃ j < 2, Held cons p j ∧ Held cons q j ∧ coordOf nodes p (1 - j) ≠ coordOf nodes q (1 - j) := by
  constructor
  · intro H
    refine ⟨?_, ?_, ?_⟩
    · by_contra hc
      have := H ⟨1, 0, 0⟩ (by
        intro p j hp hj hf
        obtain rfl | rfl : j = 0 ∨ j = 1 := by omega
        · exact absurd ⟨p, hp, hf⟩ hc
        · simp [Motion.move]) a 0 ha (by omega)
      simp [Motion.move] at this
    · by_contra hc
      have := H ⟨0, 1, 0⟩ (by
        intro p j hp hj hf
        obtain rfl | rfl : j = 0 ∨ j = 1 := by omega
        · simp [Motion.move]
        · exact absurd ⟨p, hp, hf⟩ hc) a 1 ha (by omega)
      simp [Motion.move] at this
    · by_contra hc
      -- all lines of action pass through one point
      have key : ∀ j < 2, ∃ c, ∀ p, Held cons p j → coordOf nodes p (1 - j) = c := by
        intro j hj
        by_cases hex : ∃ q, Held cons q j
        · obtain ⟨q, hq⟩ := hex
          refine ⟨coordOf nodes q (1 - j), fun p hp => ?_⟩
          by_contra hne
          exact hc ⟨p, q, j, hj, hp, hq, hne⟩
        · exact ⟨0, fun p hp => absurd ⟨p, hp⟩ hex⟩
      obtain ⟨Y, hY⟩ := key 0 (by omega)
      obtain ⟨X, hX⟩ := key 1 (by omega)
      have adm : Admissible cons 2 ((⟨Y, -X, 1⟩ : Motion K).move nodes) := by
        intro p j hp hj hf
        obtain rfl | rfl : j = 0 ∨ j = 1 := by omega
        · have := hY p ⟨hp, hf⟩
          simp only [Nat.sub_zero] at this
          simp [Motion.move, this]
        · have := hX p ⟨hp, hf⟩
          simp only [Nat.sub_self] at this
          simp [Motion.move, this]
      have h0 := fun p hp => H _ adm p 0 hp (by omega)
      have h1 := fun p hp => H _ adm p 1 hp (by omega)
      simp only [Motion.move, if_true, one_mul] at h0
      simp only [Motion.move, one_ne_zero, if_false, one_mul] at h1
      rcases hab with hne | hne
      · exact hne (by linear_combination h1 a ha - h1 b hb)
      · exact hne (by linear_combination h0 b hb - h0 a ha)
  · rintro ⟨⟨p, hp⟩, ⟨q, hq⟩, r, s, j, hj, hr, hs, hne⟩ g hg e i he hi
    have a0 := hg p 0 hp.1 (by omega) hp.2
    have a1 := hg q 1 hq.1 (by omega) hq.2
    have b0 := hg r j hr.1 hj hr.2
    have b1 := hg s j hs.1 hj hs.2
    have hw : g.spin = 0 := by
      have hne := sub_ne_zero.2 hne
      obtain rfl | rfl : j = 0 ∨ j = 1 := by omega
      · simp only [Motion.move, if_true] at b0 b1
        refine (mul_eq_zero.1 (?_ : g.spin * _ = 0)).resolve_right hne
        simp only [Nat.sub_zero]
        linear_combination b1 - b0
      · simp only [Motion.move, one_ne_zero, if_false] at b0 b1
        refine (mul_eq_zero.1 (?_ : g.spin * _ = 0)).resolve_right hne
        simp only [Nat.sub_self]
        linear_combination b0 - b1
    simp only [Motion.move, hw, if_true, one_ne_zero, if_false, zero_mul, sub_zero, add_zero] at a0 a1 ⊢
    rw [a0, a1]
    split <;> rfl

/-- C108.  Two supported degrees of freedom never hold a body. -/
theorem C108_two_supports {cons nodes : Table K} {a b : ℕ} (ha : a < cons.length) (hb : b < cons.length)
    (hab : Apart nodes a b) {p q i j : ℕ} (h : ∀ r k, k < 2 → Held cons r k → (r, k) = (p, i) ∨ (r, k) = (q, j)) :
    ¬ Supported cons nodes := by
  rw [C108_supported_iff ha hb hab]
  rintro ⟨⟨r, hr⟩, ⟨s, hs⟩, t, u, k, hk, ht, hu, hne⟩
  have h1 := h r 0 (by omega) hr
  have h2 := h s 1 (by omega) hs
  have h3 := h t k hk ht
  have h4 := h u k hk hu
  have : t ≠ u := by
    rintro rfl
    exact hne rfl
  simp only [Prod.mk.injEq] at h1 h2 h3 h4
  omega

/-- C108.  The matrix of a plane model that its supports do not hold is singular, whatever the elements. -/
theorem C108_singular (hs : SqrtFn sq) (hp : PlaneModel d) (hwf : WellFormed d) (hms : Members sq d ms)
    (hun : ¬ Supported d.cons d.nodes) :
    ¬ Stable d.cons 2 ms ∧
    ∀ {op bc : List (List ℤ)} {neq : ℕ} {Kg Mg : Matrix (Fin neq) (Fin neq) K}, dme d.cons d.elements = .ok (op, bc, neq) →
      assembler (Uel.eleFun sq) d.elements d.mats d.nodes neq op = .ok (Kg, Mg) → Kg.det = 0 := by
  have hst : ¬ Stable d.cons 2 ms := by
    intro hst
    refine hun fun g hg => hst _ hg fun p j hf => ?_
    have hpl := free_lt hf
    rw [hwf.size] at hpl
    obtain ⟨c, G, hG, hv⟩ := motion_skew g d.nodes
    rw [internal_eq_form (members_inn hms) _ hpl hf.1]
    apply List.sum_eq_zero
    intro x hx
    obtain ⟨m, hm, rfl⟩ := List.mem_map.1 hx
    obtain ⟨i, hi, rfl⟩ := List.mem_iff_getElem.1 hm
    have hi' : i < d.elements.length := by rw [hms.length_eq]; exact hi
    have hmem := hms.get (i := i) hi' hi
    simp only [List.get_eq_getElem] at hmem
    obtain ⟨ty, mi, q, params, n, f, X, k, mm, -, -, -, -, -, hf, hr, hpl⟩ :=
      member_placed hmem hp.nodes (hp.types _ (List.getElem_mem hi'))
    rw [hpl.form, hpl.rigid_pick c G _ hv, hf.rigid hs hr c hG, dotProduct_zero]
  refine ⟨hst, fun h1 h2 => ?_⟩
  by_contra hne
  exact hst ((C18_stable_iff_nonsingular hwf hms h1 h2).2 hne)

/-- C108.  Loads that can be in equilibrium do no work on the rigid motions left free by the supports. -/
theorem C108_balance_needed (hs : SqrtFn sq) (hp : PlaneModel d) (hwf : WellFormed d) (hms : Members sq d ms)
    (hF : LoadField d F) {U : ℕ → ℕ → K} (hU : Equilibrium d.cons 2 d.loads ms U) {g : Motion K}
    (hg : Admissible d.cons 2 (g.move d.nodes)) :
    ∑ p ∈ Finset.range d.nodes.length, ∑ j ∈ Finset.range 2, g.move d.nodes p j * F p j = 0 := by
  obtain ⟨c, G, hG, hv⟩ := motion_skew g d.nodes
  rw [load_work hwf hms hF hU hg, ← virtual_work (members_inn hms)]
  exact rigid_work hs hp hms U _ c hG hv

/-- Loads that do no work on the rigid motions left free by the supports give a solvable system. -/
theorem balanced_solvable (hs : SqrtFn sq) (h : SolidMesh sq d ms) (hwf : WellFormed d) (hF : LoadField d F)
    (hl : ∀ L ∈ d.loads, 3 ≤ L.length ∧ ∃ p, Names d.nodes.length L p)
    (H : ∀ g : Motion K, Admissible d.cons 2 (g.move d.nodes) →
      ∑ p ∈ Finset.range d.nodes.length, ∑ j ∈ Finset.range 2, g.move d.nodes p j * F p j = 0) :
    ∃ op bc neq Kg Mg rhs, dme d.cons d.elements = .ok (op, bc, neq) ∧
      assembler (Uel.eleFun sq) d.elements d.mats d.nodes neq op = .ok (Kg, Mg) ∧
      Setup (Routine sq) d.cons d.elements d.mats d.nodes 2 neq bc Kg ms ∧
      loadasem d.loads bc neq = .ok rhs ∧ ∃ x, Kg.mulVec x = rhs := by
  have hms := h.members
  obtain ⟨op, bc, neq, Kg, Mg, h1, h2⟩ := plane_assembly h.plane hwf hms
  have heq := (dme_ok.1 h1).1
  obtain ⟨rhs, h3⟩ := C13_load_success (loads := d.loads) heq hwf.codes (by rw [hwf.size]; exact hl)
  obtain ⟨ms', s⟩ := auto_setup h1 h2 hwf.codes hwf.width hwf.size
  obtain rfl := members_unique hms s.mem
  obtain ⟨hsym, hpsd⟩ := C93_elements hs h.plane hms
  have hpsd := hpsd h.physical
  have hKs : Kg.transpose = Kg := by
    apply Matrix.ext_of_mulVec_single
    intro i
    apply dotProduct_eq
    intro w
    obtain ⟨V, hV⟩ := exists_completes (cons := d.cons) bc 2 (Pi.single i (1 : K))
    obtain ⟨W, hW⟩ := exists_completes (cons := d.cons) bc 2 w
    have e1 := reduced_form s hV hW
    have e2 := reduced_form s hW hV
    have e3 : (ms.map fun m => m.form 2 V W).sum = (ms.map fun m => m.form 2 W V).sum := by
      congr 1
      exact List.map_congr_left fun m hm => hsym m hm V W
    rw [Matrix.mulVec_transpose, ← Matrix.dotProduct_mulVec, dotProduct_comm _ w]
    exact (e1.trans e3).trans e2.symm
  have hsolve : ∃ x, Kg.mulVec x = rhs := by
    refine (solvable_iff hKs rhs).2 fun v hv => ?_
    obtain ⟨V, hV⟩ := exists_completes (cons := d.cons) bc 2 v
    have hwork : ∑ i, v i * rhs i = ∑ p ∈ Finset.range d.cons.length, ∑ j ∈ Finset.range 2, V p j * F p j :=
      reduced_work heq hwf.codes hV fun p j i hf hi => by
        have hload := rhs_isLoad heq hwf.codes h3 hf hi
        have hpl := free_lt hf
        rw [hwf.size] at hload hpl
        exact isLoad_unique hload (hF p j hpl hf.1)
    refine Eq.trans hwork ?_
    rw [hwf.size]
    have h0 : (ms.map fun m => m.form 2 V V).sum = 0 := by
      rw [← reduced_form s hV hV, hv]
      simp
    have hz : ∀ m ∈ ms, m.form 2 V V = 0 := by
      intro m hm
      refine List.all_zero_of_le_zero_le_of_sum_eq_zero (l := ms.map fun m => m.form 2 V V) (fun y hy => ?_) h0
        (List.mem_map.2 ⟨m, hm, rfl⟩)
      obtain ⟨m, hm, rfl⟩ := List.mem_map.1 hy
      exact hpsd m hm V
    by_cases hne : ms = []
    · have : d.nodes.length = 0 := by
        by_contra hc
        obtain ⟨m, hm, -⟩ := h.used 0 (by omega)
        rw [hne] at hm
        simp at hm
      rw [this]
      rfl
    · obtain ⟨g, hg⟩ := (C95_zero_energy hs h hne V).1 hz
      have hadm := completes_admissible heq hwf.codes hV
      rw [← H g fun p j hp hj hf => by
        rw [← hg p (by rw [← hwf.size]; exact hp) j hj]
        exact hadm p j hp hj hf]
      refine Finset.sum_congr rfl fun p hp => Finset.sum_congr rfl fun j hj => ?_
      rw [Finset.mem_range] at hp hj
      rw [hg p hp j hj]
  exact ⟨op, bc, neq, Kg, Mg, rhs, h1, h2, s, h3, hsolve⟩

/-- C108.  On a connected mesh this is also enough: an equilibrium exists exactly when the loads do no work on the rigid motions left
free by the supports. -/
theorem C108_equilibrium_iff (hs : SqrtFn sq) (h : SolidMesh sq d ms) (hwf : WellFormed d) (hF : LoadField d F)
    (hl : ∀ L ∈ d.loads, 3 ≤ L.length ∧ ∃ p, Names d.nodes.length L p) :
    (∃ U, Equilibrium d.cons 2 d.loads ms U) ↔ ∀ g : Motion K, Admissible d.cons 2 (g.move d.nodes) →
      ∑ p ∈ Finset.range d.nodes.length, ∑ j ∈ Finset.range 2, g.move d.nodes p j * F p j = 0 := by
  have hms := h.members
  constructor
  · rintro ⟨U, hU⟩ g hg
    exact C108_balance_needed hs h.plane hwf hms hF hU hg
  · intro H
    obtain ⟨op, bc, neq, Kg, Mg, rhs, -, -, s, h3, x, hx⟩ := balanced_solvable hs h hwf hF hl H
    obtain ⟨U, hU⟩ := exists_completes (cons := d.cons) bc 2 x
    exact ⟨U, (equilibrium_iff s h3 hU).2 hx⟩

/-- The solver solves every solvable system, singular or not. -/
def SolverAny (sp : Sol.Solver K) : Prop :=
  ∀ n (M : Matrix (Fin n) (Fin n) K) (b : Fin n → K), (∃ x, M.mulVec x = b) → ∃ x, sp n M b = .ok x ∧ M.mulVec x = b

/-- C108.  With a solver for all solvable systems, `solids_auto` finds such an equilibrium, and is silent unless the supports leave only
rigid motions. -/
theorem C108_balanced_run (hs : SqrtFn sq) (h : SolidMesh sq d ms) (hwf : WellFormed d) (hF : LoadField d F)
    (hsp : SolverAny sp) (hfree : ∃ p j, Free d.cons 2 p j)
    (hl : ∀ L ∈ d.loads, 3 ≤ L.length ∧ ∃ p, Names d.nodes.length L p)
    (H : ∀ g : Motion K, Admissible d.cons 2 (g.move d.nodes) →
      ∑ p ∈ Finset.range d.nodes.length, ∑ j ∈ Finset.range 2, g.move d.nodes p j * F p j = 0) :
    ∃ res, Gui.solidsAuto sq sp de d false = .ok res ∧ Equilibrium d.cons 2 d.loads ms (fieldOf res.disp) ∧
      ((∃ u, Admissible d.cons 2 u ∧ ∃ m ∈ ms, m.form 2 u u ≠ 0) → res.warned = false) := by
  have hms := h.members
  obtain ⟨op, bc, neq, Kg, Mg, rhs, h1, h2, s, h3, hx⟩ := balanced_solvable hs h hwf hF hl H
  obtain ⟨x, h4, hsol⟩ := hsp neq Kg rhs hx
  have heq := s.eq
  obtain ⟨full, h6, _⟩ := C15_constrained_zero heq hwf.codes x
  rw [hwf.size] at h6
  have hneq : 0 < neq := by
    obtain ⟨p, j, hf⟩ := hfree
    exact Nat.zero_lt_of_lt (free_entry heq hf).2
  obtain ⟨mx, hmx⟩ : ∃ mx, Gui.matMax Kg = .ok mx := by
    unfold Gui.matMax
    obtain ⟨n, rfl⟩ : ∃ n, neq = n + 1 := ⟨neq - 1, by omega⟩
    rw [List.finRange_succ]
    simp only [List.flatMap_cons, List.map_cons, List.cons_append, Post.listMax]
    exact ⟨_, rfl⟩
  obtain ⟨ok, h5⟩ : ∃ ok, Gui.balanced Kg x rhs = .ok ok := by
    unfold Gui.balanced
    rw [hmx, ok_bind]
    split <;> exact ⟨_, rfl⟩
  refine ⟨_, auto_ok.2 ⟨op, bc, neq, Kg, Mg, rhs, x, ok, full, [], h1, h2, h3, h4, h5, h6, rfl, rfl⟩, ?_, ?_⟩
  · rw [← hwf.size] at h6
    exact (equilibrium_iff s h3 (completes_of_completeDisp h6)).2 hsol
  · rintro ⟨u, hu, m, hm, hne⟩
    have hpsd := (C93_elements hs h.plane hms).2 h.physical
    have hle : ∀ i j, Kg i j ≤ mx := fun i j => listMax_le hmx _
      (List.mem_flatMap.2 ⟨i, List.mem_finRange i, List.mem_map.2 ⟨j, List.mem_finRange j, rfl⟩⟩)
    have hne0 : mx ≠ 0 := by
      rintro rfl
      have hK : Kg = 0 := psd_nonpos (fun v => by
        obtain ⟨V, hV⟩ := exists_completes (cons := d.cons) bc 2 v
        rw [reduced_form s hV hV]
        apply List.sum_nonneg
        intro y hy
        obtain ⟨m, hm, rfl⟩ := List.mem_map.1 hy
        exact hpsd m hm V) hle
      obtain ⟨v, hv⟩ := exists_reduced heq hwf.codes hu
      have h0 := reduced_form s hv hv
      rw [hK] at h0
      simp only [Matrix.zero_mulVec, Pi.zero_apply, mul_zero, Finset.sum_const_zero] at h0
      refine hne (List.all_zero_of_le_zero_le_of_sum_eq_zero (fun y hy => ?_) h0.symm (List.mem_map.2 ⟨m, hm, rfl⟩))
      obtain ⟨m, hm, rfl⟩ := List.mem_map.1 hy
      exact hpsd m hm _
    unfold Gui.balanced at h5
    rw [hmx, ok_bind, if_neg hne0, pure_ok] at h5
    dsimp only
    rw [← h5, hsol]
    simp only [Gui.allclose, Bool.not_eq_false', List.all_eq_true]
    intro i _
    unfold Fem.isclose
    simp only [sub_self, abs_zero, decide_eq_true_eq]
    have := abs_nonneg (rhs i / mx)
    norm_num
    positivity

/-- C108.  Two equilibria of a connected mesh under the same loads differ by a rigid motion left free by the supports. -/
theorem C108_up_to_motion (hs : SqrtFn sq) (h : SolidMesh sq d ms) (hwf : WellFormed d) {U V : ℕ → ℕ → K}
    (hU : Equilibrium d.cons 2 d.loads ms U) (hV : Equilibrium d.cons 2 d.loads ms V) :
    ∃ g : Motion K, Admissible d.cons 2 (g.move d.nodes) ∧
      ∀ p < d.nodes.length, ∀ j < 2, U p j = V p j + g.move d.nodes p j := by
  have hms := h.members
  have hint : ∀ p j, Free d.cons 2 p j → internal 2 ms (fun p j => 1 * U p j + (-1) * V p j) p j = 0 := by
    intro p j hf
    rw [internal_linear, isLoad_unique (hU.2 p j hf) (hV.2 p j hf)]
    ring
  have hadm : Admissible d.cons 2 (fun p j => 1 * U p j + (-1) * V p j) := by
    intro p j hp hj hf
    dsimp only
    rw [hU.1 p j hp hj hf, hV.1 p j hp hj hf]
    ring
  by_cases hne : ms = []
  · have hn : d.nodes.length = 0 := by
      by_contra hc
      obtain ⟨m, hm, -⟩ := h.used 0 (by omega)
      rw [hne] at hm
      simp at hm
    refine ⟨⟨0, 0, 0⟩, fun p j hp => ?_, fun p hp => ?_⟩
    · rw [hwf.size] at hp
      omega
    · omega
  · have h0 : (ms.map fun m => m.form 2 (fun p j => 1 * U p j + (-1) * V p j) (fun p j => 1 * U p j + (-1) * V p j)).sum = 0 := by
      rw [← virtual_work (members_inn hms)]
      refine Finset.sum_eq_zero fun p hp => Finset.sum_eq_zero fun j hj => ?_
      rw [Finset.mem_range] at hp hj
      by_cases hf : Free d.cons 2 p j
      · rw [hint p j hf, mul_zero]
      · have := hadm p j (by rw [hwf.size]; exact hp) hj hf
        dsimp only at this ⊢
        rw [this, zero_mul]
    have hpsd := (C93_elements hs h.plane hms).2 h.physical
    obtain ⟨g, hg⟩ := (C95_zero_energy hs h hne (fun p j => 1 * U p j + (-1) * V p j)).1 fun m hm => by
      refine List.all_zero_of_le_zero_le_of_sum_eq_zero (fun y hy => ?_) h0 (List.mem_map.2 ⟨m, hm, rfl⟩)
      obtain ⟨m, hm, rfl⟩ := List.mem_map.1 hy
      exact hpsd m hm _
    refine ⟨g, fun p j hp hj hf => ?_, fun p hp j hj => ?_⟩
    · rw [← hg p (by rw [← hwf.size]; exact hp) j hj]
      exact hadm p j hp hj hf
    · linear_combination hg p hp j hj

/-- C108.  A run on a model that can move is silent only if the loads do next to no work on the motions left free, whatever the solver
returned for the singular system. -/
theorem C108_silent (hs : SqrtFn sq) (hp : PlaneModel d) (hwf : WellFormed d) (hms : Members sq d ms) (hF : LoadField d F)
    (h : Gui.solidsAuto sq sp de d plot = .ok res) (hquiet : res.warned = false)
    {op bc : List (List ℤ)} {neq : ℕ} {Kg Mg : Matrix (Fin neq) (Fin neq) K}
    (hd : dme d.cons d.elements = .ok (op, bc, neq))
    (ha : assembler (Uel.eleFun sq) d.elements d.mats d.nodes neq op = .ok (Kg, Mg)) {g : Motion K}
    (hg : Admissible d.cons 2 (g.move d.nodes)) :
    ∃ mx : K, (∃ i j, Kg i j = mx) ∧
      |∑ p ∈ Finset.range d.nodes.length, ∑ j ∈ Finset.range 2, g.move d.nodes p j * F p j| ≤
        ∑ p ∈ Finset.range d.nodes.length, ∑ j ∈ Finset.range 2,
          |g.move d.nodes p j| * (1e-8 * |mx| + 1e-5 * |F p j|) := by
  obtain ⟨mx, h1, -, h3⟩ := C25_silence_means_small_residual hwf hms h hquiet hd ha
  refine ⟨mx, h1, ?_⟩
  obtain ⟨c, G, hG, hv⟩ := motion_skew g d.nodes
  have hr := rigid_work hs hp hms (fieldOf res.disp) _ c hG hv
  have e1 : ∑ p ∈ Finset.range d.nodes.length, ∑ j ∈ Finset.range 2, g.move d.nodes p j * F p j =
      -∑ p ∈ Finset.range d.nodes.length, ∑ j ∈ Finset.range 2,
        g.move d.nodes p j * (internal 2 ms (fieldOf res.disp) p j - F p j) := by
    simp only [mul_sub, Finset.sum_sub_distrib]
    rw [hr]
    ring
  rw [e1, abs_neg]
  refine (Finset.abs_sum_le_sum_abs _ _).trans (Finset.sum_le_sum fun p hp => ?_)
  refine (Finset.abs_sum_le_sum_abs _ _).trans (Finset.sum_le_sum fun j hj => ?_)
  rw [Finset.mem_range] at hp hj
  rw [abs_mul]
  by_cases hf : Free d.cons 2 p j
  · refine mul_le_mul_of_nonneg_left ?_ (abs_nonneg _)
    exact h3 p j _ hf (by rw [hwf.size]; exact hF p j hp hj)
  · rw [hg p j (by rw [hwf.size]; exact hp) hj hf]
    simp

end

/-! ## Cases -/

section demo

/-- Supports at the corners of the unit square: a pin at the first node, a roller at the second. -/
def squareNodes : Table ℚ := [[0, 0, 0], [1, 1, 0], [2, 1, 1], [3, 0, 1]]

/-- A vertical roller beside the pin holds the square. -/
example : Supported [[-1, -1], [0, -1], [0, 0], [0, 0]] squareNodes := by
  refine (C108_supported_iff (a := 0) (b := 1) (by simp) (by simp) (by left; decide +kernel)).2
    ⟨⟨0, by simp, ?_⟩, ⟨0, by simp, ?_⟩, 0, 1, 1, by omega, ⟨by simp, ?_⟩, ⟨by simp, ?_⟩, by decide +kernel⟩ <;>
  · rintro ⟨-, x, hx, h1, -⟩
    obtain rfl : -1 = x := by simpa [entry] using hx
    simp at h1

/-- A horizontal one does not: its line passes through the pin. -/
example : ¬ Supported [[-1, -1], [-1, 0], [0, 0], [0, 0]] squareNodes := by
  rw [C108_supported_iff (a := 0) (b := 1) (by simp) (by simp) (by left; decide +kernel)]
  rintro ⟨-, -, p, q, j, hj, ⟨hp, hpf⟩, ⟨hq, hqf⟩, hne⟩
  have free : ∀ p j, p < 4 → j < 2 → ¬ (p = 0 ∨ (p = 1 ∧ j = 0)) →
      Free ([[-1, -1], [-1, 0], [0, 0], [0, 0]] : Table ℚ) 2 p j := by
    intro p j hp hj h
    refine ⟨hj, 0, ?_, by norm_num, by norm_num⟩
    have : ((p = 1 ∧ j = 1) ∨ p = 2 ∨ p = 3) := by omega
    obtain rfl | rfl : j = 0 ∨ j = 1 := by omega
    · rcases this with ⟨-, h⟩ | rfl | rfl
      · omega
      · rfl
      · rfl
    · rcases this with ⟨rfl, -⟩ | rfl | rfl <;> rfl
  have a : p = 0 ∨ (p = 1 ∧ j = 0) := by
    by_contra hc
    exact hpf (free p j hp hj hc)
  have b : q = 0 ∨ (q = 1 ∧ j = 0) := by
    by_contra hc
    exact hqf (free q j hq hj hc)
  apply hne
  rcases a with rfl | ⟨rfl, rfl⟩ <;> rcases b with rfl | ⟨rfl, hj0⟩
  · rfl
  · subst hj0
    decide +kernel
  · decide +kernel
  · rfl

/-- Nor does the pin alone. -/
example : ¬ Supported [[-1, -1], [0, 0], [0, 0], [0, 0]] squareNodes := by
  refine C108_two_supports (a := 0) (b := 1) (p := 0) (i := 0) (q := 0) (j := 1) (by simp) (by simp) (by left; decide +kernel) ?_
  rintro r k hk ⟨hr, hf⟩
  have hr : r < 4 := hr
  have : r = 0 ∨ r = 1 ∨ r = 2 ∨ r = 3 := by omega
  rcases (by omega : k = 0 ∨ k = 1) with rfl | rfl <;> rcases this with rfl | rfl | rfl | rfl
  all_goals first
    | exact Or.inl rfl
    | exact Or.inr rfl
    | exact absurd ⟨by omega, 0, rfl, by norm_num, by norm_num⟩ hf

/-- A square of side 2 without supports. -/
noncomputable def freeSquare (loads : Table ℝ) : Gui.Data ℝ :=
  { tensionPlate (2 : ℝ) 2 1000 (1 / 4) 0 1 1 with cons := [[0, 0], [0, 0], [0, 0], [0, 0]], loads := loads }

theorem freeSquare_grid (loads : Table ℝ) : GridModel (freeSquare loads) 2 2 1 1 1000 (1 / 4) [] :=
  ⟨rfl, rfl, (plate_grid (2 : ℝ) 2 1000 (1 / 4) 0 1 1).count, (plate_grid (2 : ℝ) 2 1000 (1 / 4) 0 1 1).place⟩

theorem freeSquare_mesh (loads : Table ℝ) : ∃ ms, SolidMesh Real.sqrt (freeSquare loads) ms :=
  C97_mesh (freeSquare_grid loads) (by norm_num) (by norm_num) (by norm_num) (by norm_num) (by simp)

theorem freeSquare_wf (loads : Table ℝ) : WellFormed (freeSquare loads) where
  codes := by
    intro i j x hj hx
    left
    obtain ⟨row, h1, h2⟩ := entry_some.1 hx
    have hr := List.mem_of_getElem? h1
    have hx := List.mem_of_getElem? h2
    simp only [freeSquare, List.mem_cons, List.not_mem_nil, or_false, or_self] at hr
    subst hr
    simpa using hx
  width := by simp [freeSquare]
  size := by
    rw [(freeSquare_grid loads).size]
    rfl

theorem freeSquare_free (loads : Table ℝ) (g : Motion ℝ) :
    Admissible (freeSquare loads).cons 2 (g.move (freeSquare loads).nodes) := by
  intro p j hp hj hf
  refine absurd ⟨hj, 0, ?_, by norm_num, by norm_num⟩ hf
  have hp : p < 4 := hp
  have : p = 0 ∨ p = 1 ∨ p = 2 ∨ p = 3 := by omega
  rcases (by omega : j = 0 ∨ j = 1) with rfl | rfl <;> rcases this with rfl | rfl | rfl | rfl <;> rfl

theorem freeSquare_y (loads : Table ℝ) : coordOf (freeSquare loads).nodes 0 1 = -1 ∧ coordOf (freeSquare loads).nodes 1 1 = -1 := by
  constructor
  · obtain ⟨id, h⟩ := (freeSquare_grid loads).row (r := 0) (c := 0) (by omega) (by omega)
    have h : (freeSquare loads).nodes[0]? = _ := h
    simp [coordOf, fieldOf, entry, h]
  · obtain ⟨id, h⟩ := (freeSquare_grid loads).row (r := 0) (c := 1) (by omega) (by omega)
    have h : (freeSquare loads).nodes[1]? = _ := h
    simp [coordOf, fieldOf, entry, h]

theorem freeSquare_x (loads : Table ℝ) : coordOf (freeSquare loads).nodes 0 0 = -1 ∧ coordOf (freeSquare loads).nodes 1 0 = 1 := by
  constructor
  · obtain ⟨id, h⟩ := (freeSquare_grid loads).row (r := 0) (c := 0) (by omega) (by omega)
    have h : (freeSquare loads).nodes[0]? = _ := h
    simp [coordOf, fieldOf, entry, h]
  · obtain ⟨id, h⟩ := (freeSquare_grid loads).row (r := 0) (c := 1) (by omega) (by omega)
    have h : (freeSquare loads).nodes[1]? = _ := h
    simp [coordOf, fieldOf, entry, h]
    norm_num

theorem freeSquare_apart (loads : Table ℝ) : Apart (freeSquare loads).nodes 0 1 := by
  left
  rw [(freeSquare_x loads).1, (freeSquare_x loads).2]
  norm_num

/-- Its matrix is singular. -/
example : ∃ ms, Members Real.sqrt (freeSquare []) ms ∧ ¬ Stable (freeSquare []).cons 2 ms := by
  obtain ⟨ms, h⟩ := freeSquare_mesh []
  refine ⟨ms, h.members, (C108_singular sqrtFn_real h.plane (freeSquare_wf []) h.members fun hsup => ?_).1⟩
  have := hsup ⟨1, 0, 0⟩ (freeSquare_free [] _) 0 0 (by simp [freeSquare]) (by omega)
  simp [Motion.move] at this

/-- Two opposite forces along the lower side. -/
theorem opposite_field : LoadField (freeSquare [[0, -1, 0], [1, 1, 0]])
    (fun p j => if j = 0 then (if p = 0 then -1 else if p = 1 then 1 else 0) else 0) := by
  intro p j hp hj
  have hn : (freeSquare [[0, -1, 0], [1, 1, 0]]).nodes.length = 4 := (freeSquare_grid _).size
  rw [hn] at hp ⊢
  have n0 : ∀ q, Names 4 ([0, -1, 0] : List ℝ) q ↔ q = 0 := fun q => names_nat (p := 0) (q := q) (by omega) (by simp)
  have n1 : ∀ q, Names 4 ([1, 1, 0] : List ℝ) q ↔ q = 1 := fun q => names_nat (p := 1) (q := q) (by omega) (by simp)
  by_cases h0 : p = 0
  · subst h0
    right
    refine ⟨[], [0, -1, 0], [[1, 1, 0]], rfl, (n0 0).2 rfl, ?_, ?_⟩
    · intro L hL hN
      rw [List.mem_singleton] at hL
      subst hL
      exact absurd ((n1 0).1 hN) (by omega)
    · rcases (by omega : j = 0 ∨ j = 1) with rfl | rfl <;> simp
  · by_cases h1 : p = 1
    · subst h1
      right
      refine ⟨[[0, -1, 0]], [1, 1, 0], [], rfl, (n1 1).2 rfl, by simp, ?_⟩
      rcases (by omega : j = 0 ∨ j = 1) with rfl | rfl <;> simp
    · left
      refine ⟨?_, by simp [h0, h1]⟩
      intro L hL hN
      simp only [freeSquare, List.mem_cons, List.not_mem_nil, or_false] at hL
      rcases hL with rfl | rfl
      · exact h0 ((n0 p).1 hN)
      · exact h1 ((n1 p).1 hN)

open Classical in
/-- A solver for all solvable systems. -/
noncomputable def anySolver : Sol.Solver ℝ := fun _ M b =>
  if h : ∃ x, M.mulVec x = b then .ok h.choose else .error .valueError

theorem anySolver_ok : SolverAny anySolver := by
  intro n M b h
  exact ⟨h.choose, by unfold anySolver; rw [dif_pos h], h.choose_spec⟩

theorem opposite_balanced (g : Motion ℝ) : ∑ p ∈ Finset.range (freeSquare [[0, -1, 0], [1, 1, 0]]).nodes.length,
    ∑ j ∈ Finset.range 2, g.move (freeSquare [[0, -1, 0], [1, 1, 0]]).nodes p j *
      (if j = 0 then (if p = 0 then -1 else if p = 1 then 1 else 0) else 0) = 0 := by
  have hn : (freeSquare [[0, -1, 0], [1, 1, 0]]).nodes.length = 4 := (freeSquare_grid _).size
  rw [hn]
  obtain ⟨y0, y1⟩ := freeSquare_y [[0, -1, 0], [1, 1, 0]]
  simp [Finset.sum_range_succ, Motion.move, y0, y1]
  ring

theorem opposite_rows : ∀ L ∈ (freeSquare [[0, -1, 0], [1, 1, 0]]).loads,
    3 ≤ L.length ∧ ∃ p, Names (freeSquare [[0, -1, 0], [1, 1, 0]]).nodes.length L p := by
  intro L hL
  rw [show (freeSquare [[0, -1, 0], [1, 1, 0]]).nodes.length = 4 from (freeSquare_grid _).size]
  simp only [freeSquare, List.mem_cons, List.not_mem_nil, or_false] at hL
  rcases hL with rfl | rfl
  · exact ⟨by simp, 0, (names_nat (p := 0) (q := 0) (by omega) (by simp)).2 rfl⟩
  · exact ⟨by simp, 1, (names_nat (p := 1) (q := 1) (by omega) (by simp)).2 rfl⟩

/-- They can be in equilibrium although nothing holds the square; the displacements are then known up to a rigid motion. -/
example : ∃ ms, Members Real.sqrt (freeSquare [[0, -1, 0], [1, 1, 0]]) ms ∧
    ∃ U, Equilibrium (freeSquare [[0, -1, 0], [1, 1, 0]]).cons 2 [[0, -1, 0], [1, 1, 0]] ms U ∧
      ∀ V, Equilibrium (freeSquare [[0, -1, 0], [1, 1, 0]]).cons 2 [[0, -1, 0], [1, 1, 0]] ms V →
        ∃ g : Motion ℝ, ∀ p < 4, ∀ j < 2, V p j = U p j + g.move (freeSquare [[0, -1, 0], [1, 1, 0]]).nodes p j := by
  obtain ⟨ms, h⟩ := freeSquare_mesh [[0, -1, 0], [1, 1, 0]]
  have hn : (freeSquare [[0, -1, 0], [1, 1, 0]]).nodes.length = 4 := (freeSquare_grid _).size
  obtain ⟨U, hU⟩ := (C108_equilibrium_iff sqrtFn_real h (freeSquare_wf _) opposite_field opposite_rows).2
    fun g _ => opposite_balanced g
  refine ⟨ms, h.members, U, hU, fun V hV => ?_⟩
  obtain ⟨g, -, hg⟩ := C108_up_to_motion sqrtFn_real h (freeSquare_wf _) hV hU
  exact ⟨g, fun p hp => hg p (by rw [hn]; exact hp)⟩

/-- `solids_auto` with such a solver runs silently; the bound on the work of the loads holds for the motion along the side. -/
example : ∃ res, Gui.solidsAuto Real.sqrt anySolver anySolver (freeSquare [[0, -1, 0], [1, 1, 0]]) false = .ok res ∧
    res.warned = false ∧ ∃ op bc neq Kg Mg,
      dme (freeSquare [[0, -1, 0], [1, 1, 0]]).cons (freeSquare [[0, -1, 0], [1, 1, 0]]).elements = .ok (op, bc, neq) ∧
      assembler (Uel.eleFun Real.sqrt) (freeSquare [[0, -1, 0], [1, 1, 0]]).elements (freeSquare [[0, -1, 0], [1, 1, 0]]).mats
        (freeSquare [[0, -1, 0], [1, 1, 0]]).nodes neq op = .ok (Kg, Mg) ∧ ∃ mx, ∃ i j, Kg i j = mx := by
  obtain ⟨ms, h⟩ := freeSquare_mesh [[0, -1, 0], [1, 1, 0]]
  have hwf := freeSquare_wf [[0, -1, 0], [1, 1, 0]]
  have hfree : ∀ p < 4, ∀ j < 2, Free (freeSquare [[0, -1, 0], [1, 1, 0]]).cons 2 p j := by
    intro p hp j hj
    refine ⟨hj, 0, ?_, by norm_num, by norm_num⟩
    have : p = 0 ∨ p = 1 ∨ p = 2 ∨ p = 3 := by omega
    rcases (by omega : j = 0 ∨ j = 1) with rfl | rfl <;> rcases this with rfl | rfl | rfl | rfl <;> rfl
  obtain ⟨res, h1, -, h3⟩ := C108_balanced_run (de := anySolver) sqrtFn_real h hwf opposite_field anySolver_ok
    ⟨0, 0, hfree 0 (by omega) 0 (by omega)⟩ opposite_rows fun g _ => opposite_balanced g
  have hq := h3 ⟨fun p j => if p = 0 ∧ j = 0 then 1 else 0, fun p j hp hj hf => absurd (hfree p hp j hj) hf, by
    by_contra hc
    push Not at hc
    have hne : ms ≠ [] := by
      rintro rfl
      obtain ⟨m, hm, -⟩ := h.used 0 (by rw [(freeSquare_grid _).size]; omega)
      simp at hm
    obtain ⟨g, hg⟩ := (C95_zero_energy sqrtFn_real h hne _).1 hc
    have e0 := hg 0 (by rw [(freeSquare_grid _).size]; omega) 0 (by omega)
    have e1 := hg 1 (by rw [(freeSquare_grid _).size]; omega) 0 (by omega)
    obtain ⟨y0, y1⟩ := freeSquare_y [[0, -1, 0], [1, 1, 0]]
    simp only [Motion.move, y0, y1, and_self, if_true, one_ne_zero, false_and, if_false] at e0 e1
    linarith⟩
  obtain ⟨op, bc, neq, Kg, Mg, d1, d2⟩ := plane_assembly h.plane hwf h.members
  obtain ⟨mx, hmx, -⟩ := C108_silent sqrtFn_real h.plane hwf h.members opposite_field h1 hq d1 d2 (freeSquare_free _ ⟨1, 0, 0⟩)
  exact ⟨res, h1, hq, op, bc, neq, Kg, Mg, d1, d2, mx, hmx⟩

/-- A single force cannot. -/
example : ∃ ms, Members Real.sqrt (freeSquare [[1, 1, 0]]) ms ∧
    ¬ ∃ U, Equilibrium (freeSquare [[1, 1, 0]]).cons 2 [[1, 1, 0]] ms U := by
  obtain ⟨ms, h⟩ := freeSquare_mesh [[1, 1, 0]]
  have hn : (freeSquare [[1, 1, 0]]).nodes.length = 4 := (freeSquare_grid _).size
  refine ⟨ms, h.members, fun ⟨U, hU⟩ => ?_⟩
  have n1 : ∀ q, Names 4 ([1, 1, 0] : List ℝ) q ↔ q = 1 := fun q => names_nat (p := 1) (q := q) (by omega) (by simp)
  have hF : LoadField (freeSquare [[1, 1, 0]]) (fun p j => if p = 1 ∧ j = 0 then 1 else 0) := by
    intro p j hp hj
    rw [hn] at hp ⊢
    by_cases h1 : p = 1
    · subst h1
      right
      refine ⟨[], [1, 1, 0], [], rfl, (n1 1).2 rfl, by simp, ?_⟩
      rcases (by omega : j = 0 ∨ j = 1) with rfl | rfl <;> simp
    · left
      refine ⟨?_, by simp [h1]⟩
      intro L hL hN
      simp only [freeSquare, List.mem_cons, List.not_mem_nil, or_false] at hL
      subst hL
      exact h1 ((n1 p).1 hN)
  have := C108_balance_needed sqrtFn_real h.plane (freeSquare_wf _) h.members hF hU (freeSquare_free _ ⟨1, 0, 0⟩)
  rw [hn] at this
  simp [Finset.sum_range_succ, Motion.move] at this

end demo

end SolidsPy
