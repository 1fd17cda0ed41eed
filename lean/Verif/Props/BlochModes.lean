import Verif.Props.Bloch
import Verif.Props.Supports
import Verif.Props.MassGlobal
import Verif.Props.Motions
import Mathlib.Analysis.SpecialFunctions.Complex.Log
import Mathlib.Analysis.Matrix.Order

/-! # C115: waves in a periodic mesh -/

set_option linter.unusedSectionVars false

namespace SolidsPy
open Spec Assem Matrix Bloch

/-! ## Real matrices on complex vectors -/

section
variable {n : ℕ} {A B : Matrix (Fin n) (Fin n) ℝ}

theorem map_mulVec (A : Matrix (Fin n) (Fin n) ℝ) (u : Fin n → ℂ) (i : Fin n) :
    (A.map Complex.ofReal).mulVec u i =
      ⟨A.mulVec (fun i => (u i).re) i, A.mulVec (fun i => (u i).im) i⟩ := by
  apply Complex.ext <;> simp [Matrix.mulVec, dotProduct]

theorem complex_form (hA : A.IsSymm) (u : Fin n → ℂ) :
    star u ⬝ᵥ (A.map Complex.ofReal).mulVec u =
      (((fun i => (u i).re) ⬝ᵥ A.mulVec (fun i => (u i).re) + (fun i => (u i).im) ⬝ᵥ A.mulVec (fun i => (u i).im) : ℝ) : ℂ) := by
  have hs := quad_form_symm hA (fun i => (u i).re) (fun i => (u i).im)
  apply Complex.ext
  · rw [Complex.ofReal_re]
    simp only [dotProduct, Complex.re_sum, map_mulVec, ← Finset.sum_add_distrib]
    refine Finset.sum_congr rfl fun i _ => ?_
    simp
  · rw [Complex.ofReal_im]
    simp only [dotProduct, Complex.im_sum, map_mulVec] at hs ⊢
    rw [← sub_eq_zero, ← Finset.sum_sub_distrib] at hs
    rw [← hs]
    refine Finset.sum_congr rfl fun i _ => ?_
    simp
    ring

open scoped ComplexOrder

theorem map_hermitian (hA : A.IsSymm) : (A.map Complex.ofReal).IsHermitian := by
  ext i j
  have := congrFun (congrFun hA.eq i) j
  rw [Matrix.transpose_apply] at this
  simp [Matrix.conjTranspose_apply, this]

theorem map_posSemidef (hA : A.IsSymm) (h : ∀ v, 0 ≤ v ⬝ᵥ A.mulVec v) : (A.map Complex.ofReal).PosSemidef := by
  refine .of_dotProduct_mulVec_nonneg (map_hermitian hA) fun u => ?_
  rw [complex_form hA]
  exact_mod_cast add_nonneg (h _) (h _)

theorem map_posDef (hA : A.IsSymm) (h : ∀ v, v ≠ 0 → 0 < v ⬝ᵥ A.mulVec v) : (A.map Complex.ofReal).PosDef := by
  have h0 : ∀ v, 0 ≤ v ⬝ᵥ A.mulVec v := by
    intro v
    by_cases hv : v = 0
    · simp [hv]
    · exact (h v hv).le
  refine .of_dotProduct_mulVec_pos (map_hermitian hA) fun u hu => ?_
  rw [complex_form hA]
  have : 0 < (fun i => (u i).re) ⬝ᵥ A.mulVec (fun i => (u i).re) + (fun i => (u i).im) ⬝ᵥ A.mulVec (fun i => (u i).im) := by
    by_cases hr : (fun i => (u i).re) = 0
    · have hi : (fun i => (u i).im) ≠ 0 := by
        intro hi
        exact hu (funext fun i => Complex.ext (congrFun hr i) (congrFun hi i))
      exact add_pos_of_nonneg_of_pos (h0 _) (h _ hi)
    · exact add_pos_of_pos_of_nonneg (h _ hr) (h0 _)
  exact_mod_cast this

/-- Values of a generalised eigenproblem with a definite right-hand matrix are non-negative reals. -/
theorem eigen_nonneg {m : ℕ} {P Q : Matrix (Fin m) (Fin m) ℂ} (hP : P.PosSemidef) (hQ : Q.PosDef) {q : Fin m → ℂ} (hq : q ≠ 0)
    {l : ℂ} (h : P.mulVec q = l • Q.mulVec q) :
    ∃ w : ℝ, 0 ≤ w ∧ l = w := by
  have h1 := hP.dotProduct_mulVec_nonneg q
  have h2 := hQ.dotProduct_mulVec_pos hq
  rw [h, dotProduct_smul, smul_eq_mul] at h1
  generalize star q ⬝ᵥ Q.mulVec q = z at h1 h2
  obtain ⟨hz, hi⟩ := Complex.lt_def.1 h2
  obtain ⟨hz', hi'⟩ := Complex.le_def.1 h1
  simp only [Complex.zero_re, Complex.zero_im, Complex.mul_re, Complex.mul_im] at hz hi hz' hi'
  rw [← hi] at hz' hi'
  simp only [mul_zero, sub_zero, zero_add] at hz' hi'
  refine ⟨l.re, nonneg_of_mul_nonneg_left hz' hz, Complex.ext rfl ?_⟩
  rw [Complex.ofReal_im]
  exact (mul_eq_zero.1 hi'.symm).resolve_right hz.ne'

end

theorem assembled_symm {K : Type} [Field K] [LinearOrder K] [IsStrictOrderedRing K] [FloorRing K]
    {fn : ℤ → Uel K → Prop} {cons mats nodes : Table K} {els : List (List ℤ)} {nd neq : ℕ} {bc : List (List ℤ)}
    {A : Matrix (Fin neq) (Fin neq) K} {ms : List (Member K)} (s : Setup fn cons els mats nodes nd neq bc A ms)
    (h : ∀ m ∈ ms, ∀ v u, m.form nd v u = m.form nd u v) : A.IsSymm := by
  refine symm_of_form fun v u => ?_
  obtain ⟨V, hV⟩ := exists_completes (cons := cons) bc nd v
  obtain ⟨U, hU⟩ := exists_completes (cons := cons) bc nd u
  unfold dotProduct
  rw [reduced_form s hV hU, reduced_form s hU hV]
  congr 1
  exact List.map_congr_left fun m hm => h m hm V U

/-! ## The cell -/

/-- Wherever the pairs tie two nodes, the wave makes a whole number of turns from one to the other. -/
def Spec.InPhase (wave : List ℝ) (coords : List (List ℝ)) (pairs : List (ℤ × ℤ)) : Prop :=
  ∀ p ∈ pairs, ∀ φ, Shift wave coords p.1 p.2 φ → ∃ t : ℤ, φ = t * (2 * Real.pi)

/-- There are two pairs, each of nodes at different places, with different midpoints. -/
def Spec.Spread (nodes : List (List ℝ)) (pairs : List (ℤ × ℤ)) : Prop :=
  ∃ i r i' r' : ℕ, (∃ p ∈ pairs, Resolves nodes.length p.1 i ∧ Resolves nodes.length p.2 r) ∧
    (∃ p ∈ pairs, Resolves nodes.length p.1 i' ∧ Resolves nodes.length p.2 r') ∧
    Apart nodes i r ∧ Apart nodes i' r' ∧
    (coordOf nodes i 0 + coordOf nodes r 0 ≠ coordOf nodes i' 0 + coordOf nodes r' 0 ∨
      coordOf nodes i 1 + coordOf nodes r 1 ≠ coordOf nodes i' 1 + coordOf nodes r' 1)

/-- The data of a Bloch analysis of a mesh without supports: the degrees of freedom of a node are the ones `eqcounter` gives it. -/
structure Cell (d : Gui.Data ℝ) (bc : List (List ℤ)) (neq : ℕ) (nodesRef nodesIma dofsRef dofsIma : List ℤ)
    (refDof imaDof : ℤ → Option (List ℤ)) (newNum : List ℤ) : Prop where
  free : ∀ p < d.nodes.length, ∀ j < 2, Free d.cons 2 p j
  tied : ∀ p ∈ nodesIma.zip nodesRef, ∃ i r, Resolves d.nodes.length p.1 i ∧ Resolves d.nodes.length p.2 r ∧
    imaDof p.1 = bc[i]? ∧ refDof p.2 = bc[r]?
  pairing : Pairing neq dofsIma (links nodesIma nodesRef refDof imaDof)
  onto : ∀ c : Fin (neq - dofsRef.length), ∃ e : ℕ, e < neq ∧ (e : ℤ) ∉ dofsIma ∧ newNum[e]? = some ((c : ℕ) : ℤ)
  once : ∀ e e' : ℕ, e < neq → e' < neq → (e : ℤ) ∉ dofsIma → (e' : ℤ) ∉ dofsIma → newNum[e]? = newNum[e']? → e = e'

section
variable {sq : ℝ → ℝ} {d : Gui.Data ℝ} {ms : List (Member ℝ)} {op bc : List (List ℤ)} {neq : ℕ}
  {Kg Mg : Matrix (Fin neq) (Fin neq) ℝ} {nodesRef nodesIma dofsRef dofsIma : List ℤ}
  {refDof imaDof : ℤ → Option (List ℤ)} {newNum : List ℤ} {wave : List ℝ}
  {T : Matrix (Fin neq) (Fin (neq - dofsRef.length)) ℂ}

theorem stiffness_psd (hs : SqrtFn sq) (h : SolidMesh sq d ms) (hwf : WellFormed d)
    (h1 : dme d.cons d.elements = .ok (op, bc, neq))
    (h2 : assembler (Uel.eleFun sq) d.elements d.mats d.nodes neq op = .ok (Kg, Mg)) :
    Kg.IsSymm ∧ ∀ v, 0 ≤ v ⬝ᵥ Kg.mulVec v := by
  obtain ⟨ms', s⟩ := auto_setup h1 h2 hwf.codes hwf.width hwf.size
  obtain rfl := members_unique h.members s.mem
  obtain ⟨hsym, hpsd⟩ := C93_elements hs h.plane h.members
  refine ⟨assembled_symm s hsym, fun v => ?_⟩
  obtain ⟨V, hV⟩ := exists_completes (cons := d.cons) bc 2 v
  unfold dotProduct
  rw [reduced_form s hV hV]
  refine List.sum_nonneg fun y hy => ?_
  obtain ⟨m, hm, rfl⟩ := List.mem_map.1 hy
  exact hpsd h.physical m hm V

/-- No energy means a rigid motion. -/
theorem stiffness_null (hs : SqrtFn sq) (h : SolidMesh sq d ms) (hwf : WellFormed d)
    (h1 : dme d.cons d.elements = .ok (op, bc, neq))
    (h2 : assembler (Uel.eleFun sq) d.elements d.mats d.nodes neq op = .ok (Kg, Mg)) (v : Fin neq → ℝ)
    (h0 : v ⬝ᵥ Kg.mulVec v = 0) :
    ∃ g : Motion ℝ, ∀ p j, ∀ i : Fin neq, DofEq bc neq p j i → p < d.nodes.length → j < 2 → v i = g.move d.nodes p j := by
  by_cases hne : ms = []
  · subst hne
    refine ⟨⟨0, 0, 0⟩, fun p j i _ hp => ?_⟩
    obtain ⟨m, hm, _⟩ := h.used p hp
    cases hm
  obtain ⟨ms', s⟩ := auto_setup h1 h2 hwf.codes hwf.width hwf.size
  obtain rfl := members_unique h.members s.mem
  obtain ⟨hsym, hpsd⟩ := C93_elements hs h.plane h.members
  obtain ⟨V, hV⟩ := exists_completes (cons := d.cons) bc 2 v
  unfold dotProduct at h0
  rw [reduced_form s hV hV] at h0
  have hz := (sum_pos_zero fun m hm => hpsd h.physical m hm V).1 h0
  obtain ⟨g, hg⟩ := (C95_zero_energy hs h hne V).1 hz
  refine ⟨g, fun p j i hi hp hj => ?_⟩
  rw [← hg p hp j hj]
  exact ((hV p (by rw [hwf.size]; exact hp) j hj).1 i hi).symm

theorem mass_pd (hwf : WellFormed d) (hh : Heavy d) (h1 : dme d.cons d.elements = .ok (op, bc, neq))
    (h2 : assembler (Uel.eleFun sq) d.elements d.mats d.nodes neq op = .ok (Kg, Mg))
    (hu : ∀ p j, Free d.cons 2 p j → ∃ el ∈ d.elements, ∃ id ∈ el.drop 3, Resolves d.nodes.length id p) :
    Mg.IsSymm ∧ ∀ v, v ≠ 0 → 0 < v ⬝ᵥ Mg.mulVec v := by
  refine ⟨?_, (C114_definite_iff hwf hh h1 h2).2 hu⟩
  obtain ⟨ms', s⟩ := mass_setup h1 h2 hwf
  refine assembled_symm s fun m hm v u => ?_
  obtain ⟨e, he, rfl⟩ := List.mem_iff_getElem.1 hm
  have he' : e < d.elements.length := by rw [s.mem.length_eq]; exact he
  have hmem := s.mem.get (i := e) he' he
  obtain ⟨ty, mi, q, E, nu, rest, c1, c2, c3, c4, c5, c6⟩ := hh _ (List.getElem_mem he')
  obtain ⟨mi', q', params, n, f, X, k, mm, a1, a2, a3, a4, a5, a6, a7⟩ := mass_placed hmem c1 c2
  rw [List.get_eq_getElem] at a7
  rw [a7.form, a7.form]
  exact quad_form_symm (C38_plane_symmetric a5 a6).2 _ _

/-- The value of the wave field at the image is the value at the reference times the phase. -/
theorem cell_tie (h1 : dme d.cons d.elements = .ok (op, bc, neq))
    (hc : Cell d bc neq nodesRef nodesIma dofsRef dofsIma refDof imaDof newNum)
    (hT : blochTransformMat wave (d.nodes.map (List.drop 1)) neq nodesRef nodesIma dofsRef dofsIma refDof imaDof newNum = .ok T)
    {p : ℤ × ℤ} (hp : p ∈ nodesIma.zip nodesRef) {i r : ℕ} (hi : Resolves d.nodes.length p.1 i)
    (hr : Resolves d.nodes.length p.2 r) {j : ℕ} (hj : j < 2) (q : Fin (neq - dofsRef.length) → ℂ) :
    ∃ (a b : Fin neq) (φ : ℝ), DofEq bc neq i j a ∧ DofEq bc neq r j b ∧
      Shift wave (d.nodes.map (List.drop 1)) p.1 p.2 φ ∧
      T.mulVec q a = Complex.exp (Complex.I * (φ : ℂ)) * T.mulVec q b := by
  obtain ⟨i', r', hi', hr', e1, e2⟩ := hc.tied p hp
  obtain rfl := resolves_unique hi hi'
  obtain rfl := resolves_unique hr hr'
  have heq := (dme_ok.1 h1).1
  have dof : ∀ k, k < d.nodes.length → ∃ row x, bc[k]? = some row ∧ row[j]? = some ((x : ℕ) : ℤ) ∧ x < neq ∧ DofEq bc neq k j x := by
    intro k hk
    obtain ⟨c1, c2⟩ := free_entry heq (hc.free k hk j hj)
    obtain ⟨row, c3, c4⟩ := entry_some.1 c1
    exact ⟨row, _, c3, c4, c2, _, c1, by omega, c2, .inl rfl⟩
  obtain ⟨ri, a, a1, a2, a3, a4⟩ := dof i hi.1
  obtain ⟨rr, b, b1, b2, b3, b4⟩ := dof r hr.1
  have hl : (⟨(a : ℤ), (b : ℤ), p.1, p.2⟩ : Link) ∈ links nodesIma nodesRef refDof imaDof := by
    unfold links
    rw [List.mem_flatMap]
    refine ⟨p, hp, ?_⟩
    rw [e1, e2, a1, b1, List.mem_map]
    refine ⟨((b : ℤ), (a : ℤ)), ?_, rfl⟩
    rw [Option.getD_some, Option.getD_some]
    refine List.mem_of_getElem? (i := j) ?_
    rw [List.getElem?_zip_eq_some]
    exact ⟨b2, a2⟩
  obtain ⟨a', b', φ, f1, f2, f3, f4⟩ := C85_images hT hc.pairing q _ hl
  dsimp only at f1 f2
  obtain rfl : a' = ⟨a, a3⟩ := Fin.ext (by exact_mod_cast f1.symm)
  obtain rfl : b' = ⟨b, b3⟩ := Fin.ext (by exact_mod_cast f2.symm)
  exact ⟨_, _, φ, a4, b4, f3, f4⟩

theorem turn_centre {X S e : ℂ} {a b : ℝ} (hS : S ≠ 0) (he : ‖e‖ = 1) (he1 : e ≠ 1)
    (h : X - S * a = e * (X - S * b)) : 2 * (X / S).re = a + b := by
  have hz : X / S - a = e * (X / S - b) := by
    field_simp
    linear_combination h
  generalize X / S = z at hz
  have hn : Complex.normSq (z - a) = Complex.normSq (z - b) := by
    rw [hz, map_mul, Complex.normSq_eq_norm_sq e, he]
    simp
  simp only [Complex.normSq_apply, Complex.sub_re, Complex.sub_im, Complex.ofReal_re, Complex.ofReal_im] at hn
  have : (a - b) * (a + b - 2 * z.re) = 0 := by linarith
  rcases mul_eq_zero.1 this with hab | h0
  · have hab : a = b := by linarith
    subst hab
    have hza : (1 - e) * (z - a) = 0 := by linear_combination hz
    have : z = a := sub_eq_zero.1 ((mul_eq_zero.1 hza).resolve_left (sub_ne_zero.2 he1.symm))
    rw [this, Complex.ofReal_re]
    ring
  · linarith

theorem phase_norm (φ : ℝ) : ‖Complex.exp (Complex.I * (φ : ℂ))‖ = 1 := by
  rw [mul_comm, Complex.norm_exp_ofReal_mul_I]

theorem phase_one {φ : ℝ} : Complex.exp (Complex.I * (φ : ℂ)) = 1 ↔ ∃ t : ℤ, φ = t * (2 * Real.pi) := by
  rw [Complex.exp_eq_one_iff]
  refine exists_congr fun t => ?_
  constructor
  · intro h
    have := congrArg Complex.im h
    simpa using this
  · intro h
    rw [h]
    push_cast
    ring

theorem shift_unique {coords : List (List ℝ)} {i r : ℤ} {φ φ' : ℝ} (h : Shift wave coords i r φ) (h' : Shift wave coords i r φ') :
    φ = φ' := by
  obtain ⟨ki, kr, xi, xr, a1, a2, a3, a4, a5, rfl⟩ := h
  obtain ⟨ki', kr', xi', xr', b1, b2, b3, b4, b5, rfl⟩ := h'
  obtain rfl := resolves_unique a1 b1
  obtain rfl := resolves_unique a2 b2
  rw [a3, Option.some.injEq] at b3
  rw [a4, Option.some.injEq] at b4
  subst b3 b4
  rfl

theorem dofEq_exists (hc : Cell d bc neq nodesRef nodesIma dofsRef dofsIma refDof imaDof newNum)
    (h1 : dme d.cons d.elements = .ok (op, bc, neq)) {p j : ℕ} (hp : p < d.nodes.length) (hj : j < 2) :
    ∃ a : Fin neq, DofEq bc neq p j a := by
  obtain ⟨c1, c2⟩ := free_entry (dme_ok.1 h1).1 (hc.free p hp j hj)
  exact ⟨⟨_, c2⟩, _, c1, by omega, c2, .inl rfl⟩

/-- A Bloch wave without energy is a translation. -/
theorem wave_translation (hs : SqrtFn sq) (h : SolidMesh sq d ms) (hwf : WellFormed d)
    (h1 : dme d.cons d.elements = .ok (op, bc, neq))
    (h2 : assembler (Uel.eleFun sq) d.elements d.mats d.nodes neq op = .ok (Kg, Mg))
    (hc : Cell d bc neq nodesRef nodesIma dofsRef dofsIma refDof imaDof newNum)
    (hT : blochTransformMat wave (d.nodes.map (List.drop 1)) neq nodesRef nodesIma dofsRef dofsIma refDof imaDof newNum = .ok T)
    (hsp : Spread d.nodes (nodesIma.zip nodesRef)) (q : Fin (neq - dofsRef.length) → ℂ)
    (h0 : star (T.mulVec q) ⬝ᵥ (Kg.map Complex.ofReal).mulVec (T.mulVec q) = 0) :
    ∃ c : Fin 2 → ℂ, ∀ p < d.nodes.length, ∀ (j : Fin 2) (i : Fin neq), DofEq bc neq p j i → T.mulVec q i = c j := by
  obtain ⟨hsym, hpsd⟩ := stiffness_psd hs h hwf h1 h2
  rw [complex_form hsym, Complex.ofReal_eq_zero] at h0
  have hr := hpsd fun i => (T.mulVec q i).re
  have hi := hpsd fun i => (T.mulVec q i).im
  obtain ⟨g, hg⟩ := stiffness_null hs h hwf h1 h2 (fun i => (T.mulVec q i).re) (by linarith)
  obtain ⟨g', hg'⟩ := stiffness_null hs h hwf h1 h2 (fun i => (T.mulVec q i).im) (by linarith)
  have hX : ∀ p < d.nodes.length, ∀ i : Fin neq, DofEq bc neq p 0 i →
      T.mulVec q i = (⟨g.x, g'.x⟩ : ℂ) - ⟨g.spin, g'.spin⟩ * ((coordOf d.nodes p 1 : ℝ) : ℂ) := by
    intro p hp i hi
    have e1 := hg p 0 i hi hp (by omega)
    have e2 := hg' p 0 i hi hp (by omega)
    simp only [Motion.move, if_true] at e1 e2
    apply Complex.ext <;> simp [e1, e2]
  have hY : ∀ p < d.nodes.length, ∀ i : Fin neq, DofEq bc neq p 1 i →
      T.mulVec q i = (⟨g.y, g'.y⟩ : ℂ) + ⟨g.spin, g'.spin⟩ * ((coordOf d.nodes p 0 : ℝ) : ℂ) := by
    intro p hp i hi
    have e1 := hg p 1 i hi hp (by omega)
    have e2 := hg' p 1 i hi hp (by omega)
    simp only [Motion.move, one_ne_zero, if_false] at e1 e2
    apply Complex.ext <;> simp [e1, e2]
  generalize (⟨g.x, g'.x⟩ : ℂ) = X at hX
  generalize (⟨g.y, g'.y⟩ : ℂ) = Y at hY
  generalize (⟨g.spin, g'.spin⟩ : ℂ) = S at hX hY
  have key : ∀ {i r : ℕ}, (∃ p ∈ nodesIma.zip nodesRef, Resolves d.nodes.length p.1 i ∧ Resolves d.nodes.length p.2 r) →
      Apart d.nodes i r → S ≠ 0 → 2 * (X / S).re = coordOf d.nodes i 1 + coordOf d.nodes r 1 ∧
        2 * (Y / -S).re = coordOf d.nodes i 0 + coordOf d.nodes r 0 := by
    rintro i r ⟨p, hp, hi, hr⟩ hap hS
    obtain ⟨a, b, φ, a1, a2, a3, a4⟩ := cell_tie h1 hc hT hp hi hr (j := 0) (by omega) q
    obtain ⟨a', b', φ', b1, b2, b3, b4⟩ := cell_tie h1 hc hT hp hi hr (j := 1) (by omega) q
    obtain rfl := shift_unique a3 b3
    rw [hX i hi.1 a a1, hX r hr.1 b a2] at a4
    rw [hY i hi.1 a' b1, hY r hr.1 b' b2] at b4
    have hne : Complex.exp (Complex.I * (φ : ℂ)) ≠ 1 := by
      intro h1
      rw [h1, one_mul] at a4 b4
      have ea : S * (coordOf d.nodes i 1 : ℝ) = S * (coordOf d.nodes r 1 : ℝ) := by linear_combination -a4
      have eb : S * (coordOf d.nodes i 0 : ℝ) = S * (coordOf d.nodes r 0 : ℝ) := by linear_combination b4
      rcases hap with hap | hap
      · exact hap (by exact_mod_cast mul_left_cancel₀ hS eb)
      · exact hap (by exact_mod_cast mul_left_cancel₀ hS ea)
    exact ⟨turn_centre hS (phase_norm φ) hne a4,
      turn_centre (neg_ne_zero.2 hS) (phase_norm φ) hne (by linear_combination b4)⟩
  have hS : S = 0 := by
    by_contra hS
    obtain ⟨i, r, i', r', hp, hp', hap, hap', hmid⟩ := hsp
    obtain ⟨e1, e2⟩ := key hp hap hS
    obtain ⟨e1', e2'⟩ := key hp' hap' hS
    rcases hmid with hmid | hmid
    · exact hmid (e2.symm.trans e2')
    · exact hmid (e1.symm.trans e1')
  refine ⟨![X, Y], fun p hp j i hi => ?_⟩
  fin_cases j
  · rw [hX p hp i hi, hS]
    simp
  · rw [hY p hp i hi, hS]
    simp

open scoped ComplexOrder

theorem reduced_energy (A : Matrix (Fin neq) (Fin neq) ℂ) (q : Fin (neq - dofsRef.length) → ℂ) :
    star q ⬝ᵥ (T.conjTranspose * A * T).mulVec q = star (T.mulVec q) ⬝ᵥ A.mulVec (T.mulVec q) := by
  rw [star_mulVec, ← dotProduct_mulVec, mulVec_mulVec, mulVec_mulVec, Matrix.mul_assoc]

/-- C115.  The reduced stiffness sends a Bloch vector to zero exactly when its wave is a translation of the whole mesh. -/
theorem C115_null (hs : SqrtFn sq) (h : SolidMesh sq d ms) (hwf : WellFormed d)
    (h1 : dme d.cons d.elements = .ok (op, bc, neq))
    (h2 : assembler (Uel.eleFun sq) d.elements d.mats d.nodes neq op = .ok (Kg, Mg))
    (hc : Cell d bc neq nodesRef nodesIma dofsRef dofsIma refDof imaDof newNum)
    (hT : blochTransformMat wave (d.nodes.map (List.drop 1)) neq nodesRef nodesIma dofsRef dofsIma refDof imaDof newNum = .ok T)
    (hsp : Spread d.nodes (nodesIma.zip nodesRef)) (q : Fin (neq - dofsRef.length) → ℂ) :
    (T.conjTranspose * Kg.map Complex.ofReal * T).mulVec q = 0 ↔
      ∃ c : Fin 2 → ℂ, ∀ p < d.nodes.length, ∀ (j : Fin 2) (i : Fin neq), DofEq bc neq p j i → T.mulVec q i = c j := by
  obtain ⟨hsym, hpsd⟩ := stiffness_psd hs h hwf h1 h2
  rw [← ((map_posSemidef hsym hpsd).conjTranspose_mul_mul_same T).dotProduct_mulVec_zero_iff, reduced_energy]
  refine ⟨wave_translation hs h hwf h1 h2 hc hT hsp q, ?_⟩
  rintro ⟨c, hq⟩
  have zero : ∀ (v : Fin neq → ℝ) (x : Fin 2 → ℝ),
      (∀ p < d.nodes.length, ∀ (j : Fin 2) (i : Fin neq), DofEq bc neq p j i → v i = x j) → v ⬝ᵥ Kg.mulVec v = 0 := by
    intro v x hv
    obtain ⟨ms', s⟩ := auto_setup h1 h2 hwf.codes hwf.width hwf.size
    obtain rfl := members_unique h.members s.mem
    obtain ⟨V, hV⟩ := exists_completes (cons := d.cons) bc 2 v
    unfold dotProduct
    rw [reduced_form s hV hV]
    refine List.sum_eq_zero fun y hy => ?_
    obtain ⟨m, hm, rfl⟩ := List.mem_map.1 hy
    refine (C95_zero_energy hs h (List.ne_nil_of_mem hm) V).2 ⟨⟨x 0, x 1, 0⟩, fun p hp j hj => ?_⟩ m hm
    obtain ⟨a, ha⟩ := dofEq_exists hc h1 hp hj
    rw [(hV p (by rw [hwf.size]; exact hp) j hj).1 a ha, hv p hp ⟨j, hj⟩ a ha]
    rcases (by omega : j = 0 ∨ j = 1) with rfl | rfl <;> simp [Motion.move]
  rw [complex_form hsym, zero _ (fun j => (c j).re) fun p hp j i hi => by rw [hq p hp j i hi],
    zero _ (fun j => (c j).im) fun p hp j i hi => by rw [hq p hp j i hi]]
  simp

/-- C115.  Every translation is a Bloch wave exactly when the wave vector makes whole turns across all pairs; otherwise no other
than zero is. -/
theorem C115_translations (hwf : WellFormed d) (h1 : dme d.cons d.elements = .ok (op, bc, neq))
    (hc : Cell d bc neq nodesRef nodesIma dofsRef dofsIma refDof imaDof newNum)
    (hT : blochTransformMat wave (d.nodes.map (List.drop 1)) neq nodesRef nodesIma dofsRef dofsIma refDof imaDof newNum = .ok T) :
    (InPhase wave (d.nodes.map (List.drop 1)) (nodesIma.zip nodesRef) → ∀ c : Fin 2 → ℂ, ∃ q : Fin (neq - dofsRef.length) → ℂ,
      ∀ p < d.nodes.length, ∀ (j : Fin 2) (i : Fin neq), DofEq bc neq p j i → T.mulVec q i = c j) ∧
    (¬ InPhase wave (d.nodes.map (List.drop 1)) (nodesIma.zip nodesRef) → ∀ (c : Fin 2 → ℂ) (q : Fin (neq - dofsRef.length) → ℂ),
      (∀ p < d.nodes.length, ∀ (j : Fin 2) (i : Fin neq), DofEq bc neq p j i → T.mulVec q i = c j) → c = 0 ∧ q = 0) := by
  have heq := (dme_ok.1 h1).1
  constructor
  · intro hin c
    have hpos : ∀ i : Fin neq, ∃ (p : ℕ) (j : Fin 2), Free d.cons 2 p j ∧ entry bc p j = some ((i : ℕ) : ℤ) := by
      intro i
      obtain ⟨p, j, hf, hr⟩ := exists_free heq i.2
      exact ⟨p, ⟨j, hf.1⟩, hf, by rw [(free_entry heq hf).1, hr]⟩
    choose P J hf hPJ using hpos
    choose e he hk hn using hc.onto
    have hJ : ∀ (p : ℕ) (j : Fin 2) (i : Fin neq), p < d.nodes.length → DofEq bc neq p j i → J i = j ∧ P i = p := by
      intro p j i hp hi
      obtain ⟨g, g1, g2, g3⟩ := hi
      obtain ⟨c1, c2⟩ := free_entry heq (hc.free p hp j j.2)
      have hg : DofEq bc neq p j i := ⟨g, g1, g2, g3⟩
      have hg' : DofEq bc neq p j (rank d.cons 2 p j) := ⟨_, c1, by omega, c2, .inl rfl⟩
      have hii := dofEq_unique hg hg'
      have c3 := hPJ i
      rw [(free_entry heq (hf i)).1, Option.some.injEq, Nat.cast_inj, hii] at c3
      have := rank_inj (hf i) (hc.free p hp j j.2) c3
      exact ⟨Fin.ext this.2, this.1⟩
    let q : Fin (neq - dofsRef.length) → ℂ := fun k => c (J ⟨e k, he k⟩)
    have hkept : ∀ i : Fin neq, ((i : ℕ) : ℤ) ∉ dofsIma → T.mulVec q i = c (J i) := by
      intro i hi
      obtain ⟨k, hk1, hk2⟩ := C85_kept hT hc.pairing q i hi
      have : e k = i := hc.once _ _ (he k) i.2 (hk k) hi (by rw [hn, hk1])
      rw [hk2]
      show c (J ⟨e k, he k⟩) = c (J i)
      congr 2
      exact Fin.ext this
    refine ⟨q, fun p hp j i hi => ?_⟩
    by_cases him : ((i : ℕ) : ℤ) ∈ dofsIma
    · obtain ⟨l, hl, hli⟩ := hc.pairing.all i i.2 him
      have hl' := hl
      unfold links at hl'
      rw [List.mem_flatMap] at hl'
      obtain ⟨pr, hpr, hl'⟩ := hl'
      rw [List.mem_map] at hl'
      obtain ⟨w, hw, rfl⟩ := hl'
      obtain ⟨s, hs⟩ := List.mem_iff_getElem?.1 hw
      rw [List.getElem?_zip_eq_some] at hs
      obtain ⟨ki, kr, t1, t2, t3, t4⟩ := hc.tied pr hpr
      rw [t3, t4] at hs
      have hb : ∀ (k : ℕ) (z : ℤ), (bc[k]?.getD [])[s]? = some z → entry bc k s = some z := by
        intro k z hz
        cases hb : bc[k]? with
        | none => rw [hb] at hz; simp at hz
        | some row =>
          rw [hb] at hz
          exact entry_some.2 ⟨row, hb, hz⟩
      have ei := hb _ _ hs.2
      have er := hb _ _ hs.1
      dsimp only at hli
      have hs2 : s < 2 := by
        obtain ⟨row, r1, r2⟩ := entry_some.1 ei
        have h3 := (eqcounter_shape heq).1
        have h4 : (bc.map List.length)[ki]? = some row.length := by rw [List.getElem?_map, r1]; rfl
        rw [h3, List.getElem?_map] at h4
        obtain ⟨row', r3, r4⟩ := Option.map_eq_some_iff.1 h4
        rw [hwf.width row' (List.mem_of_getElem? r3)] at r4
        have := (List.getElem?_eq_some_iff.1 r2).1
        omega
      have hki : DofEq bc neq ki s i := ⟨_, ei, by omega, i.2, .inl hli⟩
      obtain ⟨e1, e2⟩ := hJ p j i hp hi
      obtain ⟨e3, e4⟩ := hJ ki ⟨s, hs2⟩ i t1.1 hki
      obtain ⟨a, b, φ, a1, a2, a3, a4⟩ := cell_tie h1 hc hT hpr t1 t2 hs2 q
      obtain rfl : a = i := Fin.ext (dofEq_unique a1 hki)
      rw [phase_one.2 (hin pr hpr φ a3), one_mul] at a4
      obtain ⟨s1, s2, s3⟩ := hc.pairing.source _ hl
      dsimp only at s1 s2 s3
      have hbr : w.1 = ((b : ℕ) : ℤ) := by
        have := dofEq_unique a2 (i' := w.1.toNat) ⟨_, er, by omega, by omega, .inl (by omega)⟩
        omega
      rw [a4, hkept b (by rw [← hbr]; exact s1), (hJ kr ⟨s, hs2⟩ b t2.1 a2).1, ← e3, e1]
    · rw [hkept i him, (hJ p j i hp hi).1]
  · intro hin c q hq
    have hcz : c = 0 := by
      unfold InPhase at hin
      push Not at hin
      obtain ⟨p, hp, φ, hφ, hne⟩ := hin
      obtain ⟨i, r, hi, hr, -⟩ := hc.tied p hp
      funext j
      obtain ⟨a, b, φ', a1, a2, a3, a4⟩ := cell_tie h1 hc hT hp hi hr j.2 q
      obtain rfl := shift_unique hφ a3
      rw [hq i hi.1 j a a1, hq r hr.1 j b a2] at a4
      have : (1 - Complex.exp (Complex.I * (φ : ℂ))) * c j = 0 := by linear_combination a4
      rcases mul_eq_zero.1 this with h0 | h0
      · obtain ⟨t, ht⟩ := phase_one.1 (sub_eq_zero.1 h0).symm
        exact absurd ht (hne t)
      · exact h0
    refine ⟨hcz, C86_injective hT hc.pairing hc.onto ?_⟩
    rw [mulVec_zero]
    funext i
    obtain ⟨p, j, hf, hr⟩ := exists_free heq i.2
    rw [hq p (by rw [← hwf.size]; exact free_lt hf) ⟨j, hf.1⟩ i
      ⟨i, by rw [(free_entry heq hf).1, hr], by omega, i.2, .inl rfl⟩, hcz]
    rfl

/-- C115.  The reduced stiffness is positive definite exactly when the wave vector does not make whole turns across all pairs. -/
theorem C115_definite_iff (hs : SqrtFn sq) (h : SolidMesh sq d ms) (hwf : WellFormed d)
    (h1 : dme d.cons d.elements = .ok (op, bc, neq))
    (h2 : assembler (Uel.eleFun sq) d.elements d.mats d.nodes neq op = .ok (Kg, Mg))
    (hc : Cell d bc neq nodesRef nodesIma dofsRef dofsIma refDof imaDof newNum)
    (hT : blochTransformMat wave (d.nodes.map (List.drop 1)) neq nodesRef nodesIma dofsRef dofsIma refDof imaDof newNum = .ok T)
    (hsp : Spread d.nodes (nodesIma.zip nodesRef)) :
    (T.conjTranspose * Kg.map Complex.ofReal * T).PosDef ↔
      ¬ InPhase wave (d.nodes.map (List.drop 1)) (nodesIma.zip nodesRef) := by
  obtain ⟨hsym, hpsd⟩ := stiffness_psd hs h hwf h1 h2
  have hP := (map_posSemidef hsym hpsd).conjTranspose_mul_mul_same T
  obtain ⟨t1, t2⟩ := C115_translations hwf h1 hc hT
  have hnull := C115_null hs h hwf h1 h2 hc hT hsp
  constructor
  · intro hd hin
    obtain ⟨q, hq⟩ := t1 hin fun _ => 1
    have h0 := (hnull q).2 ⟨_, hq⟩
    obtain ⟨i, r, i', r', ⟨p, hp, hi, hr⟩, -⟩ := hsp
    obtain ⟨a, ha⟩ := dofEq_exists hc h1 hi.1 (j := 0) (by omega)
    have hq0 : q ≠ 0 := by
      rintro rfl
      have := hq i hi.1 0 a ha
      simp at this
    have := hd.dotProduct_mulVec_pos hq0
    rw [h0, dotProduct_zero] at this
    exact lt_irrefl _ this
  · intro hin
    refine .of_dotProduct_mulVec_pos hP.1 fun q hq => lt_of_le_of_ne (hP.dotProduct_mulVec_nonneg q) fun h0 => hq ?_
    obtain ⟨c, hc'⟩ := (hnull q).1 ((hP.dotProduct_mulVec_zero_iff q).1 h0.symm)
    exact (t2 hin c q hc').2

/-- C115.  For elements of positive density the values of the reduced eigenproblem are real and not negative, and zero only for
translations. -/
theorem C115_frequencies (hs : SqrtFn sq) (h : SolidMesh sq d ms) (hwf : WellFormed d) (hh : Heavy d)
    (h1 : dme d.cons d.elements = .ok (op, bc, neq))
    (h2 : assembler (Uel.eleFun sq) d.elements d.mats d.nodes neq op = .ok (Kg, Mg))
    (hc : Cell d bc neq nodesRef nodesIma dofsRef dofsIma refDof imaDof newNum)
    (hT : blochTransformMat wave (d.nodes.map (List.drop 1)) neq nodesRef nodesIma dofsRef dofsIma refDof imaDof newNum = .ok T)
    (hsp : Spread d.nodes (nodesIma.zip nodesRef)) {q : Fin (neq - dofsRef.length) → ℂ} (hq : q ≠ 0) {l : ℂ}
    (hl : (T.conjTranspose * Kg.map Complex.ofReal * T).mulVec q = l • (T.conjTranspose * Mg.map Complex.ofReal * T).mulVec q) :
    (∃ w : ℝ, 0 ≤ w ∧ l = w) ∧
    (l = 0 ↔ ∃ c : Fin 2 → ℂ, ∀ p < d.nodes.length, ∀ (j : Fin 2) (i : Fin neq), DofEq bc neq p j i → T.mulVec q i = c j) := by
  obtain ⟨hsym, hpsd⟩ := stiffness_psd hs h hwf h1 h2
  have hu : ∀ p j, Free d.cons 2 p j → ∃ el ∈ d.elements, ∃ id ∈ el.drop 3, Resolves d.nodes.length id p := by
    intro p j hf
    have hp : p < d.nodes.length := by rw [← hwf.size]; exact free_lt hf
    obtain ⟨m, hm, hpm⟩ := h.used p hp
    obtain ⟨e, he, rfl⟩ := List.mem_iff_getElem.1 hm
    have he' : e < d.elements.length := by rw [h.members.length_eq]; exact he
    obtain ⟨ty, mi, params, rows, f, kl, ml, -, -, -, h5, -⟩ := h.members.get (i := e) he' he
    obtain ⟨a, ha, rfl⟩ := List.mem_iff_getElem.1 hpm
    have ha' := lt_of_lt_of_eq ha h5.length_eq.symm
    exact ⟨_, List.getElem_mem he', _, List.getElem_mem ha', h5.get (i := a) ha' ha⟩
  obtain ⟨msym, mpos⟩ := mass_pd hwf hh h1 h2 hu
  have hP := (map_posSemidef hsym hpsd).conjTranspose_mul_mul_same T
  have hM := C88_definite hT hc.pairing hc.onto (map_posDef msym mpos)
  refine ⟨eigen_nonneg hP hM hq hl, ?_⟩
  rw [← C115_null hs h hwf h1 h2 hc hT hsp, hl]
  constructor
  · rintro rfl
    rw [zero_smul]
  · intro h0
    rcases smul_eq_zero.1 h0 with h0 | h0
    · exact h0
    · have := hM.dotProduct_mulVec_pos hq
      rw [h0, dotProduct_zero] at this
      exact absurd this (lt_irrefl _)

/-- C115.  A wave and the conjugate wave at the opposite wave vector have the same value. -/
theorem C115_opposite {coords : List (List ℝ)}
    (hT : blochTransformMat wave coords neq nodesRef nodesIma dofsRef dofsIma refDof imaDof newNum = .ok T) (A B : Matrix (Fin neq) (Fin neq) ℝ)
    {q : Fin (neq - dofsRef.length) → ℂ} {w : ℝ}
    (hl : (T.conjTranspose * A.map Complex.ofReal * T).mulVec q = (w : ℂ) • (T.conjTranspose * B.map Complex.ofReal * T).mulVec q) :
    ∃ T' : Matrix (Fin neq) (Fin (neq - dofsRef.length)) ℂ,
      blochTransformMat (wave.map fun x => -x) coords neq nodesRef nodesIma dofsRef dofsIma refDof imaDof newNum = .ok T' ∧
      (T'.conjTranspose * A.map Complex.ofReal * T').mulVec (star q) =
        (w : ℂ) • (T'.conjTranspose * B.map Complex.ofReal * T').mulVec (star q) := by
  obtain ⟨T1, e1, e2⟩ := C88_opposite hT A
  obtain ⟨T2, e3, e4⟩ := C88_opposite hT B
  rw [e1, Except.ok.injEq] at e3
  subst e3
  refine ⟨T1, e1, ?_⟩
  rw [e2, e4]
  have conj : ∀ P : Matrix (Fin (neq - dofsRef.length)) (Fin (neq - dofsRef.length)) ℂ,
      (P.map (starRingEnd ℂ)).mulVec (star q) = star (P.mulVec q) := by
    intro P
    funext i
    simp [Matrix.mulVec, dotProduct, mul_comm]
  rw [conj, conj, hl, star_smul]
  congr 1
  simp

end

theorem freeSquare_rows {loads : Table ℝ} {op bc : List (List ℤ)} {neq : ℕ}
    (h1 : dme (freeSquare loads).cons (freeSquare loads).elements = .ok (op, bc, neq)) :
    bc = [[0, 1], [2, 3], [4, 5], [6, 7]] ∧ neq = 8 := by
  have h2 := eqcounter_ok (dme_ok.1 h1).1
  have h3 : truncTab (freeSquare loads).cons = [[0, 0], [0, 0], [0, 0], [0, 0]] := by
    simp [freeSquare, truncTab, pyTrunc]
  rw [h3] at h2
  have h4 : numberRows 2 [[0, 0], [0, 0], [0, 0], [0, 0]] 0 = .ok ([[0, 1], [2, 3], [4, 5], [6, 7]], 8) := by decide +kernel
  rw [h4] at h2
  simpa [eq_comm] using h2

open scoped ComplexOrder in
/-- The square of side 2 as a cell: the first node is the reference of the others.  With the wave vector `(k, 0)` its reduced
stiffness is positive definite exactly when `2k` is not a multiple of the full turn. -/
example (k : ℝ) : ∃ op bc, ∃ Kg Mg : Matrix (Fin 8) (Fin 8) ℝ, ∃ T : Matrix (Fin 8) (Fin (8 - [0, 1, 0, 1, 0, 1].length)) ℂ,
    dme (freeSquare []).cons (freeSquare []).elements = .ok (op, bc, 8) ∧
    assembler (Uel.eleFun Real.sqrt) (freeSquare []).elements (freeSquare []).mats (freeSquare []).nodes 8 op = .ok (Kg, Mg) ∧
    blochTransformMat [k, 0] ((freeSquare []).nodes.map (List.drop 1)) 8 [0, 0, 0] [1, 2, 3] [0, 1, 0, 1, 0, 1]
      [2, 3, 4, 5, 6, 7] (fun z => if z = 0 then some [0, 1] else none)
      (fun z => if z = 1 then some [2, 3] else if z = 2 then some [4, 5] else if z = 3 then some [6, 7] else none)
      [0, 1, 0, 1, 0, 1, 0, 1] = .ok T ∧
    ((T.conjTranspose * Kg.map Complex.ofReal * T).PosDef ↔ ∀ t : ℤ, 2 * k ≠ t * (2 * Real.pi)) ∧ Heavy (freeSquare []) := by
  obtain ⟨ms, hm⟩ := freeSquare_mesh []
  have hwf := freeSquare_wf []
  obtain ⟨op, bc, neq, Kg, Mg, h1, h2⟩ := plane_assembly hm.plane hwf hm.members
  obtain ⟨rfl, rfl⟩ := freeSquare_rows h1
  obtain ⟨i0, r0⟩ := (freeSquare_grid []).row (r := 0) (c := 0) (by omega) (by omega)
  obtain ⟨i1, r1⟩ := (freeSquare_grid []).row (r := 0) (c := 1) (by omega) (by omega)
  obtain ⟨i2, r2⟩ := (freeSquare_grid []).row (r := 1) (c := 0) (by omega) (by omega)
  obtain ⟨i3, r3⟩ := (freeSquare_grid []).row (r := 1) (c := 1) (by omega) (by omega)
  have hlen : (freeSquare []).nodes.length = 4 := by rw [(freeSquare_grid []).size]
  have hn : (freeSquare []).nodes = [[i0, -1, -1], [i1, 1, -1], [i2, -1, 1], [i3, 1, 1]] := by
    apply List.ext_getElem?
    intro v
    rcases (by omega : v = 0 ∨ v = 1 ∨ v = 2 ∨ v = 3 ∨ 4 ≤ v) with rfl | rfl | rfl | rfl | hv
    · refine Eq.trans r0 ?_
      norm_num
    · refine Eq.trans r1 ?_
      norm_num
    · refine Eq.trans r2 ?_
      norm_num
    · refine Eq.trans r3 ?_
      norm_num
    · rw [List.getElem?_eq_none (by omega), List.getElem?_eq_none (by simpa using hv)]
  have hc : Cell (freeSquare []) [[0, 1], [2, 3], [4, 5], [6, 7]] 8 [0, 0, 0] [1, 2, 3] [0, 1, 0, 1, 0, 1]
      [2, 3, 4, 5, 6, 7] (fun z => if z = 0 then some [0, 1] else none)
      (fun z => if z = 1 then some [2, 3] else if z = 2 then some [4, 5] else if z = 3 then some [6, 7] else none)
      [0, 1, 0, 1, 0, 1, 0, 1] := by
    refine ⟨?_, ?_, ⟨by decide, by decide, by decide, by decide⟩, by decide, ?_⟩
    · intro p hp j hj
      rw [hlen] at hp
      refine ⟨hj, 0, ?_, by norm_num, by norm_num⟩
      rcases (by omega : p = 0 ∨ p = 1 ∨ p = 2 ∨ p = 3) with rfl | rfl | rfl | rfl <;>
        rcases (by omega : j = 0 ∨ j = 1) with rfl | rfl <;> rfl
    · rw [hlen]
      intro p hp
      have : p = (1, 0) ∨ p = (2, 0) ∨ p = (3, 0) := by simpa using hp
      rcases this with rfl | rfl | rfl
      · exact ⟨1, 0, by decide, by decide, rfl, rfl⟩
      · exact ⟨2, 0, by decide, by decide, rfl, rfl⟩
      · exact ⟨3, 0, by decide, by decide, rfl, rfl⟩
    · intro e e' he he' hk hk'
      have h0 : ∀ e : ℕ, e < 8 → (e : ℤ) ∉ [(2 : ℤ), 3, 4, 5, 6, 7] → e = 0 ∨ e = 1 := by decide
      rcases h0 e he hk with rfl | rfl <;> rcases h0 e' he' hk' with rfl | rfl <;> simp
  have hT : ∃ T, blochTransformMat [k, 0] ((freeSquare []).nodes.map (List.drop 1)) 8 [0, 0, 0] [1, 2, 3] [0, 1, 0, 1, 0, 1]
      [2, 3, 4, 5, 6, 7] (fun z => if z = 0 then some [0, 1] else none)
      (fun z => if z = 1 then some [2, 3] else if z = 2 then some [4, 5] else if z = 3 then some [6, 7] else none)
      [0, 1, 0, 1, 0, 1, 0, 1] = .ok T := by
    rw [hn]
    exact ⟨_, rfl⟩
  obtain ⟨T, hT⟩ := hT
  refine ⟨op, _, Kg, Mg, T, h1, h2, hT, ?_, ?_⟩
  case refine_2 =>
    intro el hel
    have hel : el = [0, 1, 0, 0, 1, 3, 2] := by
      have h5 : (freeSquare []).elements = [[0, 1, 0, 0, 1, 3, 2]] := rfl
      rw [h5] at hel
      simpa using hel
    subst hel
    exact ⟨1, 0, 0, 1000, 1 / 4, [], rfl, by simp, rfl, ⟨by simp [freeSquare, tensionPlate], .inl rfl⟩, rfl, by simp⟩
  rw [C115_definite_iff sqrtFn_real hm hwf h1 h2 hc hT ?_]
  · rw [hn]
    have hsh : ∀ (i r : ℤ) (φ : ℝ) (a b : ℕ) (x y : List ℝ), Resolves 4 i a → Resolves 4 r b →
        [[(-1 : ℝ), -1], [1, -1], [-1, 1], [1, 1]][a]? = some x → [[(-1 : ℝ), -1], [1, -1], [-1, 1], [1, 1]][b]? = some y →
        x.length = 2 → y.length = 2 →
        (Shift [k, 0] [[(-1 : ℝ), -1], [1, -1], [-1, 1], [1, 1]] i r φ ↔ φ = k * (x.getD 0 0 - y.getD 0 0)) := by
      intro i r φ a b x y ha hb hx hy lx ly
      have hself : Shift [k, 0] [[(-1 : ℝ), -1], [1, -1], [-1, 1], [1, 1]] i r (k * (x.getD 0 0 - y.getD 0 0)) :=
        ⟨a, b, x, y, ha, hb, hx, hy, by simp [lx, ly], by
          show _ = ∑ t : Fin 2, _
          rw [Fin.sum_univ_two]
          simp⟩
      exact ⟨fun h => shift_unique h hself, fun h => h ▸ hself⟩
    show ¬ InPhase [k, 0] [[(-1 : ℝ), -1], [1, -1], [-1, 1], [1, 1]] [(1, 0), (2, 0), (3, 0)] ↔ _
    have e1 := fun φ => hsh 1 0 φ 1 0 _ _ (by decide) (by decide) rfl rfl rfl rfl
    have e2 := fun φ => hsh 2 0 φ 2 0 _ _ (by decide) (by decide) rfl rfl rfl rfl
    have e3 := fun φ => hsh 3 0 φ 3 0 _ _ (by decide) (by decide) rfl rfl rfl rfl
    simp only [List.getD_cons_zero] at e1 e2 e3
    unfold InPhase
    simp only [List.forall_mem_cons, e1, e2, e3, forall_eq]
    have z : (1 : ℝ) - -1 = 2 := by norm_num
    rw [z, sub_self, mul_zero, mul_comm k 2]
    constructor
    · intro h t ht
      exact h ⟨⟨t, ht⟩, ⟨0, by simp⟩, ⟨t, ht⟩, by simp⟩
    · rintro h ⟨⟨t, ht⟩, -⟩
      exact h t ht
  · rw [hn]
    refine ⟨1, 0, 2, 0, ⟨(1, 0), by simp, by simp [Resolves], by simp [Resolves]⟩,
      ⟨(2, 0), by simp, by simp [Resolves], by simp [Resolves]⟩, ?_, ?_, ?_⟩
    · left
      simp [coordOf, fieldOf, entry]
      norm_num
    · right
      simp [coordOf, fieldOf, entry]
      norm_num
    · left
      simp [coordOf, fieldOf, entry]
      norm_num

end SolidsPy
