import Verif.Props.UserEnergy
import Verif.Props.AxiBodies
import Verif.Props.Compare
import Verif.Props.AxiAccepted

/-! # C157: vibration of models of the user's own elements -/

set_option linter.unusedSectionVars false

namespace SolidsPy
open Spec Assem Matrix Uel

section
variable {K : Type} [Field K] [LinearOrder K] [IsStrictOrderedRing K] [FloorRing K]
variable {f : Uel K} {tab : ℤ → Py (Uel K)} {nd n m : ℕ} {cons mats nodes : Table K} {elements : List (List ℤ)}
  {μs : List (Member K)} {op bc : List (List ℤ)} {neq : ℕ} {count : ℤ → Py ℕ}

/-- The element with the mass that the routine `f` gives it. -/
def Spec.Weighs (f : Uel K) (mats nodes : Table K) : List ℤ → Member K → Prop := Describes (swapped f) mats nodes

/-- Every element has positive mass: the kinetic energy vanishes only if its nodes are at rest. -/
def Spec.DefiniteElements (nd : ℕ) (μs : List (Member K)) : Prop :=
  ∀ m ∈ μs, ∀ V : ℕ → ℕ → K, 0 ≤ m.form nd V V ∧ (m.form nd V V = 0 → ∀ p ∈ m.nodes, ∀ j < nd, V p j = 0)

theorem user_mass_setup (hf : ElementOf nd n f) (hu : UserModel nd n cons nodes elements) (hc : Counts count (n * nd) elements)
    (h0 : 0 < n * nd) (hm : n * nd ≤ m) (h1 : dme cons elements nd m (some count) = .ok (op, bc, neq)) {sparse : Bool}
    {Kg Mg : Matrix (Fin neq) (Fin neq) K} (h2 : assembler tab elements mats nodes neq op sparse (some f) = .ok (Kg, Mg)) :
    ∃ μs, Setup (fun _ g => g = swapped f) cons elements mats nodes nd neq bc Mg μs := by
  obtain ⟨loc, opr, a1, a2⟩ := assembler_scatter h2
  refine setup_of_scatter (g := Prod.snd) (fun ty g coord params r hg h => ?_) h1 hu.codes hu.width hu.size (by omega) a1
    (fun i j => (a2 i j).2) ?_
  · rcases hg with hg | ⟨hg, -⟩
    · obtain rfl : f = g := by simpa using hg
      exact ⟨swapped f, r.1, rfl, swapped_ok.2 h⟩
    · cases hg
  · intro el hel ty g coord params kl ml hty h hcl hk
    rcases h with h | ⟨h, _⟩
    · obtain rfl : f = g := by simpa using h
      rw [hu.typed el hel] at hcl ⊢
      obtain ⟨⟨M, rfl⟩, -⟩ := hf _ _ _ _ hcl hk
      obtain ⟨ty', h3, h4⟩ := hc el hel
      rw [hty, Option.some.injEq] at h3
      subst h3
      exact ⟨mul_comm _ _, _, h0, h4⟩
    · cases h

theorem describes_used {ms : List (Member K)} (hms : List.Forall₂ (Describes f mats nodes) elements ms) (p : ℕ) :
    (∃ m ∈ ms, p ∈ m.nodes) ↔ ∃ el ∈ elements, ∃ id ∈ el.drop 3, Resolves nodes.length id p := by
  have hns : ∀ {el m}, Describes f mats nodes el m → List.Forall₂ (Resolves nodes.length) (el.drop 3) m.nodes := by
    rintro el m ⟨ty, mi, params, rows, f, kl, ml, -, -, -, a5, -⟩
    exact a5
  constructor
  · rintro ⟨m, hm, hp⟩
    obtain ⟨el, hel, hd⟩ := described hms hm
    have h5 := hns hd
    obtain ⟨a, ha, rfl⟩ := List.mem_iff_getElem.1 hp
    have ha' := lt_of_lt_of_eq ha h5.length_eq.symm
    exact ⟨_, hel, _, List.getElem_mem ha', h5.get (i := a) ha' ha⟩
  · rintro ⟨el, hel, id, hid, hr⟩
    obtain ⟨e, he', rfl⟩ := List.mem_iff_getElem.1 hel
    have he : e < ms.length := by rw [← hms.length_eq]; exact he'
    have h5 := hns (hms.get (i := e) he' he)
    obtain ⟨a, ha', rfl⟩ := List.mem_iff_getElem.1 hid
    have ha := lt_of_lt_of_eq ha' h5.length_eq
    refine ⟨_, List.getElem_mem he, ?_⟩
    rw [resolves_unique hr (h5.get (i := a) ha' ha)]
    exact List.getElem_mem ha

/-- C157.  If every element has positive mass, the assembled mass matrix is positive definite exactly when every node that can move
belongs to an element. -/
theorem C157_definite_iff (hf : ElementOf nd n f) (hu : UserModel nd n cons nodes elements) (hc : Counts count (n * nd) elements)
    (h0 : 0 < n * nd) (hm : n * nd ≤ m) (hμ : List.Forall₂ (Weighs f mats nodes) elements μs) (hpos : DefiniteElements nd μs)
    (h1 : dme cons elements nd m (some count) = .ok (op, bc, neq)) {sparse : Bool}
    {Kg Mg : Matrix (Fin neq) (Fin neq) K} (h2 : assembler tab elements mats nodes neq op sparse (some f) = .ok (Kg, Mg)) :
    (∀ v : Fin neq → K, v ≠ 0 → 0 < v ⬝ᵥ Mg.mulVec v) ↔
      ∀ p j, Free cons nd p j → ∃ el ∈ elements, ∃ id ∈ el.drop 3, Resolves nodes.length id p := by
  obtain ⟨μs', s⟩ := user_mass_setup hf hu hc h0 hm h1 h2
  obtain rfl := describes_all_unique hμ s.mem
  have hused := describes_used hμ
  unfold dotProduct
  constructor
  · intro h p j hf
    by_contra hno
    rw [← hused] at hno
    push Not at hno
    have hV : Admissible cons nd fun p' j' => if p' = p ∧ j' = j then (1 : K) else 0 := by
      intro p' j' _ _ hnf
      refine if_neg ?_
      rintro ⟨rfl, rfl⟩
      exact hnf hf
    obtain ⟨v, hv⟩ := exists_reduced s.eq s.valid hV
    have h0 := reduced_form s hv hv
    have hz : ∀ m ∈ μs, m.form nd (fun p' j' => if p' = p ∧ j' = j then (1 : K) else 0)
        (fun p' j' => if p' = p ∧ j' = j then (1 : K) else 0) = 0 := by
      intro m hm
      refine Finset.sum_eq_zero fun a ha => Finset.sum_eq_zero fun j' _ => ?_
      rw [Finset.mem_range] at ha
      dsimp only
      rw [if_neg, zero_mul]
      rintro ⟨h6, -⟩
      rw [List.getD_eq_getElem?_getD, List.getElem?_eq_getElem ha, Option.getD_some] at h6
      exact hno m hm (h6 ▸ List.getElem_mem ha)
    rw [List.map_congr_left hz] at h0
    have hv0 : v ≠ 0 := by
      rintro rfl
      rcases free_or_fixed s.eq s.valid (free_lt hf) hf.1 with ⟨_, i, hi, _⟩ | ⟨hnf, _⟩
      · have := (hv p (free_lt hf) j hf.1).1 i hi
        simp at this
      · exact hnf hf
    have := h v hv0
    rw [h0] at this
    simp at this
  · intro h v hv
    obtain ⟨V, hV⟩ := exists_completes (cons := cons) bc nd v
    rw [reduced_form s hV hV]
    refine lt_of_le_of_ne (List.sum_nonneg fun y hy => ?_) fun h0 => hv ?_
    · obtain ⟨m, hm, rfl⟩ := List.mem_map.1 hy
      exact (hpos m hm V).1
    · have hz := (sum_pos_zero fun m hm => (hpos m hm V).1).1 h0.symm
      funext i
      obtain ⟨p, j, hf, hr⟩ := exists_free s.eq i.2
      have hi : DofEq bc neq p j i := ⟨i, by rw [(free_entry s.eq hf).1, hr], by omega, i.2, Or.inl rfl⟩
      rw [← (hV p (free_lt hf) j hf.1).1 i hi]
      obtain ⟨m, hm, hp⟩ := (hused p).2 (h p j hf)
      exact (hpos m hm V).2 (hz m hm) p hp j hf.1

end

/-- A model of the user's elements whose stiffness and mass matrices were assembled: symmetric elements of positive mass, and every node
that can move belongs to an element. -/
structure Spec.UserVibration (tab : ℤ → Py (Uel ℝ)) (nd n m : ℕ) (f : Uel ℝ) (count : ℤ → Py ℕ) (cons : Table ℝ) (elements : List (List ℤ))
    (mats nodes : Table ℝ) (ks μs : List (Member ℝ)) {neq : ℕ} (Kg Mg : Matrix (Fin neq) (Fin neq) ℝ) : Prop where
  element : ElementOf nd n f
  model : UserModel nd n cons nodes elements
  counts : Counts count (n * nd) elements
  some_dofs : 0 < n * nd
  room : n * nd ≤ m
  springs : List.Forall₂ (Describes f mats nodes) elements ks
  masses : List.Forall₂ (Weighs f mats nodes) elements μs
  symmetric : SymmetricElements nd ks
  reciprocal : SymmetricElements nd μs
  massive : DefiniteElements nd μs
  used : ∀ p j, Free cons nd p j → ∃ el ∈ elements, ∃ id ∈ el.drop 3, Resolves nodes.length id p
  run : ∃ op bc sparse, dme cons elements nd m (some count) = .ok (op, bc, neq) ∧
    assembler tab elements mats nodes neq op sparse (some f) = .ok (Kg, Mg)

section
variable {f f' : Uel ℝ} {tab tab' : ℤ → Py (Uel ℝ)} {nd n m n' m' : ℕ} {cons cons' mats mats' nodes nodes' : Table ℝ}
  {elements elements' : List (List ℤ)} {ks μs ks' μs' : List (Member ℝ)} {neq neq' : ℕ} {count count' : ℤ → Py ℕ}
  {Kg Mg : Matrix (Fin neq) (Fin neq) ℝ} {Kg' Mg' : Matrix (Fin neq') (Fin neq') ℝ}
  {w : Fin neq → ℝ} {φ : Fin neq → Fin neq → ℝ} {w' : Fin neq' → ℝ} {φ' : Fin neq' → Fin neq' → ℝ}

theorem Spec.UserVibration.setups (h : UserVibration tab nd n m f count cons elements mats nodes ks μs Kg Mg) :
    ∃ bc, Setup (fun _ g => g = f) cons elements mats nodes nd neq bc Kg ks ∧
      Setup (fun _ g => g = swapped f) cons elements mats nodes nd neq bc Mg μs := by
  obtain ⟨op, bc, sparse, h1, h2⟩ := h.run
  obtain ⟨ks', s⟩ := user_setup h.element h.model h.counts h.some_dofs h.room h1 h2
  obtain ⟨μs', s'⟩ := user_mass_setup h.element h.model h.counts h.some_dofs h.room h1 h2
  obtain rfl := describes_all_unique h.springs s.mem
  obtain rfl := describes_all_unique h.masses s'.mem
  exact ⟨bc, s, s'⟩

theorem Spec.UserVibration.mass (h : UserVibration tab nd n m f count cons elements mats nodes ks μs Kg Mg) :
    Kg.IsSymm ∧ Mg.IsSymm ∧ ∀ v, v ≠ 0 → 0 < v ⬝ᵥ Mg.mulVec v := by
  obtain ⟨bc, s, s'⟩ := h.setups
  obtain ⟨op, bc, sparse, h1, h2⟩ := h.run
  exact ⟨assembled_symm s (form_symm_of h.symmetric), assembled_symm s' (form_symm_of h.reciprocal),
    (C157_definite_iff h.element h.model h.counts h.some_dofs h.room h.masses h.massive h1 h2).2 h.used⟩

/-- C157.  The assembled pair has as many real modes as equations, orthonormal in the mass, and no other frequencies. -/
theorem C157_modes (h : UserVibration tab nd n m f count cons elements mats nodes ks μs Kg Mg) : ∃ w φ, Modes Kg Mg w φ ∧
    (∀ v : Fin neq → ℝ, v = ∑ k, (φ k ⬝ᵥ Mg.mulVec v) • φ k) ∧
    ∀ t, (∃ v, v ≠ 0 ∧ Kg.mulVec v = t • Mg.mulVec v) ↔ ∃ k, w k = t := by
  obtain ⟨w, φ, hm⟩ := exists_modes h.mass.1 h.mass.2.1 h.mass.2.2
  exact ⟨w, φ, hm, hm.expand, hm.eigen_iff⟩

/-- C157.  Courant and Fischer's principle: the squared frequency number `k` is at most `t` exactly when some `k + 1` independent
admissible fields have, in all their combinations, at most `t` times as much energy in the springs as in the masses. -/
theorem C157_minmax (h : UserVibration tab nd n m f count cons elements mats nodes ks μs Kg Mg) (hm : Modes Kg Mg w φ) (k : Fin neq)
    (t : ℝ) : w k ≤ t ↔ Slow cons nd ks μs t (k + 1) := by
  obtain ⟨bc, s, s'⟩ := h.setups
  exact slow_iff s s' hm h.mass.2.1 k t

/-- C157.  Two orthonormal systems of modes have the same frequencies. -/
theorem C157_unique (h : UserVibration tab nd n m f count cons elements mats nodes ks μs Kg Mg) (hm : Modes Kg Mg w φ) {w₂ φ₂}
    (hm' : Modes Kg Mg w₂ φ₂) : w = w₂ :=
  funext fun k => le_antisymm ((C157_minmax h hm k _).2 ((C157_minmax h hm' k _).1 le_rfl))
    ((C157_minmax h hm' k _).2 ((C157_minmax h hm k _).1 le_rfl))

/-- C157.  If no displacement gives an element negative energy, no squared frequency is negative. -/
theorem C157_nonneg (h : UserVibration tab nd n m f count cons elements mats nodes ks μs Kg Mg) (he : ElasticElements nd ks)
    (hm : Modes Kg Mg w φ) (k : Fin neq) : 0 ≤ w k := by
  rw [← Modes.quotient hm k]
  obtain ⟨bc, s, s'⟩ := h.setups
  obtain ⟨V, hV⟩ := exists_completes (cons := cons) bc nd (φ k)
  unfold dotProduct
  rw [reduced_form s hV hV]
  refine List.sum_nonneg fun y hy => ?_
  obtain ⟨m, hm, rfl⟩ := List.mem_map.1 hy
  exact he m hm V

/-- C157.  All frequencies are positive exactly when the supports hold the model. -/
theorem C157_positive_iff (h : UserVibration tab nd n m f count cons elements mats nodes ks μs Kg Mg) (he : ElasticElements nd ks)
    (hm : Modes Kg Mg w φ) : (∀ k, 0 < w k) ↔ Stable cons nd ks := by
  obtain ⟨bc, s, s'⟩ := h.setups
  have e : (∀ k, 0 < w k) ↔ ¬ ∃ k, w k = 0 := by
    constructor
    · rintro h0 ⟨k, hk⟩
      exact (h0 k).ne' hk
    · intro h0 k
      exact lt_of_le_of_ne (C157_nonneg h he hm k) fun hk => h0 ⟨k, hk.symm⟩
  rw [e, ← hm.eigen_iff]
  constructor
  · intro h0
    refine stable_of_det_ne_zero s fun hd => h0 ?_
    obtain ⟨v, hv, hz⟩ := Matrix.exists_mulVec_eq_zero_iff.2 hd
    exact ⟨v, hv, by rw [hz, zero_smul]⟩
  · rintro hst ⟨v, hv, hz⟩
    exact det_ne_zero_of_stable s hst (Matrix.exists_mulVec_eq_zero_iff.1 ⟨v, hv, by rw [hz, zero_smul]⟩)

/-- C157.  Further supports, stiffer elements and lighter elements never lower a frequency. -/
theorem C157_compare (h : UserVibration tab nd n m f count cons elements mats nodes ks μs Kg Mg) (hm : Modes Kg Mg w φ)
    (h' : UserVibration tab' nd n' m' f' count' cons' elements' mats' nodes' ks' μs' Kg' Mg') (hm' : Modes Kg' Mg' w' φ')
    (he' : ElasticElements nd ks') (hl : nodes'.length = nodes.length) (hc : ∀ p j, Free cons' nd p j → Free cons nd p j)
    (hk : ∀ u, energyOf nd ks u ≤ energyOf nd ks' u) (hμ : ∀ u, energyOf nd μs' u ≤ energyOf nd μs u)
    (k : Fin neq) (k' : Fin neq') (hkk : (k : ℕ) = k') : w k ≤ w' k' := by
  have hl' : cons'.length = cons.length := by rw [h'.model.size, h.model.size, hl]
  have h0 := C157_nonneg h' he' hm' k'
  rw [C157_minmax h hm, hkk]
  obtain ⟨u, h1, h2, h3⟩ := (C157_minmax h' hm' k' _).1 le_rfl
  refine ⟨u, fun a p j hp hj hf => h1 a p j (by rw [hl']; exact hp) hj fun hf' => hf (hc p j hf'), fun c hc => h2 c (by rw [hl']; exact hc),
    fun c => ?_⟩
  exact (hk _).trans ((h3 c).trans (mul_le_mul_of_nonneg_left (hμ _) h0))

/-- C157.  The static response to a load is the sum of the responses of the modes. -/
theorem C157_static (h : UserVibration tab nd n m f count cons elements mats nodes ks μs Kg Mg) (he : ElasticElements nd ks)
    (hm : Modes Kg Mg w φ) (hst : Stable cons nd ks) {u q : Fin neq → ℝ} : Kg.mulVec u = q ↔ u = ∑ k, (φ k ⬝ᵥ q / w k) • φ k := by
  have hpos := (C157_positive_iff h he hm).2 hst
  obtain ⟨bc, s, s'⟩ := h.setups
  have hK := h.mass.1
  have key : ∀ u k, φ k ⬝ᵥ Kg.mulVec u = w k * (φ k ⬝ᵥ Mg.mulVec u) := by
    intro u k
    rw [dotProduct_symm hK, hm.motion, dotProduct_smul, smul_eq_mul, dotProduct_symm h.mass.2.1]
  have one : ∀ u, u = ∑ k, (φ k ⬝ᵥ Kg.mulVec u / w k) • φ k := by
    intro u
    conv_lhs => rw [hm.expand u]
    refine Finset.sum_congr rfl fun k _ => ?_
    rw [key, mul_div_cancel_left₀ _ (hpos k).ne']
  constructor
  · rintro rfl
    exact one u
  · intro hu
    obtain ⟨u', hu'⟩ : ∃ u', Kg.mulVec u' = q := by
      have hd := det_ne_zero_of_stable s hst
      exact ⟨Kg⁻¹.mulVec q, by rw [Matrix.mulVec_mulVec, Matrix.mul_nonsing_inv _ (isUnit_iff_ne_zero.2 hd), Matrix.one_mulVec]⟩
    have := one u'
    rw [hu', ← hu] at this
    rw [← this, hu']

/-! ## Bodies in space -/

/-- `r` independent rigid motions in space that the supports allow. -/
def Spec.FreeScrews (cons nodes : List (List ℝ)) (r : ℕ) : Prop :=
  ∃ g : Fin r → Screw ℝ, (∀ a, Admissible cons 3 ((g a).move nodes)) ∧
    ∀ c : Fin r → ℝ, (∀ i, ∑ a, c a * (g a).shift i = 0) → (∀ i, ∑ a, c a * (g a).spin i = 0) → c = 0

theorem screw_sum {r : ℕ} (g : Fin r → Screw ℝ) (c : Fin r → ℝ) (nodes : Table ℝ) (p j : ℕ) :
    ∑ a, c a * (g a).move nodes p j =
      (⟨fun i => ∑ a, c a * (g a).shift i, fun i => ∑ a, c a * (g a).spin i⟩ : Screw ℝ).move nodes p j := by
  unfold Screw.move
  split
  · simp only [mul_sub, mul_add, Finset.sum_sub_distrib, Finset.sum_add_distrib, Finset.sum_mul, mul_assoc]
  · split <;> simp only [mul_sub, mul_add, Finset.sum_sub_distrib, Finset.sum_add_distrib, Finset.sum_mul, mul_assoc]

theorem screw_zero (nodes : Table ℝ) (p j : ℕ) : (⟨fun _ => 0, fun _ => 0⟩ : Screw ℝ).move nodes p j = 0 := by
  unfold Screw.move
  split <;> [skip; split] <;> simp

variable {a b c : ℕ}

theorem solid_elastic (h : SolidBody n f elements mats nodes ks) : ElasticElements 3 ks := by
  intro mb hm u
  obtain ⟨el, hel, hd⟩ := described h.members hm
  obtain ⟨mi, q, params, X, k, mm, a1, a2, a3, hr, hpl⟩ := member_placed3 h.element hd
  obtain ⟨E, nu, ρ, rfl, hE, hn1, hn2, hρ⟩ := h.elastic el hel mi q params a1 a2 a3
  rw [hpl.form]
  exact (C39_solid_semidefinite h.element hr hE.le hn1 hn2 hρ _).1

/-- C157.  A body in one piece has as many zero frequencies as its supports leave independent rigid motions. -/
theorem C157_zero_iff (h : UserVibration tab 3 n m f count cons elements mats nodes ks μs Kg Mg)
    (hb : SolidBody n f elements mats nodes ks) (hm : Modes Kg Mg w φ) (ha : a < nodes.length) (hb' : b < nodes.length)
    (hc' : c < nodes.length) (hbent : Bent nodes a b c) (k : Fin neq) : w k = 0 ↔ FreeScrews cons nodes (k + 1) := by
  have hne : ks ≠ [] := by
    obtain ⟨m, hm, -⟩ := hb.used a ha
    exact List.ne_nil_of_mem hm
  have hpsd := solid_elastic hb
  have hsz := h.model.size
  have e : w k = 0 ↔ w k ≤ 0 := ⟨fun h => h.le, fun h0 => le_antisymm h0 (C157_nonneg h hpsd hm k)⟩
  rw [e, C157_minmax h hm]
  constructor
  · rintro ⟨u, hu, hi, hq⟩
    have hz : ∀ a, ∃ g : Screw ℝ, ∀ p < nodes.length, ∀ j < 3, u a p j = g.move nodes p j := by
      intro a
      rw [← C136_zero_energy hb hne]
      have h0 := hq (Pi.single a 1)
      have e1 : (fun p j => ∑ b, (Pi.single a 1 : Fin (k + 1) → ℝ) b * u b p j) = u a := by
        funext p j
        rw [Finset.sum_eq_single a (by intro b _ hb; simp [hb]) (by simp)]
        simp
      rw [e1, zero_mul] at h0
      exact (sum_pos_zero fun m hm => hpsd m hm (u a)).1 (le_antisymm h0 (List.sum_nonneg fun y hy => by
        obtain ⟨m, hm, rfl⟩ := List.mem_map.1 hy
        exact hpsd m hm _))
    choose g hg using hz
    refine ⟨g, fun a p j hp hj hf => ?_, fun c hx hy => hi c fun p hp j hj => ?_⟩
    · rw [← hg a p (by rw [← hsz]; exact hp) j hj]
      exact hu a p j hp hj hf
    · rw [Finset.sum_congr rfl fun a _ => by rw [hg a p (by rw [← hsz]; exact hp) j hj], screw_sum]
      simp only [hx, hy]
      exact screw_zero nodes p j
  · rintro ⟨g, hg, hi⟩
    refine ⟨fun a => (g a).move nodes, hg, fun d hd => ?_, fun d => ?_⟩
    · simp only [screw_sum] at hd
      have := screw_ext (g := ⟨fun i => ∑ a, d a * (g a).shift i, fun i => ∑ a, d a * (g a).spin i⟩) (g' := ⟨fun _ => 0, fun _ => 0⟩) hbent
        (fun j hj => by rw [hd a (by rw [hsz]; exact ha) j hj, screw_zero])
        (fun j hj => by rw [hd b (by rw [hsz]; exact hb') j hj, screw_zero])
        (fun j hj => by rw [hd c (by rw [hsz]; exact hc') j hj, screw_zero])
      rw [Screw.mk.injEq] at this
      exact hi d (congrFun this.1) (congrFun this.2)
    · rw [zero_mul]
      apply le_of_eq
      simp only [screw_sum]
      refine List.sum_eq_zero fun y hy => ?_
      obtain ⟨m, hm, rfl⟩ := List.mem_map.1 hy
      obtain ⟨el, -, hd⟩ := described hb.members hm
      exact solid_form_screw hb.element hd _

/-- C157.  A body in one piece without supports has exactly six zero frequencies. -/
theorem C157_floating (h : UserVibration tab 3 n m f count cons elements mats nodes ks μs Kg Mg)
    (hb : SolidBody n f elements mats nodes ks) (hm : Modes Kg Mg w φ) (ha : a < nodes.length) (hb' : b < nodes.length)
    (hc' : c < nodes.length) (hbent : Bent nodes a b c) (hfree : ∀ p < nodes.length, ∀ j < 3, Free cons 3 p j) (k : Fin neq) :
    w k = 0 ↔ (k : ℕ) < 6 := by
  rw [C157_zero_iff h hb hm ha hb' hc' hbent]
  constructor
  · rintro ⟨g, -, hi⟩
    by_contra hk
    let A : Matrix (Fin 6) (Fin (k + 1)) ℝ := Matrix.of fun l a =>
      ![(g a).shift 0, (g a).shift 1, (g a).shift 2, (g a).spin 0, (g a).spin 1, (g a).spin 2] l
    obtain ⟨c, hz, hc⟩ := (Submodule.ne_bot_iff _).1 (LinearMap.ker_ne_bot_of_finrank_lt (f := A.mulVecLin) (by simp; omega))
    have hz : A.mulVec c = 0 := LinearMap.mem_ker.1 hz
    have get : ∀ l, ∑ a, c a * A l a = 0 := by
      intro l
      exact (by simp [Matrix.mulVec, dotProduct, mul_comm] : _ = A.mulVec c l).trans (congrFun hz l)
    refine hc (hi c (fun i => ?_) fun i => ?_)
    · fin_cases i
      exacts [get 0, get 1, get 2]
    · fin_cases i
      exacts [get 3, get 4, get 5]
  · intro hk
    refine ⟨fun a => ⟨fun i => if (a : ℕ) = i then 1 else 0, fun i => if (a : ℕ) = i + 3 then 1 else 0⟩, ?_, ?_⟩
    · intro a p j hp hj hf
      exact absurd (hfree p (by rw [← h.model.size]; exact hp) j hj) hf
    · intro c hx hy
      dsimp only at hx hy
      have one : ∀ i : Fin (k + 1), ∑ a, c a * (if (a : ℕ) = i then 1 else 0) = c i := by
        intro i
        rw [Finset.sum_eq_single i (by intro b _ hb; rw [if_neg (fun h => hb (Fin.ext h)), mul_zero]) (by simp)]
        simp
      funext i
      rw [← one i]
      by_cases h3 : (i : ℕ) < 3
      · exact hx ⟨i, h3⟩
      · have := hy ⟨i - 3, by omega⟩
        dsimp only at this
        rwa [show (i : ℕ) - 3 + 3 = i by omega] at this

/-- C157.  With supports that hold the body there is no zero frequency. -/
theorem C157_held (h : UserVibration tab 3 n m f count cons elements mats nodes ks μs Kg Mg)
    (hb : SolidBody n f elements mats nodes ks) (hm : Modes Kg Mg w φ) : (∀ k, 0 < w k) ↔ Spec.Held cons nodes := by
  rw [C157_positive_iff h (solid_elastic hb) hm, C136_stable_iff hb h.model.size]

/-- C157.  The first squared frequency of a body of revolution is zero exactly when no support prevents its axial motion, and the second
is always positive. -/
theorem C157_revolved (h : UserVibration tab 2 9 m elastAxiQuad9 count cons elements mats nodes ks μs Kg Mg)
    (hb : Revolved elements mats nodes ks) (hm : Modes Kg Mg w φ) (k : Fin neq) :
    w k = 0 ↔ (k : ℕ) = 0 ∧ ∀ p < nodes.length, Free cons 2 p 1 := by
  have hpsd : ElasticElements 2 ks := fun m hm => (hb.element hm).2.1
  have hsz := h.model.size
  have hn : 0 < nodes.length := by
    obtain ⟨bc, s, -⟩ := h.setups
    obtain ⟨p, j, hf, -⟩ := exists_free s.eq k.2
    have := free_lt hf
    omega
  have e : w k = 0 ↔ w k ≤ 0 := ⟨fun h => h.le, fun h0 => le_antisymm h0 (C157_nonneg h hpsd hm k)⟩
  rw [e, C157_minmax h hm]
  constructor
  · rintro ⟨u, hu, hi, hq⟩
    have hz : ∀ a, ∃ c, ∀ p < nodes.length, u a p 0 = 0 ∧ u a p 1 = c := by
      intro a
      rw [← C141_zero_energy hb]
      have h0 := hq (Pi.single a 1)
      have e1 : (fun p j => ∑ b, (Pi.single a 1 : Fin (k + 1) → ℝ) b * u b p j) = u a := by
        funext p j
        rw [Finset.sum_eq_single a (by intro b _ hb; simp [hb]) (by simp)]
        simp
      rw [e1, zero_mul] at h0
      exact (sum_pos_zero fun m hm => hpsd m hm (u a)).1 (le_antisymm h0 (List.sum_nonneg fun y hy => by
        obtain ⟨m, hm, rfl⟩ := List.mem_map.1 hy
        exact hpsd m hm _))
    choose g hg using hz
    have nz : ∀ c : Fin (k + 1) → ℝ, ∑ a, c a * g a = 0 → c = 0 := by
      intro c hc
      refine hi c fun p hp j hj => ?_
      rw [hsz] at hp
      interval_cases j
      · exact Finset.sum_eq_zero fun a _ => by rw [(hg a p hp).1, mul_zero]
      · rw [Finset.sum_congr rfl fun a _ => by rw [(hg a p hp).2]]
        exact hc
    have g0 : g 0 ≠ 0 := by
      intro h0
      have := congrFun (nz (Pi.single 0 1) (by
        rw [Finset.sum_eq_single 0 (by intro b _ hb; simp [hb]) (by simp)]
        simp [h0])) 0
      simp at this
    refine ⟨?_, fun p hp => ?_⟩
    · by_contra hk
      have : ∃ i : Fin (k + 1), i ≠ 0 := ⟨⟨1, by omega⟩, by simp [Fin.ext_iff]⟩
      obtain ⟨i, hi0⟩ := this
      have := congrFun (nz (Pi.single i (g 0) - Pi.single 0 (g i)) (by
        simp only [Pi.sub_apply, sub_mul, Finset.sum_sub_distrib]
        rw [Finset.sum_eq_single i (by intro b _ hb; simp [hb]) (by simp), Finset.sum_eq_single 0 (by intro b _ hb; simp [hb]) (by simp)]
        simp
        ring)) i
      simp [hi0] at this
      exact g0 this
    · by_contra hf
      have h1 := hu 0 p 1 (by rw [hsz]; exact hp) (by omega) hf
      rw [(hg 0 p hp).2] at h1
      exact g0 h1
  · rintro ⟨hk, hfree⟩
    refine ⟨fun _ _ j => if j = 1 then 1 else 0, fun a p j hp hj hf => ?_, fun d hd => ?_, fun d => ?_⟩
    · rw [hsz] at hp
      refine if_neg ?_
      rintro rfl
      exact hf (hfree p hp)
    · have h1 := hd 0 (by omega) 1 (by omega)
      simp only [if_true, mul_one] at h1
      funext i
      have hi : ∀ a : Fin (k + 1), a = i := fun a => Fin.ext (by omega)
      rw [Finset.sum_eq_single i (fun b _ hb => absurd (hi b) hb) (by simp)] at h1
      exact h1
    · rw [zero_mul]
      apply le_of_eq
      refine List.sum_eq_zero fun y hy => ?_
      obtain ⟨m, hm, rfl⟩ := List.mem_map.1 hy
      obtain ⟨el, -, hd⟩ := described hb.members hm
      exact axi_shift hd (c := ∑ a, d a) (fun p _ => by simp) _

end

/-! ## The routines of `uelutil` that must be passed as `uel` -/

section
variable {K : Type} [Field K] [LinearOrder K] [IsStrictOrderedRing K] [FloorRing K]
variable {f : Uel K} {nd n : ℕ} {mats nodes : Table K} {elements : List (List ℤ)} {μs : List (Member K)}

/-- The densities of the elements are positive. -/
def Spec.HeavyMats (mats : Table K) (elements : List (List ℤ)) : Prop :=
  ∀ el ∈ elements, ∀ mi q params, el[2]? = some mi → Resolves mats.length mi q → mats[q]? = some params →
    ∃ E nu ρ, params = [E, nu, ρ] ∧ 0 < ρ

theorem weighs_solid (hf : SolidElement n f) {el : List ℤ} {mb : Member K} (h : Weighs f mats nodes el mb) :
    ∃ mi, ∃ q : ℕ, ∃ params X k mm, el[2]? = some mi ∧ Resolves mats.length mi q ∧ mats[q]? = some params ∧
      Returns (n := n) (d := 3) f X params k mm ∧ Placed3 nodes mb X mm := by
  obtain ⟨ty, mi, params, rows, f', kl, ml, a1, a2, ⟨q, a3, a4⟩, a5, a6, rfl, a8, a9⟩ := h
  obtain ⟨X, k, mm, hX, -, hm, hr⟩ := C38_solid_shape hf (swapped_ok.1 a8)
  exact ⟨mi, q, params, X, k, mm, a2, a3, a4, hr, placed3_of_rows a6 hX a9 hm⟩

theorem weighs_plane (hf : PlaneElement n f) {el : List ℤ} {mb : Member K} (h : Weighs f mats nodes el mb) :
    ∃ mi, ∃ q : ℕ, ∃ params X k mm, el[2]? = some mi ∧ Resolves mats.length mi q ∧ mats[q]? = some params ∧
      Returns (n := n) (d := 2) f X params k mm ∧ Placed nodes mb X mm := by
  obtain ⟨ty, mi, params, rows, f', kl, ml, a1, a2, ⟨q, a3, a4⟩, a5, a6, rfl, a8, a9⟩ := h
  obtain ⟨X, k, mm, hX, -, hm, hr⟩ := C38_plane_shape hf (swapped_ok.1 a8)
  exact ⟨mi, q, params, X, k, mm, a2, a3, a4, hr, placed_of_rows a6 hX a9 hm⟩

theorem weighs_axi {el : List ℤ} {mb : Member K} (h : Weighs elastAxiQuad9 mats nodes el mb) :
    ∃ mi, ∃ q : ℕ, ∃ params, ∃ X : Matrix (Fin 9) (Fin 2) K, ∃ k mm, el[2]? = some mi ∧ Resolves mats.length mi q ∧
      mats[q]? = some params ∧ Returns elastAxiQuad9 X params k mm ∧ Placed nodes mb X mm := by
  obtain ⟨ty, mi, params, rows, f', ml, kl, a1, a2, ⟨q, a3, a4⟩, a5, a6, rfl, a8, a9⟩ := h
  have a8 := swapped_ok.1 a8
  obtain ⟨X, hX⟩ := repAxi_coord a8
  rw [hX] at a8
  obtain ⟨C, ρ, h1, h2, h3⟩ := repAxi_ok.1 a8
  rw [Prod.mk.injEq] at h3
  exact ⟨mi, q, params, X, _, _, a2, a3, a4, ⟨kl, ml, a8, by rw [h3.1]; exact holds_ofBlocks.2 rfl, by rw [h3.2]; exact holds_ofBlocks.2 rfl⟩,
    placed_of_rows a6 hX a9 (by rw [h3.2]; exact holds_ofBlocks.2 rfl)⟩

theorem definite_placed3 {mb : Member K} {X : Matrix (Fin n) (Fin 3) K} {mm} (hpl : Placed3 nodes mb X mm)
    (hd : ∀ u : Fin n × Fin 3 → K, u ≠ 0 → 0 < u ⬝ᵥ mm.mulVec u) (V : ℕ → ℕ → K) :
    0 ≤ mb.form 3 V V ∧ (mb.form 3 V V = 0 → ∀ p ∈ mb.nodes, ∀ j < 3, V p j = 0) := by
  rw [hpl.form]
  by_cases h0 : mb.pick3 n V = 0
  · rw [h0]
    refine ⟨by simp, fun _ p hp j hj => ?_⟩
    obtain ⟨a, ha, rfl⟩ := List.mem_iff_getElem.1 hp
    have := congrFun h0 (⟨a, by rw [← hpl.size]; exact ha⟩, ⟨j, hj⟩)
    unfold Member.pick3 at this
    dsimp only at this
    rw [List.getD_eq_getElem?_getD, List.getElem?_eq_getElem ha, Option.getD_some] at this
    exact this
  · exact ⟨(hd _ h0).le, fun h => absurd h (hd _ h0).ne'⟩

theorem definite_placed {mb : Member K} {X : Matrix (Fin n) (Fin 2) K} {mm} (hpl : Placed nodes mb X mm)
    (hd : ∀ u : Fin n × Fin 2 → K, u ≠ 0 → 0 < u ⬝ᵥ mm.mulVec u) (V : ℕ → ℕ → K) :
    0 ≤ mb.form 2 V V ∧ (mb.form 2 V V = 0 → ∀ p ∈ mb.nodes, ∀ j < 2, V p j = 0) := by
  rw [hpl.form]
  by_cases h0 : mb.pick n V = 0
  · rw [h0]
    refine ⟨by simp, fun _ p hp j hj => ?_⟩
    obtain ⟨a, ha, rfl⟩ := List.mem_iff_getElem.1 hp
    have := congrFun h0 (⟨a, by rw [← hpl.size]; exact ha⟩, ⟨j, hj⟩)
    unfold Member.pick at this
    dsimp only at this
    rw [List.getD_eq_getElem?_getD, List.getElem?_eq_getElem ha, Option.getD_some] at this
    exact this
  · exact ⟨(hd _ h0).le, fun h => absurd h (hd _ h0).ne'⟩

/-- C157.  The four routines of `uelutil` that must be passed as `uel` return symmetric mass matrices, positive definite for positive
densities. -/
theorem C157_library (hf : Unlisted nd n f) (hμ : List.Forall₂ (Weighs f mats nodes) elements μs) :
    SymmetricElements nd μs ∧ (HeavyMats mats elements → DefiniteElements nd μs) := by
  cases hf with
  | quad8 =>
    refine ⟨fun mb hm => ?_, fun he mb hm u => ?_⟩ <;> obtain ⟨el, hel, hd⟩ := described hμ hm <;>
      obtain ⟨mi, q, params, X, k, mm, a1, a2, a3, hr, hpl⟩ := weighs_plane .quad8 hd
    · exact symm_of_blocks hpl.size hpl.stiff (C38_plane_symmetric .quad8 hr).2
    · obtain ⟨E, nu, ρ, rfl, hρ⟩ := he el hel mi q params a1 a2 a3
      exact definite_placed hpl (fun u hu => C113_plane .quad8 hr (by simpa using hρ) hu) u
  | axi =>
    refine ⟨fun mb hm => ?_, fun he mb hm u => ?_⟩ <;> obtain ⟨el, hel, hd⟩ := described hμ hm <;>
      obtain ⟨mi, q, params, X, k, mm, a1, a2, a3, hr, hpl⟩ := weighs_axi hd
    · exact symm_of_blocks hpl.size hpl.stiff (C38_axi_symmetric hr).2
    · obtain ⟨E, nu, ρ, rfl, hρ⟩ := he el hel mi q params a1 a2 a3
      exact definite_placed hpl (fun u hu => C113_axi hr hρ hu) u
  | tet4 =>
    refine ⟨fun mb hm => ?_, fun he mb hm u => ?_⟩ <;> obtain ⟨el, hel, hd⟩ := described hμ hm <;>
      obtain ⟨mi, q, params, X, k, mm, a1, a2, a3, hr, hpl⟩ := weighs_solid .tet4 hd
    · exact symm_of_blocks hpl.size hpl.stiff (C38_solid_symmetric .tet4 hr).2
    · obtain ⟨E, nu, ρ, rfl, hρ⟩ := he el hel mi q params a1 a2 a3
      exact definite_placed3 hpl (fun u hu => C113_solid .tet4 hr hρ hu) u
  | hex8 =>
    refine ⟨fun mb hm => ?_, fun he mb hm u => ?_⟩ <;> obtain ⟨el, hel, hd⟩ := described hμ hm <;>
      obtain ⟨mi, q, params, X, k, mm, a1, a2, a3, hr, hpl⟩ := weighs_solid .hex8 hd
    · exact symm_of_blocks hpl.size hpl.stiff (C38_solid_symmetric .hex8 hr).2
    · obtain ⟨E, nu, ρ, rfl, hρ⟩ := he el hel mi q params a1 a2 a3
      exact definite_placed3 hpl (fun u hu => C113_solid .hex8 hr hρ hu) u

/-- C157.  Of a mesh that is described without error the masses are, too. -/
theorem weighed {ks : List (Member K)} (hms : List.Forall₂ (Describes f mats nodes) elements ks) :
    ∃ μs, List.Forall₂ (Weighs f mats nodes) elements μs := by
  induction hms with
  | nil => exact ⟨[], .nil⟩
  | cons a _ ih =>
    obtain ⟨μs, h⟩ := ih
    obtain ⟨ty, mi, params, rows, f', kl, ml, a1, a2, a3, a5, a6, rfl, a8, a9⟩ := a
    exact ⟨⟨_, cell ml⟩ :: μs, .cons ⟨ty, mi, params, rows, _, ml, kl, a1, a2, a3, a5, a6, rfl, swapped_ok.2 a8, rfl⟩ h⟩

end

section
variable {f : Uel ℝ} {tab : ℤ → Py (Uel ℝ)} {nd n m : ℕ} {cons mats nodes : Table ℝ} {elements : List (List ℤ)} {ks : List (Member ℝ)}
  {count : ℤ → Py ℕ}

/-- C157.  Every model of these elements with positive densities, of which no movable node is idle, has an assembled pair with modes. -/
theorem C157_vibrates (hf : Unlisted nd n f) (hu : UserModel nd n cons nodes elements) (hc : Counts count (n * nd) elements)
    (hm : n * nd ≤ m) (hms : List.Forall₂ (Describes f mats nodes) elements ks) (hh : HeavyMats mats elements)
    (hused : ∀ p j, Free cons nd p j → ∃ el ∈ elements, ∃ id ∈ el.drop 3, Resolves nodes.length id p) :
    ∃ (neq : ℕ) (Kg Mg : Matrix (Fin neq) (Fin neq) ℝ) (μs : List (Member ℝ)),
      UserVibration tab nd n m f count cons elements mats nodes ks μs Kg Mg := by
  have h0 : 0 < n * nd := by cases hf <;> norm_num
  obtain ⟨l1, l2, -⟩ := C155_library hf hms
  obtain ⟨μs, hμ⟩ := weighed hms
  obtain ⟨l3, l4⟩ := C157_library hf hμ
  obtain ⟨op, bc, neq, Kg, Mg, h1, h2⟩ := C135_assembled (tab := tab) l1 hu hc h0 hm hms true
  exact ⟨neq, Kg, Mg, μs, l1, hu, hc, h0, hm, hms, hμ, l2, l3, l4 hh, hused, op, bc, true, h1, h2⟩

end

section demo

/-- A free tetrahedron. -/
noncomputable def loneNodes : Table ℝ := [[0, 0, 0, 0], [1, 1, 0, 0], [2, 0, 1, 0], [3, 0, 0, 1]]
noncomputable def loneCons : Table ℝ := [[0, 0, 0], [0, 0, 0], [0, 0, 0], [0, 0, 0]]
noncomputable def loneMats : Table ℝ := [[10, 1/4, 1]]
def loneEls : List (List ℤ) := [[0, 9, 0, 0, 1, 2, 3]]

theorem lone_body : ∃ a, SolidBody 4 elastTet4 loneEls loneMats loneNodes [a] ∧ a.nodes = [0, 1, 2, 3] := by
  let X : Matrix (Fin 4) (Fin 3) ℝ := !![0, 0, 0; 1, 0, 0; 0, 1, 0; 0, 0, 1]
  have hv : (1e-8 : ℝ) < sixVolume X := by
    unfold sixVolume
    rw [Matrix.det_fin_three]
    simp [X]
    norm_num
  obtain ⟨⟨A, B⟩, hr⟩ := (C152_tet4 (ρ := 1) X (E := 10) (nu := 1/4) (by norm_num) (by norm_num)).1.2 hv
  have hX : matRows X = [[0, 0, 0], [1, 0, 0], [0, 1, 0], [0, 0, 1]] := by
    simp [matRows, X, List.ofFn_succ, Fin.succ]
  rw [hX] at hr
  refine ⟨⟨[0, 1, 2, 3], cell A⟩, ⟨.cons ⟨9, 0, [10, 1/4, 1], loneNodes, elastTet4, A, B, rfl, rfl, ⟨0, ⟨by simp [loneMats], .inl rfl⟩, rfl⟩,
    ?_, .cons rfl (.cons rfl (.cons rfl (.cons rfl .nil))), rfl, hr, rfl⟩ .nil, .inl ⟨rfl, rfl⟩, ?_, ?_, ?_⟩, rfl⟩
  · refine .cons ?_ (.cons ?_ (.cons ?_ (.cons ?_ .nil))) <;> exact ⟨by simp [loneNodes], .inl (by norm_num)⟩
  · intro el _ mi q params _ _ hp
    refine ⟨10, 1/4, 1, ?_, by norm_num, by norm_num, by norm_num, by norm_num⟩
    match q, hp with
    | 0, hp => simpa [loneMats] using hp.symm
    | q + 1, hp => simp [loneMats] at hp
  · intro p hp
    have : p < 4 := hp
    exact ⟨_, List.mem_singleton.2 rfl, by interval_cases p <;> simp⟩
  · intro x hx y hy
    rw [List.mem_singleton] at hx hy
    rw [hx, hy]

theorem lone_free (p : ℕ) (hp : p < 4) (j : ℕ) (hj : j < 3) : Free loneCons 3 p j :=
  ⟨hj, 0, by unfold loneCons entry; interval_cases p <;> interval_cases j <;> rfl, by norm_num⟩

/-- Case for C157: the free tetrahedron has twelve modes, and the first six, and only they, have frequency zero. -/
example (tab : ℤ → Py (Uel ℝ)) : ∃ (Kg Mg : Matrix (Fin 12) (Fin 12) ℝ) (ks μs : List (Member ℝ)) (w : _) (φ : _),
    UserVibration tab 3 4 12 elastTet4 (fun _ => .ok 12) loneCons loneEls loneMats loneNodes ks μs Kg Mg ∧ Modes Kg Mg w φ ∧
    ∀ k, w k = 0 ↔ (k : ℕ) < 6 := by
  obtain ⟨a, hb, na⟩ := lone_body
  have hmod : UserModel 3 4 loneCons loneNodes loneEls :=
    { codes := by
        intro p j v _ h
        obtain ⟨r, h1, h2⟩ := entry_some.1 h
        have h1 := List.mem_of_getElem? h1
        have h2 := List.mem_of_getElem? h2
        simp [loneCons] at h1
        subst h1
        simp at h2
        exact .inl h2
      width := by
        intro r hr
        simp [loneCons] at hr
        subst hr
        rfl
      size := rfl
      typed := by decide }
  obtain ⟨neq, Kg, Mg, μs, h⟩ := C157_vibrates (tab := tab) (m := 12) (count := fun _ => .ok 12) (cons := loneCons) .tet4 hmod (by
      intro el hel
      simp only [loneEls, List.mem_cons, List.not_mem_nil, or_false] at hel
      subst hel
      exact ⟨9, rfl, rfl⟩) le_rfl hb.members (by
      intro el hel mi q params b1 b2 b3
      match q, b3 with
      | 0, b3 => exact ⟨10, 1/4, 1, by simpa [loneMats] using b3.symm, by norm_num⟩
      | q + 1, b3 => simp [loneMats] at b3) (by
      intro p j hf
      have := free_lt hf
      exact (describes_used hb.members p).1 (hb.used p (by simpa [loneCons, loneNodes] using this)))
  obtain ⟨op, bc, sparse, h1, -⟩ := h.run
  obtain rfl : neq = 12 := by
    have := (dme_ok.1 h1).1
    have e : eqcounter loneCons 3 = .ok (12, [[0, 1, 2], [3, 4, 5], [6, 7, 8], [9, 10, 11]]) := by
      have z : pyTrunc (0 : ℝ) = 0 := pyTrunc_eq_zero.2 (by norm_num)
      unfold loneCons
      simp only [eqcounter, List.map_cons, List.map_nil, z]
      rfl
    rw [e, Except.ok.injEq, Prod.mk.injEq] at this
    exact this.1.symm
  obtain ⟨w, φ, hm, -⟩ := C157_modes h
  exact ⟨Kg, Mg, [a], μs, w, φ, h, hm, C157_floating h hb hm (a := 0) (b := 1) (c := 2) (by simp [loneNodes]) (by simp [loneNodes])
    (by simp [loneNodes]) (.inl (by norm_num [spread, coordOf, fieldOf, entry, loneNodes])) fun p hp => lone_free p hp⟩

/-- One free ring. -/
def hoopNodes : Table ℝ := [[0, 1, 0], [1, 3, 0], [2, 3, 2], [3, 1, 2], [4, 2, 0], [5, 3, 1], [6, 2, 2], [7, 1, 1], [8, 2, 1]]
def hoopCons : Table ℝ := [[0, 0], [0, 0], [0, 0], [0, 0], [0, 0], [0, 0], [0, 0], [0, 0], [0, 0]]
def hoopEls : List (List ℤ) := [[0, 4, 0, 0, 1, 2, 3, 4, 5, 6, 7, 8]]

theorem hoop_body : ∃ a, Revolved hoopEls loneMats hoopNodes [a] ∧ a.nodes = [0, 1, 2, 3, 4, 5, 6, 7, 8] := by
  set Q : Matrix (Fin 4) (Fin 2) ℝ := !![1, 0; 3, 0; 3, 2; 1, 2] with hQ
  set X : Matrix (Fin 9) (Fin 2) ℝ := !![1, 0; 3, 0; 3, 2; 1, 2; 2, 0; 3, 1; 2, 2; 1, 1; 2, 1] with hX
  have hs : ∀ a i, X a i = inQuad Q (quadNode a) i := by
    intro a i
    fin_cases a <;> fin_cases i <;> simp [X, Q, inQuad, quadNode] <;> norm_num
  have hc : ∀ a, 4e-8 < cornerArea Q a := by
    obtain ⟨h0, h1, h2, h3⟩ := corner_areas Q
    have q0 : Q 0 = ![1, 0] := rfl
    have q1 : Q 1 = ![3, 0] := rfl
    have q2 : Q 2 = ![3, 2] := rfl
    have q3 : Q 3 = ![1, 2] := rfl
    rw [q0, q1, q3] at h0
    rw [q0, q1, q2] at h1
    rw [q1, q2, q3] at h2
    rw [q0, q2, q3] at h3
    intro a
    fin_cases a
    · show _ < cornerArea Q 0; rw [h0]; norm_num [turnArea]
    · show _ < cornerArea Q 1; rw [h1]; norm_num [turnArea]
    · show _ < cornerArea Q 2; rw [h2]; norm_num [turnArea]
    · show _ < cornerArea Q 3; rw [h3]; norm_num [turnArea]
  obtain ⟨⟨A, B⟩, hr⟩ := C152_axi_convex (ρ := 1) hs hc (by intro a; fin_cases a <;> simp [Q]) (E := 10) (nu := 1/4)
    (by norm_num) (by norm_num)
  have hm : matRows X = [[1, 0], [3, 0], [3, 2], [1, 2], [2, 0], [3, 1], [2, 2], [1, 1], [2, 1]] := by
    simp [matRows, X, List.ofFn_succ, Fin.succ]
  rw [hm] at hr
  refine ⟨⟨[0, 1, 2, 3, 4, 5, 6, 7, 8], cell A⟩, ⟨.cons ⟨4, 0, [10, 1/4, 1], hoopNodes, elastAxiQuad9, A, B, rfl, rfl,
    ⟨0, ⟨by simp [loneMats], .inl rfl⟩, rfl⟩, ?_, .cons rfl (.cons rfl (.cons rfl (.cons rfl (.cons rfl (.cons rfl (.cons rfl (.cons rfl
    (.cons rfl .nil)))))))), rfl, hr, rfl⟩ .nil, ?_, ?_, ?_⟩, rfl⟩
  · refine .cons ?_ (.cons ?_ (.cons ?_ (.cons ?_ (.cons ?_ (.cons ?_ (.cons ?_ (.cons ?_ (.cons ?_ .nil)))))))) <;>
      exact ⟨by simp [hoopNodes], .inl (by norm_num)⟩
  · intro el _ mi q params _ _ hp
    refine ⟨10, 1/4, 1, ?_, by norm_num, by norm_num, by norm_num, by norm_num⟩
    match q, hp with
    | 0, hp => simpa [loneMats] using hp.symm
    | q + 1, hp => simp [loneMats] at hp
  · intro p hp
    have : p < 9 := hp
    exact ⟨_, List.mem_singleton.2 rfl, by interval_cases p <;> simp⟩
  · intro x hx y hy
    rw [List.mem_singleton] at hx hy
    rw [hx, hy]

/-- Case for C157: the free ring has eighteen modes, and only the first has frequency zero. -/
example (tab : ℤ → Py (Uel ℝ)) : ∃ (Kg Mg : Matrix (Fin 18) (Fin 18) ℝ) (ks μs : List (Member ℝ)) (w : _) (φ : _),
    UserVibration tab 2 9 18 elastAxiQuad9 (fun _ => .ok 18) hoopCons hoopEls loneMats hoopNodes ks μs Kg Mg ∧ Modes Kg Mg w φ ∧
    ∀ k, w k = 0 ↔ (k : ℕ) = 0 := by
  obtain ⟨a, hb, na⟩ := hoop_body
  have hmod : UserModel 2 9 hoopCons hoopNodes hoopEls :=
    { codes := by
        intro p j v _ h
        obtain ⟨r, h1, h2⟩ := entry_some.1 h
        have h1 := List.mem_of_getElem? h1
        have h2 := List.mem_of_getElem? h2
        simp [hoopCons] at h1
        subst h1
        simp at h2
        exact .inl h2
      width := by
        intro r hr
        simp [hoopCons] at hr
        subst hr
        rfl
      size := rfl
      typed := by decide }
  obtain ⟨neq, Kg, Mg, μs, h⟩ := C157_vibrates (tab := tab) (m := 18) (count := fun _ => .ok 18) (cons := hoopCons) .axi hmod (by
      intro el hel
      simp only [hoopEls, List.mem_cons, List.not_mem_nil, or_false] at hel
      subst hel
      exact ⟨4, rfl, rfl⟩) le_rfl hb.members (by
      intro el hel mi q params b1 b2 b3
      match q, b3 with
      | 0, b3 => exact ⟨10, 1/4, 1, by simpa [loneMats] using b3.symm, by norm_num⟩
      | q + 1, b3 => simp [loneMats] at b3) (by
      intro p j hf
      have := free_lt hf
      exact (describes_used hb.members p).1 (hb.used p (by simpa [hoopCons, hoopNodes] using this)))
  obtain ⟨op, bc, sparse, h1, -⟩ := h.run
  obtain rfl : neq = 18 := by
    have := (dme_ok.1 h1).1
    have e : eqcounter hoopCons 2 = .ok (18, [[0, 1], [2, 3], [4, 5], [6, 7], [8, 9], [10, 11], [12, 13], [14, 15], [16, 17]]) := by
      have z : pyTrunc (0 : ℝ) = 0 := pyTrunc_eq_zero.2 (by norm_num)
      unfold hoopCons
      simp only [eqcounter, List.map_cons, List.map_nil, z]
      rfl
    rw [e, Except.ok.injEq, Prod.mk.injEq] at this
    exact this.1.symm
  obtain ⟨w, φ, hm, -⟩ := C157_modes h
  refine ⟨Kg, Mg, [a], μs, w, φ, h, hm, fun k => (C157_revolved h hb hm k).trans ⟨fun h => h.1, fun h => ⟨h, fun p hp => ?_⟩⟩⟩
  have : p < 9 := hp
  exact ⟨by norm_num, 0, by unfold hoopCons entry; interval_cases p <;> rfl, by norm_num⟩

end demo
end SolidsPy
