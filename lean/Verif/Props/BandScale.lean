import Verif.Props.Branches

/-! # C181: how the branches of the dispersion diagram depend on materials and on the size of the cell -/

set_option linter.unusedSectionVars false

namespace SolidsPy
open Spec Assem Bloch Matrix

section
variable {sq : ℝ → ℝ} {d d' : Gui.Data ℝ} {neq D : ℕ} {Kg Mg Kg' Mg' : Matrix (Fin neq) (Fin neq) ℝ} {ks ms ks' ms' : List (Member ℝ)}
  {nodesRef nodesIma dofsRef dofsIma : List ℤ} {refDof imaDof : ℤ → Option (List ℤ)} {newNum : List ℤ} {coords : List (List ℝ)}
  {T : Matrix (Fin neq) (Fin (neq - dofsRef.length)) ℂ}

/-- Energies of the elements and forms of the assembled matrices. -/
theorem vibrating_forms (h : Vibrating sq d ks ms Kg Mg) (h' : Vibrating sq d' ks' ms' Kg' Mg') (hc : d'.cons = d.cons) (v : Fin neq → ℝ) :
    ∃ u, v ⬝ᵥ Kg.mulVec v = energyOf 2 ks u ∧ v ⬝ᵥ Kg'.mulVec v = energyOf 2 ks' u ∧ v ⬝ᵥ Mg.mulVec v = energyOf 2 ms u ∧
      v ⬝ᵥ Mg'.mulVec v = energyOf 2 ms' u := by
  obtain ⟨bc, s, t⟩ := h.setups
  obtain ⟨bc', s', t'⟩ := h'.setups
  have e := s'.eq
  rw [hc, s.eq, Except.ok.injEq, Prod.mk.injEq] at e
  obtain ⟨-, rfl⟩ := e
  obtain ⟨u, hu⟩ := exists_completes (cons := d.cons) bc 2 v
  have hu' : Completes d'.cons bc 2 neq v u := by rw [hc]; exact hu
  exact ⟨u, reduced_form s hu hu, reduced_form s' hu' hu', reduced_form t hu hu, reduced_form t' hu' hu'⟩

/-- Complex vectors and real forms. -/
theorem reduced_re (hK : Kg.IsSymm) (q : Fin (neq - dofsRef.length) → ℂ) :
    (star q ⬝ᵥ (T.conjTranspose * Kg.map Complex.ofReal * T).mulVec q).re =
      (fun i => (T.mulVec q i).re) ⬝ᵥ Kg.mulVec (fun i => (T.mulVec q i).re) + (fun i => (T.mulVec q i).im) ⬝ᵥ Kg.mulVec (fun i => (T.mulVec q i).im) := by
  rw [reduced_energy, complex_form hK, Complex.ofReal_re]

/-- If the stiffness grows at most by the factor `a` and the mass at least by the factor `b`, no value grows by more than `a / b`. -/
theorem waves_ratio (hK : Kg.IsSymm) (hM : Mg.IsSymm) (hK' : Kg'.IsSymm) (hM' : Mg'.IsSymm) (h0 : ∀ v, 0 ≤ v ⬝ᵥ Kg.mulVec v) {a b : ℝ}
    (ha : 0 ≤ a) (hb : 0 < b) (h1 : ∀ v, v ⬝ᵥ Kg'.mulVec v ≤ a * (v ⬝ᵥ Kg.mulVec v)) (h2 : ∀ v, b * (v ⬝ᵥ Mg.mulVec v) ≤ v ⬝ᵥ Mg'.mulVec v)
    {l l' : Fin (neq - dofsRef.length) → ℝ} {q q' : Fin (neq - dofsRef.length) → Fin (neq - dofsRef.length) → ℂ}
    (hw : Waves (T.conjTranspose * Kg.map Complex.ofReal * T) (T.conjTranspose * Mg.map Complex.ofReal * T) l q)
    (hw' : Waves (T.conjTranspose * Kg'.map Complex.ofReal * T) (T.conjTranspose * Mg'.map Complex.ofReal * T) l' q')
    (k : Fin (neq - dofsRef.length)) : l' k ≤ a / b * l k := by
  have hQ := Matrix.isHermitian_conjTranspose_mul_mul T (map_hermitian hM)
  have hQ' := Matrix.isHermitian_conjTranspose_mul_mul T (map_hermitian hM')
  have hl : 0 ≤ l k := by
    have e1 := hw.normal k k
    have e2 : star (q k) ⬝ᵥ (T.conjTranspose * Kg.map Complex.ofReal * T).mulVec (q k) = l k := by
      rw [hw.motion, dotProduct_smul, e1, if_pos rfl, smul_eq_mul, mul_one]
    have := congrArg Complex.re e2
    rw [reduced_re hK, Complex.ofReal_re] at this
    rw [← this]
    exact add_nonneg (h0 _) (h0 _)
  obtain ⟨u, hu, hb'⟩ := (hw.minmax hQ k _).1 le_rfl
  refine (hw'.minmax hQ' k _).2 ⟨u, hu, fun c => ?_⟩
  have := hb' c
  rw [reduced_re hK, reduced_re hM] at this
  rw [reduced_re hK', reduced_re hM']
  generalize (fun i => (T.mulVec (∑ a, c a • u a) i).re) = x at *
  generalize (fun i => (T.mulVec (∑ a, c a • u a) i).im) = y at *
  have f1 := h1 x
  have f2 := h1 y
  have g1 := h2 x
  have g2 := h2 y
  calc _ ≤ a * (x ⬝ᵥ Kg.mulVec x + y ⬝ᵥ Kg.mulVec y) := by linarith
    _ ≤ a * (l k * (x ⬝ᵥ Mg.mulVec x + y ⬝ᵥ Mg.mulVec y)) := mul_le_mul_of_nonneg_left this ha
    _ = a / b * l k * (b * (x ⬝ᵥ Mg.mulVec x) + b * (y ⬝ᵥ Mg.mulVec y)) := by field_simp
    _ ≤ _ := mul_le_mul_of_nonneg_left (add_le_add g1 g2) (mul_nonneg (div_nonneg ha hb.le) hl)

theorem Vibrating.stiff_nonneg (hs : SqrtFn sq) (h : Vibrating sq d ks ms Kg Mg) (hphys : Physical d) (v : Fin neq → ℝ) : 0 ≤ v ⬝ᵥ Kg.mulVec v := by
  obtain ⟨u, e, -⟩ := vibrating_forms h h rfl v
  rw [e]
  exact List.sum_nonneg fun x hx => by
    obtain ⟨m, hm, rfl⟩ := List.mem_map.1 hx
    exact (C93_elements hs h.plane h.springs).2 hphys m hm u

/-- C181.  If every modulus is multiplied by a number between `a` and `a'` and every density by one between `b` and `b'`, every branch is
multiplied, at every wave vector, by a number between `a / b'` and `a' / b`. -/
theorem C181_materials (hs : SqrtFn sq) {mats' : Table ℝ} (h : Vibrating sq d ks ms Kg Mg)
    (h' : Vibrating sq { d with mats := mats' } ks' ms' Kg' Mg') (hphys : Physical d) {a a' b b' : ℝ} (ha : 0 < a) (haa : a ≤ a') (hb : 0 < b)
    (hbb : b ≤ b') (hmat : Rated a a' b b' d.mats mats') {l l' : (Fin D → ℝ) → Fin (neq - dofsRef.length) → ℝ}
    (hl : Branches D Kg Mg coords nodesRef nodesIma dofsRef dofsIma refDof imaDof newNum l)
    (hl' : Branches D Kg' Mg' coords nodesRef nodesIma dofsRef dofsIma refDof imaDof newNum l') (κ : Fin D → ℝ) (k : Fin (neq - dofsRef.length)) :
    a / b' * l κ k ≤ l' κ k ∧ l' κ k ≤ a' / b * l κ k := by
  have hb' : 0 < b' := hb.trans_le hbb
  obtain ⟨l1, l2, l3, key⟩ := forms_pairs (P := fun m μ m' μ' => ∃ c e, a ≤ c ∧ c ≤ a' ∧ b ≤ e ∧ e ≤ b' ∧
      (∀ u, m'.form 2 u u = c * m.form 2 u u) ∧ ∀ u, μ'.form 2 u u = e * μ.form 2 u u)
    h.springs h.masses h'.springs h'.masses rfl fun el hel m μ m' μ' g1 g2 g3 g4 => by
      obtain ⟨n1, n2, n3, ty, mi, q, params, params', n, f, X, X', kk, kk', mm, mm', a1, a2, a3, a4, a5, a5', a6, a7, a8, a9, b7, b8,
        b9⟩ := pairs_twin g1 g2 g3 g4 h.plane.nodes h.plane.nodes (h.plane.types _ hel) hmat.length_eq.symm rfl
      obtain rfl := a8.coord_unique b8 n2
      obtain ⟨hq, rfl⟩ := List.getElem?_eq_some_iff.1 a5
      obtain ⟨hq', rfl⟩ := List.getElem?_eq_some_iff.1 a5'
      obtain ⟨c, e, E, x, rest, rest', c1, c2, c3, c4, e1, e2, e3⟩ := hmat.get (i := q) hq hq'
      simp only [List.get_eq_getElem] at e1 e2
      rw [e1] at a7
      rw [e2] at b7
      obtain ⟨rfl, rfl⟩ := a6.rated hs a7 b7 e3
      refine ⟨c, e, c1, c2, c3, c4, fun u => ?_, fun u => ?_⟩
      · rw [a8.form, b8.form, pick_congr n2, Matrix.smul_mulVec, dotProduct_smul, smul_eq_mul]
      · rw [a9.form, b9.form, pick_congr (n3.trans n1.symm), Matrix.smul_mulVec, dotProduct_smul, smul_eq_mul]
  have hpk : ∀ e (he : e < ks.length), ∀ u, 0 ≤ ks[e].form 2 u u :=
    fun e he u => (C93_elements hs h.plane h.springs).2 hphys _ (List.getElem_mem he) u
  have hpm := masses_nonneg hs h.plane.nodes h.massive h.masses
  have e1 : ∀ u, energyOf 2 ks' u ≤ a' * energyOf 2 ks u := fun u => energy_le (T := id) l2 (fun e h1 h2 u => by
    obtain ⟨c, e', -, c2, -, -, q1, -⟩ := key e h1 (by omega) h2 (by omega)
    rw [id, q1]
    exact mul_le_mul_of_nonneg_right c2 (hpk e h1 u)) u
  have e2 : ∀ u, a * energyOf 2 ks u ≤ energyOf 2 ks' u := fun u => energy_ge (T := id) l2 (fun e h1 h2 u => by
    obtain ⟨c, e', c1, -, -, -, q1, -⟩ := key e h1 (by omega) h2 (by omega)
    rw [id, q1]
    exact mul_le_mul_of_nonneg_right c1 (hpk e h1 u)) u
  have e3 : ∀ u, energyOf 2 ms' u ≤ b' * energyOf 2 ms u := fun u => energy_le (T := id) l3 (fun e h1 h2 u => by
    obtain ⟨c, e', -, -, -, c4, -, q2⟩ := key e (by omega) h1 (by omega) h2
    rw [id, q2]
    exact mul_le_mul_of_nonneg_right c4 (hpm e h1 u)) u
  have e4 : ∀ u, b * energyOf 2 ms u ≤ energyOf 2 ms' u := fun u => energy_ge (T := id) l3 (fun e h1 h2 u => by
    obtain ⟨c, e', -, -, c3, -, -, q2⟩ := key e (by omega) h1 (by omega) h2
    rw [id, q2]
    exact mul_le_mul_of_nonneg_right c3 (hpm e h1 u)) u
  have f : ∀ v : Fin neq → ℝ, a * (v ⬝ᵥ Kg.mulVec v) ≤ v ⬝ᵥ Kg'.mulVec v ∧ v ⬝ᵥ Kg'.mulVec v ≤ a' * (v ⬝ᵥ Kg.mulVec v) ∧
      b * (v ⬝ᵥ Mg.mulVec v) ≤ v ⬝ᵥ Mg'.mulVec v ∧ v ⬝ᵥ Mg'.mulVec v ≤ b' * (v ⬝ᵥ Mg.mulVec v) := fun v => by
    obtain ⟨u, u1, u2, u3, u4⟩ := vibrating_forms h h' rfl v
    rw [u1, u2, u3, u4]
    exact ⟨e2 u, e1 u, e4 u, e3 u⟩
  obtain ⟨T, q, t1, t2⟩ := hl κ
  obtain ⟨T', q', t1', t2'⟩ := hl' κ
  obtain rfl := Except.ok.inj (t1.symm.trans t1')
  have hphys' := hphys.rated ha.le hb.le hmat
  constructor
  · have := waves_ratio (h'.stiff hs) (h'.mass hs).1 (h.stiff hs) (h.mass hs).1 (h'.stiff_nonneg hs hphys') (a := 1 / a) (b := 1 / b')
      (by positivity) (by positivity) (fun v => by rw [one_div, inv_mul_eq_div, le_div_iff₀ ha, mul_comm]; exact (f v).1)
      (fun v => by rw [one_div, inv_mul_eq_div, div_le_iff₀ hb', mul_comm]; exact (f v).2.2.2) t2' t2 k
    have e : 1 / a / (1 / b') = b' / a := by field_simp
    rw [e, div_mul_eq_mul_div, le_div_iff₀ ha] at this
    rw [div_mul_eq_mul_div, div_le_iff₀ hb']
    linarith
  · exact waves_ratio (h.stiff hs) (h.mass hs).1 (h'.stiff hs) (h'.mass hs).1 (h.stiff_nonneg hs hphys) (ha.le.trans haa) hb
      (fun v => (f v).2.1) (fun v => (f v).2.2.1) t2 t2' k

/-- C181.  All moduli multiplied by `a` and all densities by `b`. -/
theorem C181_proportional (hs : SqrtFn sq) {mats' : Table ℝ} (h : Vibrating sq d ks ms Kg Mg)
    (h' : Vibrating sq { d with mats := mats' } ks' ms' Kg' Mg') (hphys : Physical d) {a b : ℝ} (ha : 0 < a) (hb : 0 < b)
    (hmat : Rated a a b b d.mats mats') {l l' : (Fin D → ℝ) → Fin (neq - dofsRef.length) → ℝ}
    (hl : Branches D Kg Mg coords nodesRef nodesIma dofsRef dofsIma refDof imaDof newNum l)
    (hl' : Branches D Kg' Mg' coords nodesRef nodesIma dofsRef dofsIma refDof imaDof newNum l') (κ : Fin D → ℝ) (k : Fin (neq - dofsRef.length)) :
    l' κ k = a / b * l κ k := by
  obtain ⟨h1, h2⟩ := C181_materials hs h h' hphys ha le_rfl hb le_rfl hmat hl hl' κ k
  exact le_antisymm h2 h1

end

/-! ## Size of the cell -/

section
variable {neq : ℕ} {nodesRef nodesIma dofsRef dofsIma : List ℤ} {refDof imaDof : ℤ → Option (List ℤ)} {newNum : List ℤ} {wave : List ℝ}
  {coords : List (List ℝ)} {T : Matrix (Fin neq) (Fin (neq - dofsRef.length)) ℂ}

/-- Distances `s` times as long and a wave vector `s` times as short give the same phases. -/
theorem bloch_size {s : ℝ} (hs : s ≠ 0) (h : blochTransformMat wave coords neq nodesRef nodesIma dofsRef dofsIma refDof imaDof newNum = .ok T) :
    blochTransformMat (wave.map (· / s)) (coords.map (List.map (s * ·))) neq nodesRef nodesIma dofsRef dofsIma refDof imaDof newNum = .ok T := by
  rw [bloch_map (wave := wave) (coords := coords) (σ := RingHom.id ℂ), h]
  · show Except.ok _ = Except.ok _
    congr 1
  · intro p hp
    unfold pairPhase
    rw [pyGet_map, pyGet_map]
    cases h1 : pyGet coords p.1 with
    | error e => rfl
    | ok ci =>
      cases h2 : pyGet coords p.2 with
      | error e => rfl
      | ok cr =>
        have hsub : List.zipWith (· - ·) (ci.map (s * ·)) (cr.map (s * ·)) = (List.zipWith (· - ·) ci cr).map (s * ·) := by
          apply List.ext_getElem
          · simp
          · intro t h3 h4
            simp [mul_sub]
        have hdot : dot (wave.map (· / s)) ((List.zipWith (· - ·) ci cr).map (s * ·)) = dot wave (List.zipWith (· - ·) ci cr) := by
          unfold dot
          rw [List.length_map, List.length_map, List.zipWith_map]
          have : (fun x y : ℝ => x / s * (s * y)) = (· * ·) := by
            funext x y
            field_simp
          rw [this]
        show (dot (wave.map (· / s)) (List.zipWith (· - ·) (ci.map (s * ·)) (cr.map (s * ·))) >>= _) =
          (dot wave (List.zipWith (· - ·) ci cr) >>= _).map _
        rw [hsub, hdot]
        cases dot wave (List.zipWith (· - ·) ci cr) <;> rfl

end

section
variable {sq : ℝ → ℝ} {d d' : Gui.Data ℝ} {neq D : ℕ} {Kg Mg Kg' Mg' : Matrix (Fin neq) (Fin neq) ℝ} {ks ms ks' ms' : List (Member ℝ)}
  {nodesRef nodesIma dofsRef dofsIma : List ℤ} {refDof imaDof : ℤ → Option (List ℤ)} {newNum : List ℤ}

theorem magnified_coords {s : ℝ} (h3 : ∀ r ∈ d.nodes, r.length = 3) (hr : Magnified s d d') :
    d'.nodes.map (List.drop 1) = (d.nodes.map (List.drop 1)).map (List.map (s * ·)) := by
  apply List.ext_getElem
  · simp [hr.size]
  · intro p h1 h2
    have hp' : p < d'.nodes.length := by simpa using h1
    have hp : p < d.nodes.length := by rw [← hr.size]; exact hp'
    have a := h3 _ (List.getElem_mem hp)
    have b := hr.width _ (List.getElem_mem hp')
    have c0 := hr.coord p hp 0
    have c1 := hr.coord p hp 1
    obtain ⟨x0, x1, x2, hx⟩ := List.length_eq_three.1 a
    obtain ⟨y0, y1, y2, hy⟩ := List.length_eq_three.1 b
    simp only [coordOf, fieldOf, entry, List.getElem?_eq_getElem hp, List.getElem?_eq_getElem hp', hx, hy] at c0 c1
    simp only [List.getElem_map, hx, hy]
    simpa using ⟨c0, c1⟩

/-- C181.  A cell of continuum elements, or of bars, `s` times as large has the same diagram with wave vectors divided by `s` and squared
frequencies by `s ^ 2`. -/
theorem C181_size (hs : SqrtFn sq) (h : Vibrating sq d ks ms Kg Mg) (h' : Vibrating sq d' ks' ms' Kg' Mg') (hphys : Physical d) {s : ℝ} (h0 : 0 < s)
    (hr : Magnified s d d') (hone : Continuum d ∨ ∀ el ∈ d.elements, el[1]? = some 6) {l l' : (Fin D → ℝ) → Fin (neq - dofsRef.length) → ℝ}
    (hl : Branches D Kg Mg (d.nodes.map (List.drop 1)) nodesRef nodesIma dofsRef dofsIma refDof imaDof newNum l)
    (hl' : Branches D Kg' Mg' (d'.nodes.map (List.drop 1)) nodesRef nodesIma dofsRef dofsIma refDof imaDof newNum l') (κ : Fin D → ℝ)
    (k : Fin (neq - dofsRef.length)) : l' (fun i => κ i / s) k = l κ k / s ^ 2 := by
  have tw : ∀ el ∈ d.elements, ∀ m μ m' μ', IsMember (Routine sq) d.mats d.nodes el m → IsMember (MassRoutine sq) d.mats d.nodes el μ →
      IsMember (Routine sq) d'.mats d'.nodes el m' → IsMember (MassRoutine sq) d'.mats d'.nodes el μ' →
      ∃ n f params X kk mm kk' mm', ∃ ty : ℤ, el[1]? = some ty ∧ Uel.eleFun sq ty = .ok f ∧ Returns (n := n) (d := 2) f X params kk mm ∧
        Returns f (s • X) params kk' mm' ∧ (∀ u, m.form 2 u u = m.pick n u ⬝ᵥ kk.mulVec (m.pick n u)) ∧
        (∀ u, m'.form 2 u u = m.pick n u ⬝ᵥ kk'.mulVec (m.pick n u)) ∧ (∀ u, μ.form 2 u u = m.pick n u ⬝ᵥ mm.mulVec (m.pick n u)) ∧
        (∀ u, μ'.form 2 u u = m.pick n u ⬝ᵥ mm'.mulVec (m.pick n u)) ∧ (el.drop 3).length = n := by
    intro el hel m μ m' μ' g1 g2 g3 g4
    obtain ⟨n1, n2, n3, ty, mi, q, params, params', n, f, X, X', kk, kk', mm, mm', a1, a2, a3, a4, a5, a5', a6, a7, a8, a9, b7, b8,
      b9⟩ := pairs_twin g1 g2 g3 g4 h.plane.nodes hr.width (h.plane.types _ hel) (by rw [hr.mats]) hr.size
    rw [hr.mats, a5, Option.some.injEq] at a5'
    subst a5'
    obtain rfl := magnified_coord a8 b8 n2 (members_in g1) hr.coord
    exact ⟨n, f, params, X, kk, mm, kk', mm', ty, a1, a2, a7, b7, fun u => a8.form _ _, fun u => by rw [b8.form, pick_congr n2],
      fun u => by rw [a9.form, pick_congr n1], fun u => by rw [b9.form, pick_congr n3], by
        obtain ⟨_, _, _, _, _, _, _, -, -, -, c5, -⟩ := g1
        rw [c5.length_eq, a8.size]⟩
  obtain ⟨α, β, hα, hβ, hαβ, hP⟩ : ∃ α β : ℝ, 0 < α ∧ 0 < β ∧ α / β = 1 / s ^ 2 ∧ ∀ el ∈ d.elements, ∀ m μ m' μ',
      IsMember (Routine sq) d.mats d.nodes el m → IsMember (MassRoutine sq) d.mats d.nodes el μ →
      IsMember (Routine sq) d'.mats d'.nodes el m' → IsMember (MassRoutine sq) d'.mats d'.nodes el μ' →
      (∀ u, m'.form 2 u u = α * m.form 2 u u) ∧ ∀ u, μ'.form 2 u u = β * μ.form 2 u u := by
    rcases hone with hone | hone
    · refine ⟨1, s ^ 2, one_pos, by positivity, rfl, fun el hel m μ m' μ' g1 g2 g3 g4 => ?_⟩
      obtain ⟨n, f, params, X, kk, mm, kk', mm', ty, t1, t2, r1, r2, e1, e2, e3, e4, -⟩ := tw el hel m μ m' μ' g1 g2 g3 g4
      obtain ⟨rfl, rfl⟩ := C46_plane_size (structural_plane (hone _ hel ty t1) t2 r1) h0.ne' r1 r2
      refine ⟨fun u => ?_, fun u => ?_⟩
      · rw [e1, e2, one_mul]
      · rw [e3, e4, Matrix.smul_mulVec, dotProduct_smul, smul_eq_mul]
    · refine ⟨s⁻¹, s, inv_pos.2 h0, h0, by field_simp, fun el hel m μ m' μ' g1 g2 g3 g4 => ?_⟩
      obtain ⟨n, f, params, X, kk, mm, kk', mm', ty, t1, t2, r1, r2, e1, e2, e3, e4, hf⟩ := tw el hel m μ m' μ' g1 g2 g3 g4
      rw [hone _ hel, Option.some.injEq] at t1
      subst t1
      simp only [Uel.eleFun, Except.ok.injEq] at t2
      subst t2
      obtain rfl : n = 2 := by
        rcases h.plane.types _ hel 6 (hone _ hel) with h6 | ⟨-, h6⟩
        · simp at h6
        · omega
      obtain ⟨rfl, rfl⟩ := truss_size hs h0 r1 r2
      refine ⟨fun u => ?_, fun u => ?_⟩
      · rw [e1, e2, Matrix.smul_mulVec, dotProduct_smul, smul_eq_mul]
      · rw [e3, e4, Matrix.smul_mulVec, dotProduct_smul, smul_eq_mul]
  obtain ⟨l1, l2, l3, key⟩ := forms_pairs (P := fun m μ m' μ' => (∀ u, m'.form 2 u u = α * m.form 2 u u) ∧ ∀ u, μ'.form 2 u u = β * μ.form 2 u u)
    h.springs h.masses h'.springs h'.masses hr.elements hP
  have e1 : ∀ u, energyOf 2 ks' u = α * energyOf 2 ks u := fun u => le_antisymm
    (energy_le (T := id) l2 (fun e h1 h2 u => ((key e h1 (by omega) h2 (by omega)).1 u).le) u)
    (energy_ge (T := id) l2 (fun e h1 h2 u => ((key e h1 (by omega) h2 (by omega)).1 u).ge) u)
  have e2 : ∀ u, energyOf 2 ms' u = β * energyOf 2 ms u := fun u => le_antisymm
    (energy_le (T := id) l3 (fun e h1 h2 u => ((key e (by omega) h1 (by omega) h2).2 u).le) u)
    (energy_ge (T := id) l3 (fun e h1 h2 u => ((key e (by omega) h1 (by omega) h2).2 u).ge) u)
  have f : ∀ v : Fin neq → ℝ, v ⬝ᵥ Kg'.mulVec v = α * (v ⬝ᵥ Kg.mulVec v) ∧ v ⬝ᵥ Mg'.mulVec v = β * (v ⬝ᵥ Mg.mulVec v) := fun v => by
    obtain ⟨u, u1, u2, u3, u4⟩ := vibrating_forms h h' hr.cons v
    rw [u1, u2, u3, u4]
    exact ⟨e1 u, e2 u⟩
  have p0 := h.stiff_nonneg hs hphys
  obtain ⟨T, q, t1, t2⟩ := hl κ
  obtain ⟨T', q', t1', t2'⟩ := hl' fun i => κ i / s
  have e := bloch_size h0.ne' t1
  rw [← magnified_coords h.plane.nodes hr, List.map_ofFn] at e
  obtain rfl := Except.ok.inj (e.symm.trans t1')
  apply le_antisymm
  · have := waves_ratio (h.stiff hs) (h.mass hs).1 (h'.stiff hs) (h'.mass hs).1 p0 hα.le hβ (fun v => (f v).1.le) (fun v => (f v).2.ge) t2 t2' k
    rw [hαβ] at this
    rwa [div_eq_mul_one_div, mul_comm]
  · have := waves_ratio (h'.stiff hs) (h'.mass hs).1 (h.stiff hs) (h.mass hs).1 (fun v => by rw [(f v).1]; exact mul_nonneg hα.le (p0 v))
      (a := 1 / α) (b := 1 / β) (by positivity) (by positivity) (fun v => by rw [(f v).1]; field_simp; exact le_rfl)
      (fun v => by rw [(f v).2]; field_simp; exact le_rfl) t2' t2 k
    have e : 1 / α / (1 / β) = s ^ 2 := by
      rw [show 1 / α / (1 / β) = 1 / (α / β) by field_simp, hαβ]
      field_simp
    rw [e] at this
    rw [div_le_iff₀ (by positivity), mul_comm]
    exact this

end

/-! ## Cases -/

theorem testRod_physical (n : ℕ) {h E A ρ : ℝ} (hE : 0 ≤ E) (hA : 0 ≤ A) : Physical (testRod n h E A ρ) :=
  testBar_physical n hE hA (h := h) (ρ := ρ)

/-- The branches of the rod of the tests. -/
theorem testRod_branches {n : ℕ} (hn : 0 < n) {h E A ρ : ℝ} (hh : 0 < h) (hA : 0 < A) (hρ : 0 < ρ) :
    ∃ (Kg Mg : Matrix (Fin (n + 1)) (Fin (n + 1)) ℝ) (newNum : List ℤ) (ks ms : List (Member ℝ))
      (l : (Fin 2 → ℝ) → Fin (n + 1 - [(0 : ℤ)].length) → ℝ), Vibrating Real.sqrt (testRod n h E A ρ) ks ms Kg Mg ∧
      reassignDof (n + 1) [(n : ℤ)] [0] = .ok newNum ∧
      Branches 2 Kg Mg ((testRod n h E A ρ).nodes.map (List.drop 1)) [0] [(n : ℤ)] [0] [(n : ℤ)] (fun z => if z = 0 then some [0] else none)
        (fun z => if z = n then some [(n : ℤ)] else none) newNum l := by
  obtain ⟨op, bc, Kg, Mg, newNum, T, h1, h2, hw⟩ := C144_returns (refDof := fun z => if z = 0 then some [0] else none)
    (imaDof := fun z => if z = n then some [(n : ℤ)] else none) (testRod_periodic n h E A ρ) sqrtFn_real hh hn 0 0 (by simp) (by simp)
  obtain ⟨ks, ms, hv⟩ := (testRod_periodic n h E A ρ).vibrating sqrtFn_real hn hh hA hρ h1 h2
  obtain ⟨l, hl, -⟩ := C180_exists (D := 2) sqrtFn_real hv (rod_tied hw) hw.matrix rfl
  exact ⟨Kg, Mg, newNum, ks, ms, l, hv, hw.numbers, hl⟩

/-- Case for C181: a rod with twice the modulus and three times the density, and one twice as long. -/
example (n : ℕ) (hn : 0 < n) : ∃ (Kg Mg Kg' Mg' Kg'' Mg'' : Matrix (Fin (n + 1)) (Fin (n + 1)) ℝ) (newNum : List ℤ)
    (ks ms ks' ms' ks'' ms'' : List (Member ℝ)) (l l' l'' : (Fin 2 → ℝ) → Fin (n + 1 - [(0 : ℤ)].length) → ℝ),
    Vibrating Real.sqrt (testRod n 1 1 1 1) ks ms Kg Mg ∧ Vibrating Real.sqrt { testRod n 1 1 1 1 with mats := [[2 * 1, 1, 3]] } ks' ms' Kg' Mg' ∧
    Vibrating Real.sqrt (testRod n 2 1 1 1) ks'' ms'' Kg'' Mg'' ∧
    Branches 2 Kg Mg ((testRod n 1 1 1 1).nodes.map (List.drop 1)) [0] [(n : ℤ)] [0] [(n : ℤ)] (fun z => if z = 0 then some [0] else none)
      (fun z => if z = n then some [(n : ℤ)] else none) newNum l ∧
    Branches 2 Kg' Mg' ((testRod n 1 1 1 1).nodes.map (List.drop 1)) [0] [(n : ℤ)] [0] [(n : ℤ)] (fun z => if z = 0 then some [0] else none)
      (fun z => if z = n then some [(n : ℤ)] else none) newNum l' ∧
    Branches 2 Kg'' Mg'' ((testRod n 2 1 1 1).nodes.map (List.drop 1)) [0] [(n : ℤ)] [0] [(n : ℤ)] (fun z => if z = 0 then some [0] else none)
      (fun z => if z = n then some [(n : ℤ)] else none) newNum l'' ∧
    ∀ κ k, l' κ k = 2 / 3 * l κ k ∧ l'' (fun i => κ i / 2) k = l κ k / 2 ^ 2 := by
  obtain ⟨Kg, Mg, N, ks, ms, l, hv, hN, hl⟩ := testRod_branches hn (h := 1) (E := 1) (A := 1) (ρ := 1) one_pos one_pos one_pos
  obtain ⟨Kg', Mg', N', ks', ms', l', hv', hN', hl'⟩ := testRod_branches hn (h := 1) (E := 2 * 1) (A := 1) (ρ := 3) one_pos one_pos (by norm_num)
  obtain ⟨Kg'', Mg'', N'', ks'', ms'', l'', hv'', hN'', hl''⟩ := testRod_branches hn (h := 2) (E := 1) (A := 1) (ρ := 1) two_pos one_pos one_pos
  obtain rfl := Except.ok.inj (hN.symm.trans hN')
  obtain rfl := Except.ok.inj (hN.symm.trans hN'')
  have hp := testRod_physical n (h := 1) (E := 1) (A := 1) (ρ := 1) zero_le_one zero_le_one
  refine ⟨Kg, Mg, Kg', Mg', Kg'', Mg'', N, ks, ms, ks', ms', ks'', ms'', l, l', l'', hv, hv', hv'', hl, hl', hl'', fun κ k => ⟨?_, ?_⟩⟩
  · exact C181_proportional sqrtFn_real hv (mats' := [[2 * 1, 1, 3]]) hv' hp (by norm_num) (by norm_num)
      (.cons ⟨2, 3, 1, 1, [1], [3], le_rfl, le_rfl, le_rfl, le_rfl, rfl, rfl, by simp⟩ .nil) hl hl' κ k
  · refine C181_size sqrtFn_real hv hv'' hp two_pos ⟨rfl, rfl, rfl, rfl, by simp [testRod, testBar], hv''.plane.nodes, fun p hp i => ?_⟩
      (.inr fun el hel => ?_) hl hl'' κ k
    · have hp : p < n + 1 := by simpa [testRod, testBar] using hp
      fin_cases i <;> simp [coordOf, fieldOf, testRod, testBar, entry, List.getElem?_range hp, mul_comm]
    · obtain ⟨e, he, rfl⟩ := List.mem_map.1 hel
      rfl

end SolidsPy
