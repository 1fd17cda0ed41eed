import Verif.Props.LatticeModes

/-! # C150: waves in a plate of four-node elements -/

set_option linter.unusedSectionVars false

namespace SolidsPy
open Spec Fem Uel Gauss Pre Assem Matrix Bloch

/-- The two degrees of freedom of every node of a list. -/
def Spec.twoDofs (l : List ℤ) : List ℤ := l.flatMap fun z => [2 * z, 2 * z + 1]

/-- The data of a Bloch analysis of the plate with wave vector `(kx, ky)`: the nodes of the upper and of the right side are images,
each of the node at the same place of the opposite side, and the upper right corner of the lower left corner. -/
structure Spec.PlateWave (d : Gui.Data ℝ) (nx ny : ℕ) (kx ky : ℝ) (nodesRef nodesIma : List ℤ)
    (refDof imaDof : ℤ → Option (List ℤ)) (newNum : List ℤ)
    (T : Matrix (Fin (2 * ((nx + 1) * (ny + 1)))) (Fin (2 * ((nx + 1) * (ny + 1)) - (twoDofs nodesRef).length)) ℂ) : Prop where
  cols : 0 < nx
  rows : 0 < ny
  count : nodesRef.length = nodesIma.length
  once : nodesIma.Nodup
  pairs : ∀ p : ℤ × ℤ, p ∈ nodesIma.zip nodesRef ↔ ∃ r c : ℕ, r ≤ ny ∧ c ≤ nx ∧ (r = ny ∨ c = nx) ∧
    p = ((nodeNo nx r c : ℤ), (nodeNo nx (r % ny) (c % nx) : ℤ))
  refs : ∀ z ∈ nodesRef, refDof z = some [2 * z, 2 * z + 1]
  imas : ∀ z ∈ nodesIma, imaDof z = some [2 * z, 2 * z + 1]
  numbers : reassignDof (2 * ((nx + 1) * (ny + 1))) (twoDofs nodesIma) (twoDofs nodesRef) = .ok newNum
  matrix : blochTransformMat [kx, ky] (d.nodes.map (List.drop 1)) (2 * ((nx + 1) * (ny + 1))) nodesRef nodesIma
    (twoDofs nodesRef) (twoDofs nodesIma) refDof imaDof newNum = .ok T

theorem mem_twoDofs {l : List ℤ} {x : ℤ} : x ∈ twoDofs l ↔ ∃ z ∈ l, ∃ j : Fin 2, x = 2 * z + ((j : ℕ) : ℤ) := by
  unfold twoDofs
  simp [Fin.exists_fin_two]

theorem twoDofs_nodup {l : List ℤ} (h : l.Nodup) : (twoDofs l).Nodup := by
  induction l with
  | nil => exact List.nodup_nil
  | cons a l ih =>
    rw [List.nodup_cons] at h
    show ([2 * a, 2 * a + 1] ++ twoDofs l).Nodup
    rw [List.nodup_append]
    refine ⟨by simp, ih h.2, ?_⟩
    intro x hx y hy e
    subst e
    obtain ⟨z, hz, j, e⟩ := mem_twoDofs.1 hy
    have : z = a := by
      simp at hx
      omega
    exact h.1 (this ▸ hz)

theorem twoDofs_length (l : List ℤ) : (twoDofs l).length = 2 * l.length := by
  induction l with
  | nil => rfl
  | cons a l ih =>
    show ([2 * a, 2 * a + 1] ++ twoDofs l).length = _
    rw [List.length_append, ih, List.length_cons]
    simp
    omega

section
variable {sq : ℝ → ℝ} {d : Gui.Data ℝ} {L H E nu ρ kx ky : ℝ} {nx ny : ℕ} {op bc : List (List ℤ)}
  {nodesRef nodesIma : List ℤ} {refDof imaDof : ℤ → Option (List ℤ)} {newNum : List ℤ}

/-- The ties of the plate. -/
theorem plate_links (hrd : ∀ z ∈ nodesRef, refDof z = some [2 * z, 2 * z + 1])
    (him : ∀ z ∈ nodesIma, imaDof z = some [2 * z, 2 * z + 1]) :
    links nodesIma nodesRef refDof imaDof =
      (nodesIma.zip nodesRef).flatMap fun p => [⟨2 * p.1, 2 * p.2, p.1, p.2⟩, ⟨2 * p.1 + 1, 2 * p.2 + 1, p.1, p.2⟩] := by
  unfold links
  refine List.flatMap_congr fun p hp => ?_
  obtain ⟨h1, h2⟩ := List.of_mem_zip (show (p.1, p.2) ∈ _ from hp)
  rw [hrd _ h2, him _ h1]
  rfl

theorem mem_plate_links (hrd : ∀ z ∈ nodesRef, refDof z = some [2 * z, 2 * z + 1])
    (him : ∀ z ∈ nodesIma, imaDof z = some [2 * z, 2 * z + 1]) {l : Link} :
    l ∈ links nodesIma nodesRef refDof imaDof ↔ ∃ p ∈ nodesIma.zip nodesRef, ∃ j : Fin 2,
      l = ⟨2 * p.1 + ((j : ℕ) : ℤ), 2 * p.2 + ((j : ℕ) : ℤ), p.1, p.2⟩ := by
  rw [plate_links hrd him]
  simp [Fin.exists_fin_two]

/-- What the lists of nodes of the analysis must be. -/
def SidePairs (nx ny : ℕ) (nodesRef nodesIma : List ℤ) : Prop :=
  ∀ p : ℤ × ℤ, p ∈ nodesIma.zip nodesRef ↔ ∃ r c : ℕ, r ≤ ny ∧ c ≤ nx ∧ (r = ny ∨ c = nx) ∧
    p = ((nodeNo nx r c : ℤ), (nodeNo nx (r % ny) (c % nx) : ℤ))

theorem side_ima (hcount : nodesRef.length = nodesIma.length) (hp : SidePairs nx ny nodesRef nodesIma) {z : ℤ} :
    z ∈ nodesIma ↔ ∃ r c : ℕ, r ≤ ny ∧ c ≤ nx ∧ (r = ny ∨ c = nx) ∧ z = (nodeNo nx r c : ℤ) := by
  have e : (nodesIma.zip nodesRef).map Prod.fst = nodesIma := by
    rw [List.map_fst_zip]
    omega
  constructor
  · intro h
    rw [← e] at h
    obtain ⟨p, h1, h2⟩ := List.mem_map.1 h
    obtain ⟨r, c, hr, hc, h3, h4⟩ := (hp p).1 h1
    exact ⟨r, c, hr, hc, h3, by rw [← h2, h4]⟩
  · rintro ⟨r, c, hr, hc, h3, rfl⟩
    exact (List.of_mem_zip ((hp _).2 ⟨r, c, hr, hc, h3, rfl⟩)).1

theorem side_pairing (hx : 0 < nx) (hy : 0 < ny) (hcount : nodesRef.length = nodesIma.length) (hn : nodesIma.Nodup)
    (hp : SidePairs nx ny nodesRef nodesIma) (hrd : ∀ z ∈ nodesRef, refDof z = some [2 * z, 2 * z + 1])
    (him : ∀ z ∈ nodesIma, imaDof z = some [2 * z, 2 * z + 1]) :
    Pairing (2 * ((nx + 1) * (ny + 1))) (twoDofs nodesIma) (links nodesIma nodesRef refDof imaDof) := by
  refine ⟨?_, ?_, ?_, ?_⟩
  · intro l hl
    obtain ⟨p, h1, j, rfl⟩ := (mem_plate_links hrd him).1 hl
    exact mem_twoDofs.2 ⟨_, (List.of_mem_zip (show (p.1, p.2) ∈ _ from h1)).1, j, rfl⟩
  · have : (links nodesIma nodesRef refDof imaDof).map Link.ima = twoDofs nodesIma := by
      rw [plate_links hrd him, List.map_flatMap]
      conv_rhs => rw [← List.map_fst_zip (l₁ := nodesIma) (l₂ := nodesRef) (by omega)]
      unfold twoDofs
      rw [List.flatMap_map]
      rfl
    rw [this]
    exact twoDofs_nodup hn
  · intro e he hm
    obtain ⟨z, hz, j, h1⟩ := mem_twoDofs.1 hm
    obtain ⟨r, c, hr, hc, h2, h3⟩ := (side_ima hcount hp).1 hz
    exact ⟨_, (mem_plate_links hrd him).2 ⟨_, (hp _).2 ⟨r, c, hr, hc, h2, rfl⟩, j, rfl⟩, by rw [h1, h3]⟩
  · intro l hl
    obtain ⟨p, h1, j, rfl⟩ := (mem_plate_links hrd him).1 hl
    obtain ⟨r, c, hr, hc, h2, rfl⟩ := (hp p).1 h1
    have l1 := Nat.mod_lt r hy
    have l2 := Nat.mod_lt c hx
    have hlt := nodeNo_lt (nx := nx) (ny := ny) (r := r % ny) (c := c % nx) (by omega) (by omega)
    dsimp only
    refine ⟨fun hm => ?_, by omega, by omega⟩
    obtain ⟨z, hz, j', h3⟩ := mem_twoDofs.1 hm
    obtain ⟨r', c', hr', hc', h4, h5⟩ := (side_ima hcount hp).1 hz
    have : nodeNo nx (r % ny) (c % nx) = nodeNo nx r' c' := by omega
    obtain ⟨e1, e2⟩ := nodeNo_inj (by omega) hc' this
    omega

/-- The phase from a node to its image. -/
theorem plate_shift (hg : GridModel d L H nx ny E nu [ρ]) (hx : 0 < nx) (hy : 0 < ny) {r c : ℕ} (hr : r ≤ ny) (hc : c ≤ nx) :
    Shift [kx, ky] (d.nodes.map (List.drop 1)) (nodeNo nx r c : ℤ) (nodeNo nx (r % ny) (c % nx) : ℤ)
      (kx * (if c = nx then L else 0) + ky * (if r = ny then H else 0)) := by
  have l1 := Nat.mod_lt r hy
  have l2 := Nat.mod_lt c hx
  obtain ⟨i0, e0⟩ := hg.row hr hc
  obtain ⟨i1, e1⟩ := hg.row (r := r % ny) (c := c % nx) (by omega) (by omega)
  refine ⟨_, _, [-L / 2 + c * (L / nx), -H / 2 + r * (H / ny)], [-L / 2 + (c % nx : ℕ) * (L / nx), -H / 2 + (r % ny : ℕ) * (H / ny)],
    ⟨by rw [List.length_map]; exact (List.getElem?_eq_some_iff.1 e0).1, .inl rfl⟩,
    ⟨by rw [List.length_map]; exact (List.getElem?_eq_some_iff.1 e1).1, .inl rfl⟩,
    by rw [List.getElem?_map, e0]; rfl, by rw [List.getElem?_map, e1]; rfl, rfl, ?_⟩
  show _ = ∑ t : Fin 2, _
  rw [Fin.sum_univ_two]
  have hx' : (nx : ℝ) ≠ 0 := by exact_mod_cast hx.ne'
  have hy' : (ny : ℝ) ≠ 0 := by exact_mod_cast hy.ne'
  have ec : ((c : ℝ) - (c % nx : ℕ)) * (L / nx) = if c = nx then L else 0 := by
    split_ifs with h
    · subst h
      rw [Nat.mod_self]
      push_cast
      field_simp
      ring
    · rw [Nat.mod_eq_of_lt (by omega), sub_self, zero_mul]
  have er : ((r : ℝ) - (r % ny : ℕ)) * (H / ny) = if r = ny then H else 0 := by
    split_ifs with h
    · subst h
      rw [Nat.mod_self]
      push_cast
      field_simp
      ring
    · rw [Nat.mod_eq_of_lt (by omega), sub_self, zero_mul]
  rw [← ec, ← er]
  simp
  ring

variable {T : Matrix (Fin (2 * ((nx + 1) * (ny + 1)))) (Fin (2 * ((nx + 1) * (ny + 1)) - (twoDofs nodesRef).length)) ℂ}

theorem Spec.PlateWave.pairing (hw : PlateWave d nx ny kx ky nodesRef nodesIma refDof imaDof newNum T) :
    Pairing (2 * ((nx + 1) * (ny + 1))) (twoDofs nodesIma) (links nodesIma nodesRef refDof imaDof) :=
  side_pairing hw.cols hw.rows hw.count hw.once hw.pairs hw.refs hw.imas

theorem side_range (hcount : nodesRef.length = nodesIma.length) (hp : SidePairs nx ny nodesRef nodesIma) :
    ∀ z ∈ twoDofs nodesIma, 0 ≤ z ∧ z < ((2 * ((nx + 1) * (ny + 1)) : ℕ) : ℤ) := by
  intro z hz
  obtain ⟨x, hx, j, rfl⟩ := mem_twoDofs.1 hz
  obtain ⟨r, c, hr, hc, -, rfl⟩ := (side_ima hcount hp).1 hx
  have := nodeNo_lt hr hc
  omega

theorem Spec.PlateWave.numbered (hw : PlateWave d nx ny kx ky nodesRef nodesIma refDof imaDof newNum T) :
    (∀ e f : ℕ, e < 2 * ((nx + 1) * (ny + 1)) → f < 2 * ((nx + 1) * (ny + 1)) → (e : ℤ) ∉ twoDofs nodesIma →
      (f : ℤ) ∉ twoDofs nodesIma → newNum[e]? = newNum[f]? → e = f) ∧
    ∀ c : Fin (2 * ((nx + 1) * (ny + 1)) - (twoDofs nodesRef).length), ∃ e : ℕ, e < 2 * ((nx + 1) * (ny + 1)) ∧
      (e : ℤ) ∉ twoDofs nodesIma ∧ newNum[e]? = some ((c : ℕ) : ℤ) :=
  C86_reassigned hw.numbers (twoDofs_nodup hw.once) (side_range hw.count hw.pairs)
    (by rw [twoDofs_length, twoDofs_length, hw.count])

theorem Spec.PlateWave.injective (hw : PlateWave d nx ny kx ky nodesRef nodesIma refDof imaDof newNum T) :
    Function.Injective T.mulVec := C86_injective hw.matrix hw.pairing hw.numbered.2

/-- The fields the reduced vectors stand for. -/
theorem Spec.PlateWave.range (hg : GridModel d L H nx ny E nu [ρ]) (hw : PlateWave d nx ny kx ky nodesRef nodesIma refDof imaDof newNum T)
    {z y : ℂ} (hz : z ^ nx = Complex.exp (Complex.I * ((kx * L : ℝ) : ℂ))) (hy : y ^ ny = Complex.exp (Complex.I * ((ky * H : ℝ) : ℂ)))
    (u : Fin (2 * ((nx + 1) * (ny + 1))) → ℂ) : (∃ q, T.mulVec q = u) ↔ Carried nx ny z y (gridField nx ny u) := by
  have h0x := hw.cols
  have h0y := hw.rows
  rw [C85_range hw.matrix hw.pairing hw.numbered.2 hw.numbered.1]
  have key : (∀ l ∈ links nodesIma nodesRef refDof imaDof, ∀ (d' r : Fin (2 * ((nx + 1) * (ny + 1)))) (φ : ℝ),
      l.ima = ((d' : ℕ) : ℤ) → l.ref = ((r : ℕ) : ℤ) → Shift [kx, ky] (d.nodes.map (List.drop 1)) l.nodeIma l.nodeRef φ →
      u d' = Complex.exp (Complex.I * (φ : ℂ)) * u r) ↔
      ∀ r c : ℕ, r ≤ ny → c ≤ nx → (r = ny ∨ c = nx) → ∀ j, gridField nx ny u r c j =
        (if c = nx then z ^ nx else 1) * (if r = ny then y ^ ny else 1) * gridField nx ny u (r % ny) (c % nx) j := by
    have hφ : ∀ r c : ℕ, Complex.exp (Complex.I * ((kx * (if c = nx then L else 0) + ky * (if r = ny then H else 0) : ℝ) : ℂ)) =
        (if c = nx then z ^ nx else 1) * (if r = ny then y ^ ny else 1) := by
      intro r c
      rw [hz, hy]
      by_cases h1 : c = nx <;> by_cases h2 : r = ny
      · simp only [h1, h2, if_true]
        rw [← Complex.exp_add]
        push_cast
        ring_nf
      · simp [h1, h2]
      · simp [h1, h2]
      · simp [h1, h2]
    constructor
    · intro h r c hr hc hside j
      have l1 := Nat.mod_lt r h0y
      have l2 := Nat.mod_lt c h0x
      obtain ⟨b1, e1⟩ := gridField_at u hr hc j
      obtain ⟨b2, e2⟩ := gridField_at u (r := r % ny) (c := c % nx) (by omega) (by omega) j
      have hl := (mem_plate_links hw.refs hw.imas).2 ⟨_, (hw.pairs _).2 ⟨r, c, hr, hc, hside, rfl⟩, j, rfl⟩
      have := h _ hl ⟨_, b1⟩ ⟨_, b2⟩ _ (by push_cast; rfl) (by push_cast; rfl) (plate_shift hg h0x h0y hr hc)
      rw [e1, e2, this, hφ]
    · intro h l hl e f φ he hf hs
      obtain ⟨p, hp, j, rfl⟩ := (mem_plate_links hw.refs hw.imas).1 hl
      obtain ⟨r, c, hr, hc, hside, rfl⟩ := (hw.pairs p).1 hp
      have l1 := Nat.mod_lt r h0y
      have l2 := Nat.mod_lt c h0x
      dsimp only at he hf hs
      rw [shift_unique hs (plate_shift hg h0x h0y hr hc), hφ]
      have := h r c hr hc hside j
      obtain ⟨b1, e1⟩ := gridField_at u hr hc j
      obtain ⟨b2, e2⟩ := gridField_at u (r := r % ny) (c := c % nx) (by omega) (by omega) j
      rw [e1, e2] at this
      obtain rfl : (⟨_, b1⟩ : Fin (2 * ((nx + 1) * (ny + 1)))) = e := Fin.ext (by dsimp only; omega)
      obtain rfl : (⟨_, b2⟩ : Fin (2 * ((nx + 1) * (ny + 1)))) = f := Fin.ext (by dsimp only; omega)
      exact this
  rw [key]
  constructor
  · intro h
    constructor
    · intro r hr j
      rcases Nat.lt_or_ge r ny with hlt | hge
      · have := h r nx hr le_rfl (.inr rfl) j
        rwa [if_pos rfl, if_neg hlt.ne, mul_one, Nat.mod_eq_of_lt hlt, Nat.mod_self] at this
      · obtain rfl : r = ny := by omega
        have h1 := h r nx hr le_rfl (.inr rfl) j
        have h2 := h r 0 hr (by omega) (.inl rfl) j
        rw [if_pos rfl, if_pos rfl, Nat.mod_self, Nat.mod_self] at h1
        rw [if_neg h0x.ne, if_pos rfl, one_mul, Nat.mod_self, Nat.zero_mod] at h2
        rw [h1, h2, mul_assoc]
    · intro c hc j
      rcases Nat.lt_or_ge c nx with hlt | hge
      · have := h ny c le_rfl hc (.inl rfl) j
        rwa [if_pos rfl, if_neg hlt.ne, one_mul, Nat.mod_eq_of_lt hlt, Nat.mod_self] at this
      · obtain rfl : c = nx := by omega
        have h1 := h ny c le_rfl hc (.inr rfl) j
        have h2 := h 0 c (by omega) hc (.inr rfl) j
        rw [if_pos rfl, if_pos rfl, Nat.mod_self, Nat.mod_self] at h1
        rw [if_neg h0y.ne, if_pos rfl, mul_one, Nat.mod_self, Nat.zero_mod] at h2
        rw [h1, h2]
        ring
  · intro h r c hr hc hside j
    rcases Nat.lt_or_ge r ny with h1 | h1 <;> rcases Nat.lt_or_ge c nx with h2 | h2
    · omega
    · obtain rfl : c = nx := by omega
      rw [if_pos rfl, if_neg h1.ne, mul_one, Nat.mod_eq_of_lt h1, Nat.mod_self, h.1 r hr]
    · obtain rfl : r = ny := by omega
      rw [if_pos rfl, if_neg h2.ne, one_mul, Nat.mod_eq_of_lt h2, Nat.mod_self, h.2 c hc]
    · obtain rfl : c = nx := by omega
      obtain rfl : r = ny := by omega
      rw [if_pos rfl, if_pos rfl, Nat.mod_self, Nat.mod_self, h.1 r hr, h.2 0 (by omega), mul_assoc]

end

end SolidsPy
