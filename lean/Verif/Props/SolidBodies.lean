import Verif.Props.UserElements
import Verif.Props.Success
import Verif.Props.Modes
import Verif.Spec.Bodies

/-! # C136: solid bodies of tetrahedra or bricks -/

set_option linter.unusedSectionVars false

namespace SolidsPy
open Spec Assem Matrix

section
variable {K : Type} [Field K] [LinearOrder K] [IsStrictOrderedRing K] [FloorRing K]
variable {f : Uel K} {tab : ℤ → Py (Uel K)} {nd n m : ℕ} {cons mats nodes loads : Table K} {elements : List (List ℤ)}
  {ms : List (Member K)}

/-- With symmetric, positive semidefinite elements a model is stable exactly when no admissible displacement but zero
has zero energy. -/
theorem stable_iff_energy (hinn : ∀ m ∈ ms, ∀ p ∈ m.nodes, p < cons.length)
    (hsym : ∀ m ∈ ms, ∀ v u, m.form nd v u = m.form nd u v) (hpsd : ∀ m ∈ ms, ∀ u, 0 ≤ m.form nd u u) :
    Stable cons nd ms ↔ ∀ u : ℕ → ℕ → K, Admissible cons nd u →
      (ms.map fun m => m.form nd u u).sum = 0 → ∀ p j, p < cons.length → j < nd → u p j = 0 := by
  constructor
  · intro hst u ha h0
    refine hst u ha fun p j hf => ?_
    -- the form on the unit field at (p, j)
    let B : (ℕ → ℕ → K) → (ℕ → ℕ → K) → K := fun v w =>
      ∑ p ∈ Finset.range cons.length, ∑ j ∈ Finset.range nd, v p j * internal nd ms w p j
    have hB : ∀ v w, B v w = (ms.map fun m => m.form nd v w).sum := fun v w => virtual_work hinn v w
    have hBs : ∀ v w, B v w = B w v := by
      intro v w
      rw [hB, hB]
      congr 1
      exact List.map_congr_left fun m hm => hsym m hm v w
    have hBp : ∀ v, 0 ≤ B v v := by
      intro v
      rw [hB]
      apply List.sum_nonneg
      intro y hy
      obtain ⟨m, hm, rfl⟩ := List.mem_map.1 hy
      exact hpsd m hm v
    have hBl : ∀ (t : K) v w, B w (fun p j => 1 * u p j + t * v p j) = B w u + t * B w v := by
      intro t v w
      simp only [B, internal_linear, Finset.mul_sum, ← Finset.sum_add_distrib]
      exact Finset.sum_congr rfl fun p _ => Finset.sum_congr rfl fun j _ => by ring
    let v : ℕ → ℕ → K := fun q i => if q = p ∧ i = j then 1 else 0
    have hBv : B v u = internal nd ms u p j := by
      simp only [B, v]
      rw [Finset.sum_eq_single p, Finset.sum_eq_single j]
      · simp
      · intro b _ hb
        simp [hb]
      · intro hc
        exact absurd (Finset.mem_range.2 hf.1) hc
      · intro b _ hb
        refine Finset.sum_eq_zero fun i _ => by simp [hb]
      · intro hc
        exact absurd (Finset.mem_range.2 (free_lt hf)) hc
    have hB0 : B u u = 0 := by rw [hB, h0]
    have hq : ∀ t : K, 0 ≤ 2 * t * B v u + t * t * B v v := by
      intro t
      have h := hBp (fun p j => 1 * u p j + t * v p j)
      rw [hBl, hBs _ u, hBs _ v, hBl, hBl, hB0, hBs u v] at h
      linarith
    rw [← hBv]
    by_contra hne
    have h1 := hq 1
    have h2 := hq (-1)
    have h3 := hBp v
    rcases h3.eq_or_lt with h3 | h3
    · rw [← h3] at h1 h2
      exact hne (by linarith)
    · have h4 := hq (-(B v u) / B v v)
      have h5 : 2 * (-(B v u) / B v v) * B v u + -(B v u) / B v v * (-(B v u) / B v v) * B v v =
          -(B v u * B v u / B v v) := by
        field_simp
        ring
      rw [h5] at h4
      have h6 : 0 < B v u * B v u / B v v := div_pos (mul_self_pos.2 hne) h3
      linarith
  · intro H u ha hz
    refine H u ha ?_
    rw [← virtual_work hinn u u]
    refine Finset.sum_eq_zero fun p hp => Finset.sum_eq_zero fun j hj => ?_
    rw [Finset.mem_range] at hp hj
    by_cases hf : Free cons nd p j
    · rw [hz p j hf, mul_zero]
    · rw [ha p j hp hj hf, zero_mul]

/-- The element `m` has its `n` nodes at `X` in space and the stiffness `k`. -/
structure Placed3 (nodes : Table K) (m : Member K) (X : Matrix (Fin n) (Fin 3) K)
    (k : Matrix (Fin n × Fin 3) (Fin n × Fin 3) K) : Prop where
  size : m.nodes.length = n
  coord : ∀ (a : Fin n) (i : Fin 3), entry nodes (m.nodes.getD a 0) (i + 1) = some (X a i)
  stiff : ∀ p q, m.k (3 * p.1 + p.2) (3 * q.1 + q.2) = k p q

/-- Values of a nodal field in space at the nodes of an element. -/
def Spec.Member.pick3 (m : Member K) (n : ℕ) (u : ℕ → ℕ → K) : Fin n × Fin 3 → K :=
  fun q => u (m.nodes.getD q.1 0) q.2

theorem Placed3.form {m : Member K} {X : Matrix (Fin n) (Fin 3) K} {k} (h : Placed3 nodes m X k) (v u : ℕ → ℕ → K) :
    m.form 3 v u = m.pick3 n v ⬝ᵥ k.mulVec (m.pick3 n u) := by
  unfold Member.form dotProduct Member.force Matrix.mulVec dotProduct
  rw [h.size, Finset.sum_range, Fintype.sum_prod_type]
  refine Finset.sum_congr rfl fun b _ => ?_
  rw [Finset.sum_range]
  refine Finset.sum_congr rfl fun c _ => ?_
  dsimp only [Member.pick3]
  congr 1
  rw [Finset.sum_range, Fintype.sum_prod_type]
  refine Finset.sum_congr rfl fun b' _ => ?_
  rw [Finset.sum_range]
  refine Finset.sum_congr rfl fun c' _ => ?_
  rw [← h.stiff (b, c) (b', c')]

theorem cell_of_holds3 {A : NdArr K} {k : Matrix (Fin n × Fin 3) (Fin n × Fin 3) K} (h : Holds A k)
    (p q : Fin n × Fin 3) : cell A (3 * p.1 + p.2) (3 * q.1 + q.2) = k p q := by
  obtain ⟨⟨B, rfl⟩, h2⟩ := h
  have := h2 p q
  unfold NdArr.get2 at this
  unfold cell
  dsimp only at this ⊢
  split at this
  · next hb =>
    rw [dif_pos hb]
    simpa using this
  · simp at this

theorem placed3_of_rows {m : Member K} {rows : List (List K)}
    {X : Matrix (Fin n) (Fin 3) K} {k : Matrix (Fin n × Fin 3) (Fin n × Fin 3) K} {kl : NdArr K}
    (h1 : List.Forall₂ (fun p row => nodes[p]? = some row) m.nodes rows)
    (h2 : rows.map (List.drop 1) = matRows X) (h3 : m.k = cell kl) (h4 : Holds kl k) : Placed3 nodes m X k := by
  have hl : rows.length = n := by
    have := congrArg List.length h2
    simpa [matRows] using this
  have hm : m.nodes.length = n := h1.length_eq.trans hl
  refine ⟨hm, fun a i => ?_, fun p q => ?_⟩
  · have ha : (a : ℕ) < m.nodes.length := by rw [hm]; exact a.2
    have hb : (a : ℕ) < rows.length := by rw [hl]; exact a.2
    have e1 := h1.get (i := a) ha hb
    simp only [List.get_eq_getElem] at e1
    rw [entry_some]
    refine ⟨rows[(a : ℕ)], ?_, ?_⟩
    · rw [List.getD_eq_getElem?_getD, List.getElem?_eq_getElem ha, Option.getD_some]
      exact e1
    · have e2 : (rows.map (List.drop 1))[(a : ℕ)]? = (matRows X)[(a : ℕ)]? := by rw [h2]
      rw [List.getElem?_map, List.getElem?_eq_getElem hb] at e2
      simp only [matRows, Option.map_some, List.getElem?_ofFn, a.2, dif_pos, Option.some.injEq] at e2
      have e3 := congrArg (fun l => l[(i : ℕ)]?) e2
      simp only [List.getElem?_drop, List.getElem?_ofFn, i.2, dif_pos] at e3
      rw [add_comm]
      exact e3
  · rw [h3]
    exact cell_of_holds3 h4 p q

/-- A described solid element, in matrix form. -/
theorem member_placed3 (hf : SolidElement n f) {el : List ℤ} {mb : Member K} (h : Describes f mats nodes el mb) :
    ∃ mi, ∃ q : ℕ, ∃ params X k mm, el[2]? = some mi ∧ Resolves mats.length mi q ∧ mats[q]? = some params ∧
      Returns (n := n) (d := 3) f X params k mm ∧ Placed3 nodes mb X k := by
  obtain ⟨ty, mi, params, rows, f', kl, ml, a1, a2, ⟨q, a3, a4⟩, a5, a6, rfl, a8, a9⟩ := h
  obtain ⟨X, k, mm, hX, hk, -, hr⟩ := C38_solid_shape hf a8
  exact ⟨mi, q, params, X, k, mm, a2, a3, a4, hr, placed3_of_rows a6 hX a9 hk⟩

theorem Placed3.rigid_pick {mb : Member K} {X : Matrix (Fin n) (Fin 3) K} {k}
    (h : Placed3 nodes mb X k) (c : Fin 3 → K) (G : Matrix (Fin 3) (Fin 3) K) (v : ℕ → ℕ → K)
    (hv : ∀ p (j : Fin 3), v p j = affine c G (fun i => coordOf nodes p i) j) :
    mb.pick3 n v = sample X (affine c G) := by
  funext ⟨a, j⟩
  unfold Member.pick3
  rw [hv]
  unfold sample
  dsimp only
  congr 1
  funext i
  unfold coordOf fieldOf
  rw [h.coord a i]
  rfl

theorem describes_inn (hms : List.Forall₂ (Describes f mats nodes) elements ms) : ∀ m ∈ ms, ∀ p ∈ m.nodes, p < nodes.length := by
  intro m hm p hp
  obtain ⟨i, hi, rfl⟩ := List.mem_iff_getElem.1 hm
  have hi' : i < elements.length := by rw [hms.length_eq]; exact hi
  obtain ⟨ty, mi, params, rows, f', kl, ml, a1, a2, _, a5, _⟩ := hms.get (i := i) hi' hi
  simp only [List.get_eq_getElem] at a5
  obtain ⟨b, hb, rfl⟩ := List.mem_iff_getElem.1 hp
  have hb' : b < (elements[i].drop 3).length := by rw [a5.length_eq]; exact hb
  exact (a5.get (i := b) hb' hb).1

theorem described (hms : List.Forall₂ (Describes f mats nodes) elements ms) {mb : Member K} (hm : mb ∈ ms) :
    ∃ el ∈ elements, Describes f mats nodes el mb := by
  obtain ⟨i, hi, rfl⟩ := List.mem_iff_getElem.1 hm
  have hi' : i < elements.length := by rw [hms.length_eq]; exact hi
  exact ⟨_, List.getElem_mem hi', hms.get (i := i) hi' hi⟩

theorem solid_rigid_work (hf : SolidElement n f) (hms : List.Forall₂ (Describes f mats nodes) elements ms) (u v : ℕ → ℕ → K)
    (c : Fin 3 → K) {G : Matrix (Fin 3) (Fin 3) K} (hG : Skew G)
    (hv : ∀ p (j : Fin 3), v p j = affine c G (fun i => coordOf nodes p i) j) :
    ∑ p ∈ Finset.range nodes.length, ∑ j ∈ Finset.range 3, v p j * internal 3 ms u p j = 0 := by
  rw [virtual_work (describes_inn hms)]
  apply List.sum_eq_zero
  intro x hx
  obtain ⟨mb, hm, rfl⟩ := List.mem_map.1 hx
  obtain ⟨el, -, hd⟩ := described hms hm
  obtain ⟨mi, q, params, X, k, mm, -, -, -, hr, hpl⟩ := member_placed3 hf hd
  rw [hpl.form, hpl.rigid_pick c G v hv, Matrix.dotProduct_mulVec, ← Matrix.mulVec_transpose,
    (C38_solid_symmetric hf hr).1.eq, C40_solid_rigid hf hr c hG, zero_dotProduct]

/-- C136.  Whatever the nodal displacements, the internal forces of a solid body have no resultant and no moment about
any of the three axes. -/
theorem C136_internal_balance (hf : SolidElement n f) (hms : List.Forall₂ (Describes f mats nodes) elements ms) (u : ℕ → ℕ → K) :
    (∀ j < 3, resultant nodes.length (internal 3 ms u) j = 0) ∧
      ∀ a < 3, ∀ b < 3, moment3 nodes (internal 3 ms u) a b = 0 := by
  constructor
  · intro j hj
    have h := solid_rigid_work hf hms u (fun _ i => if i = j then 1 else 0)
      (fun i => if (i : ℕ) = j then 1 else 0) (G := 0) (by intro i j; simp) (by
        intro p i
        simp [affine])
    rw [← h]
    unfold resultant
    refine Finset.sum_congr rfl fun p _ => ?_
    rw [Finset.sum_eq_single j]
    · simp
    · intro b _ hb
      simp [hb]
    · intro hc
      exact absurd (Finset.mem_range.2 hj) hc
  · intro a ha b hb
    have h := solid_rigid_work hf hms u
      (fun p i => (if i = b then coordOf nodes p a else 0) - if i = a then coordOf nodes p b else 0)
      (fun _ => 0) (G := Matrix.of fun i j => (if (i : ℕ) = b ∧ (j : ℕ) = a then 1 else 0) -
        if (i : ℕ) = a ∧ (j : ℕ) = b then 1 else 0) (by
          intro i j
          simp only [Matrix.of_apply, and_comm, neg_sub]) (by
        intro p i
        simp only [affine, Matrix.of_apply, zero_add, Fin.sum_univ_three]
        interval_cases a <;> interval_cases b <;> fin_cases i <;> simp)
    rw [← h]
    unfold moment3
    refine Finset.sum_congr rfl fun p _ => ?_
    simp only [Finset.sum_range_succ, Finset.sum_range_zero, zero_add]
    interval_cases a <;> interval_cases b <;> simp <;> ring

/-- C136.  The reactions (internal force minus load) of the displacements the analysis returns vanish where the degree of
freedom is free, and balance the loads in force and moment. -/
theorem C136_reactions (hf : SolidElement n f) (hu : UserModel 3 n cons nodes elements) {count : ℤ → Py ℕ}
    (hc : Counts count (n * 3) elements) (h0 : 0 < n * 3) (hm : n * 3 ≤ m)
    (hms : List.Forall₂ (Describes f mats nodes) elements ms) (hst : Stable cons 3 ms) {sp de : Sol.Solver K} (hsp : SolverOk sp)
    (hde : SolverOk de) {sparse : Bool} {full : Table K}
    (hl : ∀ L ∈ loads, 4 ≤ L.length ∧ ∃ p, Names nodes.length L p)
    (h : userRun tab f 3 m count sp de sparse cons elements mats nodes loads = .ok full)
    {F : ℕ → ℕ → K} (hF : ∀ p j, p < nodes.length → j < 3 → IsLoad nodes.length loads p j (F p j)) {R : ℕ → ℕ → K}
    (hR : ∀ p j, R p j = internal 3 ms (fieldOf full) p j - F p j) :
    (∀ p j, Free cons 3 p j → R p j = 0) ∧ (∀ j < 3, resultant nodes.length R j + resultant nodes.length F j = 0) ∧
    ∀ a < 3, ∀ b < 3, moment3 nodes R a b + moment3 nodes F a b = 0 := by
  obtain ⟨full', h', he⟩ := C135_solved (tab := tab) (elementOf_solid hf) hu hc h0 hm hms hst hsp hde sparse hl
  rw [h, Except.ok.injEq] at h'
  subst h'
  obtain ⟨b1, b2⟩ := C136_internal_balance hf hms (fieldOf full)
  refine ⟨fun p j hfr => ?_, fun j hj => ?_, fun a ha b hb => ?_⟩
  · have h1 := he.2 p j hfr
    rw [hu.size] at h1
    have hpl := free_lt hfr
    rw [hu.size] at hpl
    rw [hR, isLoad_unique h1 (hF p j hpl hfr.1), sub_self]
  · rw [← b1 j hj]
    unfold resultant
    rw [← Finset.sum_add_distrib]
    exact Finset.sum_congr rfl fun p _ => by rw [hR, sub_add_cancel]
  · rw [← b2 a ha b hb]
    unfold moment3
    rw [← Finset.sum_add_distrib]
    exact Finset.sum_congr rfl fun p _ => by rw [hR, hR]; ring

/-- A body of tetrahedra or of bricks: positive stiffness, every node used, in one piece. -/
structure SolidBody (n : ℕ) (f : Uel K) (elements : List (List ℤ)) (mats nodes : Table K) (ms : List (Member K)) : Prop where
  members : List.Forall₂ (Describes f mats nodes) elements ms
  kind : (n = 4 ∧ f = Uel.elastTet4) ∨ (n = 8 ∧ f = Uel.elastHex8 ∧ ∀ m ∈ ms, Brick nodes hexNode m)
  elastic : ∀ el ∈ elements, ∀ mi q params, el[2]? = some mi → Resolves mats.length mi q → mats[q]? = some params →
    ∃ E nu ρ, params = [E, nu, ρ] ∧ 0 < E ∧ -1 < nu ∧ nu < 1 / 2 ∧ 0 ≤ ρ
  used : ∀ p < nodes.length, ∃ m ∈ ms, p ∈ m.nodes
  whole : OnePiece nodes ms

theorem SolidBody.element (h : SolidBody n f elements mats nodes ms) : SolidElement n f := by
  rcases h.kind with ⟨rfl, rfl⟩ | ⟨rfl, rfl, _⟩
  · exact .tet4
  · exact .hex8

/-- The matrix of a rigid motion in space. -/
theorem screw_of_skew {c : Fin 3 → K} {G : Matrix (Fin 3) (Fin 3) K} (hG : Skew G) (p : ℕ) (j : Fin 3) :
    affine c G (fun i => coordOf nodes p i) j = (⟨c, ![G 2 1, G 0 2, G 1 0]⟩ : Screw K).move nodes p j := by
  have h0 := skew_diag hG 0
  have h1 := skew_diag hG 1
  have h2 := skew_diag hG 2
  have h3 := hG 0 1
  have h4 := hG 1 2
  have h5 := hG 2 0
  unfold affine Screw.move
  rw [Fin.sum_univ_three]
  fin_cases j
  · simp [h0, h3]
    ring
  · simp [h1, h4]
    ring
  · simp [h2, h5]
    ring

theorem screw_skew (g : Screw K) (nodes : Table K) : ∃ c G, Skew G ∧ ∀ p (j : Fin 3),
    g.move nodes p j = affine c G (fun i => coordOf nodes p i) j := by
  have hG : Skew (!![0, -g.spin 2, g.spin 1; g.spin 2, 0, -g.spin 0; -g.spin 1, g.spin 0, 0] : Matrix (Fin 3) (Fin 3) K) := by
    intro i j
    fin_cases i <;> fin_cases j <;> simp
  refine ⟨g.shift, _, hG, fun p j => ?_⟩
  rw [screw_of_skew hG]
  congr 1
  obtain ⟨s, w⟩ := g
  congr 1
  funext i
  fin_cases i <;> simp

theorem screw_ext {g g' : Screw K} {p q r : ℕ} (h : Bent nodes p q r)
    (hp : ∀ j < 3, g.move nodes p j = g'.move nodes p j) (hq : ∀ j < 3, g.move nodes q j = g'.move nodes q j)
    (hr : ∀ j < 3, g.move nodes r j = g'.move nodes r j) : g = g' := by
  have p0 := hp 0 (by omega)
  have p1 := hp 1 (by omega)
  have p2 := hp 2 (by omega)
  obtain ⟨s, w⟩ := g
  obtain ⟨s', w'⟩ := g'
  simp only [Screw.move, if_true, one_ne_zero, if_false, OfNat.ofNat_ne_zero, OfNat.ofNat_ne_one] at p0 p1 p2
  have hA : ∀ o : ℕ, (∀ j < 3, (⟨s, w⟩ : Screw K).move nodes o j = (⟨s', w'⟩ : Screw K).move nodes o j) → ∀ i j : Fin 3,
      (w i - w' i) * (coordOf nodes o j - coordOf nodes p j) = (w j - w' j) * (coordOf nodes o i - coordOf nodes p i) := by
    intro o ho
    have o0 := ho 0 (by omega)
    have o1 := ho 1 (by omega)
    have o2 := ho 2 (by omega)
    simp only [Screw.move, if_true, one_ne_zero, if_false, OfNat.ofNat_ne_zero, OfNat.ofNat_ne_one] at o0 o1 o2
    intro i j
    fin_cases i <;> fin_cases j <;> simp only [Fin.zero_eta, Fin.mk_one, Fin.reduceFinMk]
    · linear_combination o2 - p2
    · linear_combination p1 - o1
    · linear_combination p2 - o2
    · linear_combination o0 - p0
    · linear_combination o1 - p1
    · linear_combination p0 - o0
  have key : ∀ i j l : Fin 3, (w l - w' l) * spread nodes p q r i j = 0 := by
    intro i j l
    unfold spread
    linear_combination (coordOf nodes r j - coordOf nodes p j) * hA q hq l i - (coordOf nodes r i - coordOf nodes p i) * hA q hq l j +
      (coordOf nodes q l - coordOf nodes p l) * hA r hr i j
  have hw : ∀ i, w i = w' i := by
    intro l
    rcases h with h | h | h
    · exact sub_eq_zero.1 ((mul_eq_zero.1 (key 0 1 l)).resolve_right h)
    · exact sub_eq_zero.1 ((mul_eq_zero.1 (key 1 2 l)).resolve_right h)
    · exact sub_eq_zero.1 ((mul_eq_zero.1 (key 2 0 l)).resolve_right h)
  obtain rfl : w = w' := funext hw
  congr 1
  funext i
  fin_cases i
  · show s 0 = s' 0
    linear_combination p0
  · show s 1 = s' 1
    linear_combination p1
  · show s 2 = s' 2
    linear_combination p2

/-- Each element of the body, with its null space. -/
theorem SolidBody.rigid (h : SolidBody n f elements mats nodes ms) {mb : Member K} (hm : mb ∈ ms) {u : ℕ → ℕ → K}
    (h0 : mb.form 3 u u = 0) : ∃ g : Screw K, ∀ p ∈ mb.nodes, ∀ j < 3, u p j = g.move nodes p j := by
  obtain ⟨el, hel, hd⟩ := described h.members hm
  obtain ⟨mi, q, params, X, k, mm, a1, a2, a3, hr, hpl⟩ := member_placed3 h.element hd
  obtain ⟨E, nu, ρ, rfl, hE, hn1, hn2, -⟩ := h.elastic el hel mi q params a1 a2 a3
  rw [hpl.form] at h0
  have : ∃ c G, Skew G ∧ mb.pick3 n u = sample X (affine c G) := by
    rcases h.kind with ⟨rfl, rfl⟩ | ⟨rfl, rfl, hb⟩
    · exact (C94_tet4_null_space hr hE hn1 hn2 _).1 ((C41_solid_zero_energy .tet4 hr hE hn1 hn2 _).1.1 h0)
    · obtain ⟨c, A, hA⟩ := hb mb hm
      refine (C94_hex8_null_space hr hE hn1 hn2 (c := c) (A := A) (fun a i => ?_) _).1
        ((C41_solid_zero_energy .hex8 hr hE hn1 hn2 _).1.1 h0)
      rw [← hA a i]
      unfold coordOf fieldOf
      rw [hpl.coord a i]
      rfl
  obtain ⟨c, G, hG, hu⟩ := this
  refine ⟨⟨c, ![G 2 1, G 0 2, G 1 0]⟩, fun p hp j hj => ?_⟩
  obtain ⟨b, hb, rfl⟩ := List.mem_iff_getElem.1 hp
  have hb' : b < n := hpl.size ▸ hb
  have e := congrFun hu (⟨b, hb'⟩, ⟨j, hj⟩)
  have hget : mb.nodes.getD b 0 = mb.nodes[b] := by
    rw [List.getD_eq_getElem?_getD, List.getElem?_eq_getElem hb]
    rfl
  simp only [Member.pick3, hget] at e
  rw [e, ← screw_of_skew hG mb.nodes[b] ⟨j, hj⟩]
  unfold sample
  dsimp only
  congr 1
  funext i
  unfold coordOf fieldOf
  have := hpl.coord ⟨b, hb'⟩ i
  dsimp only at this
  rw [hget] at this
  rw [this]
  rfl

/-- A rigid motion strains no element. -/
theorem solid_form_screw (hf : SolidElement n f) {el : List ℤ} {mb : Member K} (hd : Describes f mats nodes el mb)
    (g : Screw K) : mb.form 3 (g.move nodes) (g.move nodes) = 0 := by
  obtain ⟨mi, q, params, X, k, mm, a1, a2, a3, hr, hpl⟩ := member_placed3 hf hd
  obtain ⟨c, G, hG, hv⟩ := screw_skew g nodes
  rw [hpl.form, hpl.rigid_pick c G _ hv, C40_solid_rigid hf hr c hG, dotProduct_zero]

/-- C136.  A displacement field strains no element of a body in one piece exactly when the whole body moves as one rigid
body: six parameters. -/
theorem C136_zero_energy (h : SolidBody n f elements mats nodes ms) (hne : ms ≠ []) (u : ℕ → ℕ → K) :
    (∀ m ∈ ms, m.form 3 u u = 0) ↔ ∃ g : Screw K, ∀ p < nodes.length, ∀ j < 3, u p j = g.move nodes p j := by
  constructor
  · intro h0
    obtain ⟨m, hm⟩ := List.exists_mem_of_ne_nil _ hne
    obtain ⟨g, hg⟩ := h.rigid hm (h0 m hm)
    have all : ∀ m', m' ∈ ms → ∀ p ∈ m'.nodes, ∀ j < 3, u p j = g.move nodes p j := by
      intro m' hm'
      have path := h.whole m hm m' hm'
      clear hm'
      induction path with
      | refl => exact hg
      | tail _ st ih =>
        obtain ⟨hb, p, q, r, pa, qa, ra, pb, qb, rb, hap⟩ := st
        obtain ⟨g', hg'⟩ := h.rigid hb (h0 _ hb)
        have : g' = g := screw_ext hap
          (fun j hj => by rw [← hg' p pb j hj, ih p pa j hj])
          (fun j hj => by rw [← hg' q qb j hj, ih q qa j hj])
          (fun j hj => by rw [← hg' r rb j hj, ih r ra j hj])
        exact this ▸ hg'
    refine ⟨g, fun p hp j hj => ?_⟩
    obtain ⟨m', hm', hpm⟩ := h.used p hp
    exact all m' hm' p hpm j hj
  · rintro ⟨g, hg⟩ m hm
    obtain ⟨el, -, hd⟩ := described h.members hm
    rw [← solid_form_screw h.element hd g]
    have hinn := describes_inn h.members m hm
    have hat : ∀ a, a < m.nodes.length → ∀ j < 3, u (m.nodes.getD a 0) j = g.move nodes (m.nodes.getD a 0) j := by
      intro a ha j hj
      refine hg _ ?_ j hj
      rw [List.getD_eq_getElem?_getD, List.getElem?_eq_getElem ha, Option.getD_some]
      exact hinn _ (List.getElem_mem ha)
    unfold Member.form Member.force
    refine Finset.sum_congr rfl fun a ha => Finset.sum_congr rfl fun i hi => ?_
    rw [Finset.mem_range] at ha hi
    rw [hat a ha i hi]
    congr 1
    refine Finset.sum_congr rfl fun b hb => Finset.sum_congr rfl fun j hj => ?_
    rw [Finset.mem_range] at hb hj
    rw [hat b hb j hj]

/-- C136.  A body in one piece is stable exactly when its supports prevent every rigid motion. -/
theorem C136_stable_iff (h : SolidBody n f elements mats nodes ms) (hsz : cons.length = nodes.length) :
    Stable cons 3 ms ↔ Held cons nodes := by
  have hform : ∀ m ∈ ms, (∀ v u, m.form 3 v u = m.form 3 u v) ∧ ∀ u, 0 ≤ m.form 3 u u := by
    intro m hm
    obtain ⟨el, hel, hd⟩ := described h.members hm
    obtain ⟨mi, q, params, X, k, mm, a1, a2, a3, hr, hpl⟩ := member_placed3 h.element hd
    obtain ⟨E, nu, ρ, rfl, hE, hn1, hn2, hρ⟩ := h.elastic el hel mi q params a1 a2 a3
    constructor
    · intro v u
      rw [hpl.form, hpl.form, Matrix.dotProduct_mulVec, ← Matrix.mulVec_transpose, (C38_solid_symmetric h.element hr).1.eq,
        dotProduct_comm]
    · intro u
      rw [hpl.form]
      exact (C39_solid_semidefinite h.element hr hE.le hn1 hn2 hρ _).1
  rw [stable_iff_energy (by rw [hsz]; exact describes_inn h.members) (fun m hm => (hform m hm).1) (fun m hm => (hform m hm).2)]
  constructor
  · intro H g ha
    refine H _ ha (List.sum_eq_zero fun x hx => ?_)
    obtain ⟨m, hm, rfl⟩ := List.mem_map.1 hx
    obtain ⟨el, -, hd⟩ := described h.members hm
    exact solid_form_screw h.element hd g
  · intro H u ha h0 p j hp hj
    have hz : ∀ m ∈ ms, m.form 3 u u = 0 := by
      intro m hm
      refine List.all_zero_of_le_zero_le_of_sum_eq_zero (l := ms.map fun m => m.form 3 u u) (fun y hy => ?_) h0
        (List.mem_map.2 ⟨m, hm, rfl⟩)
      obtain ⟨m, hm, rfl⟩ := List.mem_map.1 hy
      exact (hform m hm).2 u
    rw [hsz] at hp
    obtain ⟨m, hm, _⟩ := h.used p hp
    obtain ⟨g, hg⟩ := (C136_zero_energy h (List.ne_nil_of_mem hm) u).1 hz
    rw [hg p hp j hj]
    rw [← hsz] at hg hp
    exact H g (fun p' j' hp' hj' hf => by rw [← hg p' hp' j' hj']; exact ha p' j' hp' hj' hf) p j hp hj

/-- C136.  Three fixed nodes that are not on a line prevent every rigid motion. -/
theorem C136_three_pins (hsz : cons.length = nodes.length) {p q r : ℕ} (hp : p < nodes.length) (hq : q < nodes.length)
    (hr : r < nodes.length) (hb : Bent nodes p q r) (hfp : ∀ j < 3, ¬ Free cons 3 p j) (hfq : ∀ j < 3, ¬ Free cons 3 q j)
    (hfr : ∀ j < 3, ¬ Free cons 3 r j) : Held cons nodes := by
  intro g ha o j ho hj
  rw [← hsz] at hp hq hr
  have hz : ∀ o j, (⟨0, 0⟩ : Screw K).move nodes o j = 0 := by
    intro o j
    unfold Screw.move
    split
    · simp
    · split <;> simp
  have : g = ⟨0, 0⟩ := screw_ext hb
    (fun j hj => by rw [ha p j hp hj (hfp j hj), hz])
    (fun j hj => by rw [ha q j hq hj (hfq j hj), hz])
    (fun j hj => by rw [ha r j hr hj (hfr j hj), hz])
  rw [this, hz]

/-- C136.  Fixing nodes on one line is not enough: the body can turn about it. -/
theorem C136_hinge_not_enough (h : SolidBody n f elements mats nodes ms) (hsz : cons.length = nodes.length) {p q : ℕ}
    (hfix : ∀ r < nodes.length, (∃ j < 3, ¬ Free cons 3 r j) → ¬ Bent nodes p q r)
    (hoff : ∃ r < nodes.length, Bent nodes p q r) : ¬ Stable cons 3 ms := by
  rw [C136_stable_iff h hsz]
  intro H
  obtain ⟨r, hr, hb⟩ := hoff
  set e : ℕ → K := fun i => coordOf nodes q i - coordOf nodes p i with he
  let g : Screw K := ⟨![e 2 * coordOf nodes p 1 - e 1 * coordOf nodes p 2, e 0 * coordOf nodes p 2 - e 2 * coordOf nodes p 0,
    e 1 * coordOf nodes p 0 - e 0 * coordOf nodes p 1], ![e 0, e 1, e 2]⟩
  have hg : ∀ r, g.move nodes r 0 = spread nodes p q r 1 2 ∧ g.move nodes r 1 = spread nodes p q r 2 0 ∧
      g.move nodes r 2 = spread nodes p q r 0 1 := by
    intro r
    simp only [Screw.move, g, spread, he, if_true, one_ne_zero, if_false, OfNat.ofNat_ne_zero, OfNat.ofNat_ne_one,
      Matrix.cons_val_zero, Matrix.cons_val_one, Matrix.cons_val]
    refine ⟨?_, ?_, ?_⟩ <;> ring
  have hz := H g (fun o j ho hj hf => by
    have hnb := hfix o (hsz ▸ ho) ⟨j, hj, hf⟩
    unfold Bent at hnb
    push Not at hnb
    obtain ⟨h1, h2, h3⟩ := hg o
    interval_cases j
    · rw [h1, hnb.2.1]
    · rw [h2, hnb.2.2]
    · rw [h3, hnb.1])
  obtain ⟨h1, h2, h3⟩ := hg r
  have hr' : r < cons.length := by rw [hsz]; exact hr
  rcases hb with hb | hb | hb
  · exact hb (by rw [← h3]; exact hz r 2 hr' (by omega))
  · exact hb (by rw [← h1]; exact hz r 0 hr' (by omega))
  · exact hb (by rw [← h2]; exact hz r 1 hr' (by omega))

/-- C136.  A supported body in one piece is solved, for every table of loads on existing nodes. -/
theorem C136_solved (h : SolidBody n f elements mats nodes ms) (hu : UserModel 3 n cons nodes elements) {count : ℤ → Py ℕ}
    (hc : Counts count (n * 3) elements) (hm : n * 3 ≤ m) (hsup : Held cons nodes) {sp de : Sol.Solver K} (hsp : SolverOk sp)
    (hde : SolverOk de) (sparse : Bool) (hl : ∀ L ∈ loads, 4 ≤ L.length ∧ ∃ p, Names nodes.length L p) :
    ∃ full, userRun tab f 3 m count sp de sparse cons elements mats nodes loads = .ok full ∧
      Equilibrium cons 3 loads ms (fieldOf full) := by
  have h0 : 0 < n * 3 := by rcases h.kind with ⟨rfl, _⟩ | ⟨rfl, _⟩ <;> omega
  exact C135_solved (elementOf_solid h.element) hu hc h0 hm h.members ((C136_stable_iff h hu.size).2 hsup) hsp hde sparse hl

end

/-! ## Cases -/

section demo

theorem describe_exists {f : Uel ℚ} {mats nodes : Table ℚ} {id ty : ℤ} {ps : List ℕ} {params : List ℚ} {rows : Table ℚ}
    (h1 : mats[0]? = some params) (h2 : List.Forall₂ (fun p row => nodes[p]? = some row) ps rows)
    (h : (f (rows.map (List.drop 1)) params).isOk = true) :
    ∃ m, Describes f mats nodes (id :: ty :: 0 :: List.map (fun p : ℕ => (p : ℤ)) ps) m ∧ m.nodes = ps := by
  have hres : List.Forall₂ (Resolves nodes.length) (List.map (fun p : ℕ => (p : ℤ)) ps) ps := by
    clear h
    induction h2 with
    | nil => exact .nil
    | cons a _ ih => exact .cons ⟨(List.getElem?_eq_some_iff.1 a).1, .inl rfl⟩ ih
  obtain ⟨⟨A, B⟩, h⟩ := isOk_exists h
  exact ⟨⟨ps, cell A⟩, ⟨ty, 0, params, rows, f, A, B, rfl, rfl, ⟨0, ⟨(List.getElem?_eq_some_iff.1 h1).1, .inl rfl⟩, h1⟩, hres, h2,
    rfl, h, rfl⟩, rfl⟩

/-- Two tetrahedra with a common face, held at three nodes and pushed down at the far one. -/
def tetNodes : Table ℚ := [[0, 0, 0, 0], [1, 1, 0, 0], [2, 0, 1, 0], [3, 0, 0, 1], [4, 1, 1, 1]]
def tetCons : Table ℚ := [[-1, -1, -1], [-1, -1, -1], [-1, -1, -1], [0, 0, 0], [0, 0, 0]]
def tetMats : Table ℚ := [[10, 1/4, 1]]
def tetEls : List (List ℤ) := [[0, 9, 0, 0, 1, 2, 3], [1, 9, 0, 1, 2, 3, 4]]

theorem tet_body : ∃ ms, SolidBody 4 Uel.elastTet4 tetEls tetMats tetNodes ms := by
  obtain ⟨a, ha, na⟩ := describe_exists (f := Uel.elastTet4) (mats := tetMats) (nodes := tetNodes) (id := 0) (ty := 9) (ps := [0, 1, 2, 3])
    (params := [10, 1/4, 1]) (rows := [[0, 0, 0, 0], [1, 1, 0, 0], [2, 0, 1, 0], [3, 0, 0, 1]]) rfl
    (.cons rfl (.cons rfl (.cons rfl (.cons rfl .nil)))) (by decide +kernel)
  obtain ⟨b, hb, nb⟩ := describe_exists (f := Uel.elastTet4) (mats := tetMats) (nodes := tetNodes) (id := 1) (ty := 9) (ps := [1, 2, 3, 4])
    (params := [10, 1/4, 1]) (rows := [[1, 1, 0, 0], [2, 0, 1, 0], [3, 0, 0, 1], [4, 1, 1, 1]]) rfl
    (.cons rfl (.cons rfl (.cons rfl (.cons rfl .nil)))) (by decide +kernel)
  have face : Bent tetNodes 1 2 3 := .inl (by decide +kernel)
  refine ⟨[a, b], .cons ha (.cons hb .nil), .inl ⟨rfl, rfl⟩, ?_, ?_, ?_⟩
  · intro el _ mi q params _ _ hp
    refine ⟨10, 1/4, 1, ?_, by norm_num, by norm_num, by norm_num, by norm_num⟩
    match q, hp with
    | 0, hp => simpa [tetMats] using hp.symm
    | q + 1, hp => simp [tetMats] at hp
  · intro p hp
    have : p < 4 ∨ p = 4 := by simp [tetNodes] at hp; omega
    rcases this with h | rfl
    · exact ⟨a, by simp, by rw [na]; interval_cases p <;> simp⟩
    · exact ⟨b, by simp, by rw [nb]; simp⟩
  · have hab : SharesFace tetNodes a b := ⟨1, 2, 3, by rw [na]; simp, by rw [na]; simp, by rw [na]; simp, by rw [nb]; simp,
      by rw [nb]; simp, by rw [nb]; simp, face⟩
    have hba : SharesFace tetNodes b a := ⟨1, 2, 3, by rw [nb]; simp, by rw [nb]; simp, by rw [nb]; simp, by rw [na]; simp,
      by rw [na]; simp, by rw [na]; simp, face⟩
    intro x hx y hy
    simp only [List.mem_cons, List.not_mem_nil, or_false] at hx hy
    rcases hx with rfl | rfl <;> rcases hy with rfl | rfl
    · exact .refl
    · exact .single ⟨by simp, hab⟩
    · exact .single ⟨by simp, hba⟩
    · exact .refl

theorem tet_model : UserModel 3 4 tetCons tetNodes tetEls where
  codes := by
    intro p j v _ h
    have : ∀ r ∈ tetCons, ∀ x ∈ r, x = 0 ∨ x = -1 := by decide +kernel
    obtain ⟨r, h1, h2⟩ := entry_some.1 h
    exact this r (List.mem_of_getElem? h1) v (List.mem_of_getElem? h2)
  width := by decide
  size := rfl
  typed := by decide

theorem tet_held : Held tetCons tetNodes := by
  have fix : ∀ p < 3, ∀ j < 3, ¬ Free tetCons 3 p j := by
    intro p hp j hj hf
    have := hf.2
    interval_cases p <;> interval_cases j <;> revert this <;> decide +kernel
  exact C136_three_pins rfl (p := 0) (q := 1) (r := 2) (by decide) (by decide) (by decide) (.inl (by decide +kernel))
    (fix 0 (by omega)) (fix 1 (by omega)) (fix 2 (by omega))

/-- C135, C136: the body is solved with twelve or more entries per row of the assembly operator. -/
example (tab : ℤ → Py (Uel ℚ)) (sparse : Bool) : ∃ ms full,
    userRun tab Uel.elastTet4 3 12 (fun _ => .ok 12) cramerSolver cramerSolver sparse tetCons tetEls tetMats tetNodes [[4, 0, 0, -1]] = .ok full ∧
      Equilibrium tetCons 3 [[4, 0, 0, -1]] ms (fieldOf full) ∧ full ≠ [] := by
  obtain ⟨ms, h⟩ := tet_body
  obtain ⟨full, h1, h2⟩ := C136_solved (tab := tab) (loads := [[4, 0, 0, -1]]) (count := fun _ => .ok 12) (m := 12) h tet_model
    (fun el hel => by
      simp only [tetEls, List.mem_cons, List.not_mem_nil, or_false] at hel
      rcases hel with rfl | rfl <;> exact ⟨9, rfl, rfl⟩) (by norm_num) tet_held cramerSolver_ok cramerSolver_ok sparse (by
      intro L hL
      simp only [List.mem_cons, List.not_mem_nil, or_false] at hL
      subst hL
      exact ⟨by simp, 4, 4, 4, rfl, ⟨by decide, .inl rfl⟩, .inl ⟨by norm_num, by norm_num, by norm_num⟩⟩)
  refine ⟨ms, full, h1, h2, ?_⟩
  rintro rfl
  obtain ⟨op, bc, neq, Kg, Mg, rhs, x, -, -, -, -, h6⟩ := userRun_ok.1 h1
  obtain ⟨g, y, -, hy, -⟩ := Post.completeDisp_entry h6 (p := 0) (j := 0) (by decide) (by decide)
  simp [entry] at hy

/-- Held only along the edge from node 0 to node 1 it is not stable. -/
example : ∃ ms, SolidBody 4 Uel.elastTet4 tetEls tetMats tetNodes ms ∧
    ¬ Stable [[-1, -1, -1], [-1, -1, -1], [0, 0, 0], [0, 0, 0], [0, 0, 0]] 3 ms := by
  obtain ⟨ms, h⟩ := tet_body
  refine ⟨ms, h, C136_hinge_not_enough h rfl (p := 0) (q := 1) ?_ ⟨2, by decide, .inl (by decide +kernel)⟩⟩
  rintro r hr ⟨j, hj, hf⟩
  have hr' : r < 5 := hr
  have key : ∀ r < 2, ¬ Bent tetNodes 0 1 r := by
    intro r hr
    unfold Bent
    interval_cases r <;> decide +kernel
  by_cases h2 : r < 2
  · exact key r h2
  · exact absurd ⟨hj, by interval_cases r <;> interval_cases j <;> first | omega | decide +kernel⟩ hf

/-- A brick: the reference cube stretched and sheared, held at three nodes of its bottom. -/
def brickNodes : Table ℚ := [[0, 0, 0, 0], [1, 2, 0, 0], [2, 2, 1, 0], [3, 0, 1, 0], [4, 1, 0, 3], [5, 3, 0, 3], [6, 3, 1, 3], [7, 1, 1, 3]]
def brickCons : Table ℚ := [[-1, -1, -1], [-1, -1, -1], [-1, -1, -1], [0, 0, 0], [0, 0, 0], [0, 0, 0], [0, 0, 0], [0, 0, 0]]
def brickEls : List (List ℤ) := [[0, 1, 0, 0, 1, 2, 3, 4, 5, 6, 7]]

theorem brick_body : ∃ ms, SolidBody 8 Uel.elastHex8 brickEls tetMats brickNodes ms := by
  obtain ⟨a, ha, na⟩ := describe_exists (f := Uel.elastHex8) (mats := tetMats) (nodes := brickNodes) (id := 0) (ty := 1)
    (ps := [0, 1, 2, 3, 4, 5, 6, 7]) (params := [10, 1/4, 1]) (rows := brickNodes) rfl
    (.cons rfl (.cons rfl (.cons rfl (.cons rfl (.cons rfl (.cons rfl (.cons rfl (.cons rfl .nil)))))))) (by decide +kernel)
  refine ⟨[a], .cons ha .nil, .inr ⟨rfl, rfl, ?_⟩, ?_, ?_, ?_⟩
  · intro m hm
    simp only [List.mem_cons, List.not_mem_nil, or_false] at hm
    subst hm
    refine ⟨![3/2, 1/2, 3/2], !![1, 0, 1/2; 0, 1/2, 0; 0, 0, 3/2], ?_⟩
    rw [na]
    decide +kernel
  · intro el _ mi q params _ _ hp
    refine ⟨10, 1/4, 1, ?_, by norm_num, by norm_num, by norm_num, by norm_num⟩
    match q, hp with
    | 0, hp => simpa [tetMats] using hp.symm
    | q + 1, hp => simp [tetMats] at hp
  · intro p hp
    have : p < 8 := hp
    exact ⟨a, by simp, by rw [na]; interval_cases p <;> simp⟩
  · intro x hx y hy
    simp only [List.mem_cons, List.not_mem_nil, or_false] at hx hy
    subst hx hy
    exact .refl

theorem brick_model : UserModel 3 8 brickCons brickNodes brickEls where
  codes := by
    intro p j v _ h
    have : ∀ r ∈ brickCons, ∀ x ∈ r, x = 0 ∨ x = -1 := by decide +kernel
    obtain ⟨r, h1, h2⟩ := entry_some.1 h
    exact this r (List.mem_of_getElem? h1) v (List.mem_of_getElem? h2)
  width := by decide
  size := rfl
  typed := by decide

/-- With the default of 18 entries per row `DME` refuses the brick, with 24 the stiffness is assembled. -/
example (tab : ℤ → Py (Uel ℚ)) : dme brickCons brickEls 3 18 (some fun _ => .ok 24) = .error .valueError ∧
    ∃ op bc neq Kg Mg, dme brickCons brickEls 3 24 (some fun _ => .ok 24) = .ok (op, bc, neq) ∧
      assembler tab brickEls tetMats brickNodes neq op true (some Uel.elastHex8) = .ok (Kg, Mg) := by
  obtain ⟨ms, h⟩ := brick_body
  have hc : Counts (fun _ => .ok 24) (8 * 3) brickEls := by
    intro el hel
    simp only [brickEls, List.mem_cons, List.not_mem_nil, or_false] at hel
    subst hel
    exact ⟨1, rfl, rfl⟩
  refine ⟨C135_too_small brick_model hc (by norm_num) (by norm_num) (by decide) ?_,
    C135_assembled (elementOf_solid .hex8) brick_model hc (by norm_num) (by norm_num) h.members true⟩
  intro el hel g hg
  simp only [brickEls, List.mem_cons, List.not_mem_nil, or_false] at hel
  subst hel
  simp only [List.drop_succ_cons, List.drop_zero] at hg
  have : 0 ≤ g ∧ g < 8 := by
    have : ∀ g ∈ [(0 : ℤ), 1, 2, 3, 4, 5, 6, 7], 0 ≤ g ∧ g < 8 := by decide
    exact this g hg
  exact ⟨g.toNat, by show g.toNat < 8; omega, .inl (by omega)⟩

end demo

end SolidsPy
