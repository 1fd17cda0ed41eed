import Verif.Proofs.Recovery

/-! # C74 - C78: strains at the nodes -/

set_option linter.unusedSectionVars false

namespace SolidsPy
open Spec Post Fem Uel Gauss

section
variable {K : Type} [Field K] [LinearOrder K] [IsStrictOrderedRing K] [FloorRing K]

/-- The strain routines: number of nodes, routine, shape functions, points used, number of rows returned. -/
inductive StrainRoutine : (n : ℕ) → (Matrix (Fin n) (Fin 2) K → (Fin n × Fin 2 → K) →
    Py (List (Fin 3 → K) × List (Fin 2 → K))) → (K → K → Shape K 2 n) → List (ℚ × ℚ) → ℕ → Prop
  | el3 : StrainRoutine 3 strEl3 shapeTri3 ptsTri1 3
  | el6 : StrainRoutine 6 strEl6 shapeTri6 ptsTri3 7
  | el4 : StrainRoutine 4 strEl4 shapeQuad4
      [(-0.577350269189625764, -0.577350269189625764), (-0.577350269189625764, 0.577350269189625764),
       (0.577350269189625764, -0.577350269189625764), (0.577350269189625764, 0.577350269189625764)] 4

theorem StrainRoutine.shape {n : ℕ} {st f pts m} (h : StrainRoutine (K := K) n st f pts m) : PlaneShape n f := by
  cases h
  · exact .tri3
  · exact .tri6
  · exact .quad4

/-- All routines run the same loop. -/
theorem StrainRoutine.eq {n : ℕ} {st f pts m} (h : StrainRoutine (K := K) n st f pts m)
    (X : Matrix (Fin n) (Fin 2) K) (u : Fin n × Fin 2 → K) :
    st X u = (do
      let l ← pts.mapM fun p => strPoint (f (p.1 : K) (p.2 : K)) X u
      pure (padRows m l)) := by
  cases h
  · rfl
  · rfl
  · rfl

theorem strPoint_ok {n : ℕ} {sh : Shape K 2 n} {X : Matrix (Fin n) (Fin 2) K} {u : Fin n × Fin 2 → K} {r} :
    strPoint sh X u = .ok r ↔ 1e-8 < jdet sh X ∧
      r = ((bMat2 (grad sh.2 X)).mulVec u, ![place sh.1 X 0, place sh.1 X 0]) := by
  have hH : ∀ a, hMat2 sh.1 0 (a, 0) = sh.1 a := fun a => rfl
  unfold strPoint
  rw [bind_ok]
  constructor
  · rintro ⟨D, h1, h2⟩
    obtain ⟨h3, rfl⟩ := diff2d_ok.1 h1
    refine ⟨h3, ?_⟩
    have h2 := pure_ok.1 h2
    rw [← h2]
    simp only [hH]
    rfl
  · rintro ⟨h1, rfl⟩
    refine ⟨_, diff2d_ok.2 ⟨h1, rfl⟩, ?_⟩
    rw [pure_ok]
    simp only [hH]
    rfl

/-- Strains and positions returned by a routine. -/
theorem StrainRoutine.ok {n : ℕ} {st f pts m} (h : StrainRoutine (K := K) n st f pts m)
    {X : Matrix (Fin n) (Fin 2) K} {u : Fin n × Fin 2 → K} {eps xl} :
    st X u = .ok (eps, xl) ↔ (∀ p ∈ pts, 1e-8 < jdet (f (p.1 : K) (p.2 : K)) X) ∧
      eps = pts.map (fun p => (bMat2 (grad (f (p.1 : K) (p.2 : K)).2 X)).mulVec u) ++
        List.replicate (m - pts.length) 0 ∧
      xl = pts.map (fun p => ![place (f (p.1 : K) (p.2 : K)).1 X 0, place (f (p.1 : K) (p.2 : K)).1 X 0]) ++
        List.replicate (m - pts.length) 0 := by
  rw [h.eq, bind_ok]
  constructor
  · rintro ⟨l, h1, h2⟩
    have hl : l.length = pts.length := mapM_length h1
    have hf := mapM_ok.1 h1
    have hl2 : l = pts.map fun p => ((bMat2 (grad (f (p.1 : K) (p.2 : K)).2 X)).mulVec u,
        ![place (f (p.1 : K) (p.2 : K)).1 X 0, place (f (p.1 : K) (p.2 : K)).1 X 0]) := by
      clear h1 h2 hl h
      induction hf with
      | nil => rfl
      | cons hp _ ih => rw [List.map_cons, ih, (strPoint_ok.1 hp).2]
    have hj : ∀ p ∈ pts, 1e-8 < jdet (f (p.1 : K) (p.2 : K)) X := by
      intro p hp
      obtain ⟨i, hi⟩ := List.getElem?_of_mem hp
      obtain ⟨y, -, hy⟩ := mapM_getElem? h1 hi
      exact (strPoint_ok.1 hy).1
    have h2 := pure_ok.1 h2
    rw [padRows, Prod.mk.injEq, hl, hl2, List.map_map, List.map_map] at h2
    exact ⟨hj, h2.1.symm, h2.2.symm⟩
  · rintro ⟨hj, rfl, rfl⟩
    refine ⟨pts.map fun p => ((bMat2 (grad (f (p.1 : K) (p.2 : K)).2 X)).mulVec u,
        ![place (f (p.1 : K) (p.2 : K)).1 X 0, place (f (p.1 : K) (p.2 : K)).1 X 0]), ?_, ?_⟩
    · rw [mapM_ok, List.forall₂_map_right_iff, List.forall₂_same]
      intro p hp
      exact strPoint_ok.2 ⟨hj p hp, rfl⟩
    · rw [pure_ok, padRows, List.map_map, List.map_map, List.length_map]
      rfl

/-- Displacements of an element in a sampled affine field. -/
theorem dispOf_sample {nodes sol : Table K} {c : Fin 2 → K} {G : Matrix (Fin 2) (Fin 2) K}
    (hs : Samples nodes sol c G) {el : List ℤ} {xs us : Table K} (hx : coordsOf nodes el = .ok xs)
    (hu : dispOf sol el = .ok us) {n : ℕ} {X : Matrix (Fin n) (Fin 2) K} (hX : toMat n 2 xs = .ok X) :
    (fun a : Fin n × Fin 2 => (us.getD a.1 []).getD a.2 0) = sample X (affine c G) := by
  have hxs := toMat_ok hX
  funext ⟨a, i⟩
  have hxa : xs[(a : ℕ)]? = some [X a 0, X a 1] := by
    rw [hxs, matRows]
    simp
  have hlen : a < (el.drop 3).length := by
    rw [← mapM_length hx]
    exact (List.getElem?_eq_some_iff.1 hxa).1
  have hz : (el.drop 3)[(a : ℕ)]? = some (el.drop 3)[(a : ℕ)] := List.getElem?_eq_getElem hlen
  generalize (el.drop 3)[(a : ℕ)] = z at hz
  obtain ⟨row, h1, h2⟩ := mapM_getElem? hx hz
  rw [hxa, Option.some.injEq] at h1
  subst h1
  obtain ⟨row', h3, h4⟩ := mapM_getElem? hu hz
  obtain ⟨nd, h5, h2⟩ := bind_ok.1 h2
  obtain ⟨x, h6, h2⟩ := bind_ok.1 h2
  obtain ⟨y, h7, h2⟩ := bind_ok.1 h2
  have h2 := pure_ok.1 h2
  simp only [List.cons.injEq, and_true] at h2
  obtain ⟨rfl, rfl⟩ := h2
  obtain ⟨u, h8, h4⟩ := bind_ok.1 h4
  obtain ⟨ux, h9, h4⟩ := bind_ok.1 h4
  obtain ⟨uy, h10, h4⟩ := bind_ok.1 h4
  have h4 := pure_ok.1 h4
  subst h4
  obtain ⟨k, hk, hnd⟩ := pyGet_resolves.1 h5
  obtain ⟨k', hk', hu'⟩ := pyGet_resolves.1 h8
  rw [hs.1] at hk'
  have : k' = k := by unfold Resolves at hk hk'; omega
  subst this
  obtain ⟨e1, e2⟩ := hs.2 _ _ _ hnd hu' _ _ (pyGet_one.1 h6) (pyGet_two.1 h7)
  have h9 := pyGet_zero.1 h9
  have h10 := pyGet_one.1 h10
  rw [e1, Option.some.injEq] at h9
  rw [e2, Option.some.injEq] at h10
  subst h9 h10
  have hget : us.getD (a : ℕ) [] = [c 0 + (G 0 0 * X a 0 + G 0 1 * X a 1), c 1 + (G 1 0 * X a 0 + G 1 1 * X a 1)] := by
    rw [List.getD_eq_getElem?_getD, h3]
    rfl
  dsimp only
  rw [hget]
  unfold sample affine
  fin_cases i <;> simp [Fin.sum_univ_two]

/-- A routine applied to a sampled affine field. -/
theorem StrainRoutine.affine {n : ℕ} {st f pts m} (h : StrainRoutine (K := K) n st f pts m)
    {X : Matrix (Fin n) (Fin 2) K} {c : Fin 2 → K} {G : Matrix (Fin 2) (Fin 2) K} {eps xl}
    (hr : st X (sample X (Spec.affine c G)) = .ok (eps, xl)) :
    eps = List.replicate pts.length ![G 0 0, G 1 1, G 0 1 + G 1 0] ++ List.replicate (m - pts.length) 0 := by
  obtain ⟨h1, h2, -⟩ := h.ok.1 hr
  rw [h2]
  congr 1
  rw [List.eq_replicate_iff]
  refine ⟨by simp, ?_⟩
  intro e he
  rw [List.mem_map] at he
  obtain ⟨p, hp, rfl⟩ := he
  exact (C31_plane h.shape (diff2d_ok.2 ⟨h1 p hp, rfl⟩) c G).1

/-- Element strains of a sampled affine field: all equal for `quad4` and `tri6`, zero beyond the first for
`tri3`. -/
theorem ElemPart.affine {iet : ℤ} {ndof nne : ℕ} {nodes mats sol : Table K} {el : List ℤ}
    {eps : List (Fin 3 → K)} {C : Matrix (Fin 3) (Fin 3) K}
    (h : ElemPart iet ndof nne nodes mats sol el eps C) {c : Fin 2 → K} {G : Matrix (Fin 2) (Fin 2) K}
    (hs : Samples nodes sol c G) :
    (iet = 1 ∧ eps = List.replicate 4 ![G 0 0, G 1 1, G 0 1 + G 1 0]) ∨
    (iet = 2 ∧ eps = List.replicate 7 ![G 0 0, G 1 1, G 0 1 + G 1 0]) ∨
    (iet = 3 ∧ eps = [![G 0 0, G 1 1, G 0 1 + G 1 0], 0, 0]) := by
  obtain ⟨mi, row, xs, us, -, -, -, -, -, h6, h7, h8⟩ := h
  unfold elemStrains at h8
  dsimp only at h8
  split at h8
  · obtain ⟨X, hX, h8⟩ := bind_ok.1 h8
    obtain ⟨⟨e, xl⟩, he, h8⟩ := bind_ok.1 h8
    rw [dispOf_sample hs h6 h7 hX] at he
    have h8 := pure_ok.1 h8
    subst h8
    exact Or.inl ⟨rfl, by simpa using StrainRoutine.el4.affine he⟩
  · obtain ⟨X, hX, h8⟩ := bind_ok.1 h8
    obtain ⟨⟨e, xl⟩, he, h8⟩ := bind_ok.1 h8
    rw [dispOf_sample hs h6 h7 hX] at he
    have h8 := pure_ok.1 h8
    subst h8
    exact Or.inr (Or.inl ⟨rfl, by simpa [ptsTri3] using StrainRoutine.el6.affine he⟩)
  · obtain ⟨X, hX, h8⟩ := bind_ok.1 h8
    obtain ⟨⟨e, xl⟩, he, h8⟩ := bind_ok.1 h8
    rw [dispOf_sample hs h6 h7 hX] at he
    have h8 := pure_ok.1 h8
    subst h8
    exact Or.inr (Or.inr ⟨rfl, by simpa [ptsTri1] using StrainRoutine.el3.affine he⟩)
  · cases h8

/-! ## Occurrences -/

theorem mem_spots {nn : ℕ} {el : List ℤ} {k a : ℕ} :
    a ∈ spots nn el k ↔ ∃ z, (el.drop 3)[a]? = some z ∧ Resolves nn z k := by
  unfold spots
  simp only [List.mem_map, List.mem_filter, decide_eq_true_eq, Prod.exists, List.mem_zipIdx_iff_getElem?]
  constructor
  · rintro ⟨z, b, ⟨h1, h2⟩, rfl⟩
    exact ⟨z, h1, h2⟩
  · rintro ⟨z, h1, h2⟩
    exact ⟨z, a, ⟨h1, h2⟩, rfl⟩

theorem lists_iff_spots {nn : ℕ} {el : List ℤ} {k : ℕ} : Lists nn el k ↔ spots nn el k ≠ [] := by
  constructor
  · rintro ⟨z, h1, h2⟩
    obtain ⟨a, ha⟩ := List.getElem?_of_mem h1
    exact List.ne_nil_of_mem (mem_spots.2 ⟨z, ha, h2⟩)
  · intro h
    obtain ⟨a, ha⟩ := List.exists_mem_of_ne_nil _ h
    obtain ⟨z, h1, h2⟩ := mem_spots.1 ha
    exact ⟨z, List.mem_of_getElem? h1, h2⟩

theorem mem_occurrences {nn : ℕ} {els : List (List ℤ)} {k : ℕ} {x : List ℤ × ℕ} :
    x ∈ occurrences nn els k ↔ x.1 ∈ els ∧ x.2 ∈ spots nn x.1 k := by
  unfold occurrences
  simp only [List.mem_flatMap, List.mem_map]
  constructor
  · rintro ⟨el, h1, a, h2, rfl⟩
    exact ⟨h1, h2⟩
  · rintro ⟨h1, h2⟩
    exact ⟨x.1, h1, x.2, h2, rfl⟩

theorem occurrences_ne_nil {nn : ℕ} {els : List (List ℤ)} {k : ℕ} :
    occurrences nn els k ≠ [] ↔ ∃ el ∈ els, Lists nn el k := by
  constructor
  · intro h
    obtain ⟨x, hx⟩ := List.exists_mem_of_ne_nil _ h
    obtain ⟨h1, h2⟩ := mem_occurrences.1 hx
    exact ⟨x.1, h1, lists_iff_spots.2 (List.ne_nil_of_mem h2)⟩
  · rintro ⟨el, h1, h2⟩
    obtain ⟨a, ha⟩ := List.exists_mem_of_ne_nil _ (lists_iff_spots.1 h2)
    exact List.ne_nil_of_mem (mem_occurrences.2 ⟨h1, ha⟩ : (el, a) ∈ occurrences nn els k)

theorem mean_const {α : Type} {l : List α} (hl : l ≠ []) {f : α → K} {v : K} (h : ∀ x ∈ l, f x = v) :
    mean l f = some v := by
  rw [mean, if_neg hl]
  congr 1
  have : l.map f = List.replicate l.length v := by
    rw [List.eq_replicate_iff]
    exact ⟨by simp, by simpa using h⟩
  rw [this, List.sum_replicate, nsmul_eq_mul]
  have h0 : (l.length : K) ≠ 0 := by
    rw [Nat.cast_ne_zero]
    exact fun h => hl (List.length_eq_zero_iff.1 h)
  field_simp

/-! ## C76 -/

/-- The elastic matrix of an element row of the mesh. -/
def RowMaterial (mats : Table K) (el : List ℤ) (C : Matrix (Fin 3) (Fin 3) K) : Prop :=
  ∃ mi row, pyGet el 2 = .ok mi ∧ pyGet mats mi = .ok row ∧ umat row = .ok C

/-- C76.  At a node whose elements share one elastic matrix, the stress is that matrix times the strain: either
both are undefined (the node is in no element) or both are defined and related by the matrix. -/
theorem C76_stress {nodes mats sol : Table K} {els : List (List ℤ)} {E S}
    (h : strainNodes nodes els mats sol = .ok (E, S)) {k : Fin nodes.length} {C : Matrix (Fin 3) (Fin 3) K}
    (hC : ∀ el ∈ els, Lists nodes.length el k → RowMaterial mats el C) :
    (¬ (∃ el ∈ els, Lists nodes.length el k) ∧ ∀ c, E k c = none ∧ S k c = none) ∨
    ((∃ el ∈ els, Lists nodes.length el k) ∧
      ∃ e : Fin 3 → K, ∀ c, E k c = some (e c) ∧ S k c = some (C.mulVec e c)) := by
  obtain ⟨_, _, _, _, _, _, _, _, eps, Cs, h1, h2⟩ := strainNodes_ok h
  rw [← occurrences_ne_nil]
  by_cases hn : occurrences nodes.length els k = []
  · refine Or.inl ⟨not_not.2 hn, fun c => ?_⟩
    rw [(h2 k c).1, (h2 k c).2, hn]
    exact ⟨rfl, rfl⟩
  · refine Or.inr ⟨hn, fun c => ((occurrences nodes.length els k).map fun x => (eps x.1).getD x.2 0 c).sum /
      ((occurrences nodes.length els k).length : K), fun c => ?_⟩
    rw [(h2 k c).1, (h2 k c).2, mean, mean, if_neg hn, if_neg hn]
    refine ⟨rfl, ?_⟩
    congr 1
    have hCs : ∀ x ∈ occurrences nodes.length els k, Cs x.1 = C := by
      intro x hx
      obtain ⟨h3, h4⟩ := mem_occurrences.1 hx
      obtain ⟨mi, row, h5, h6, h7⟩ := hC x.1 h3 (lists_iff_spots.2 (List.ne_nil_of_mem h4))
      obtain ⟨mi', row', xs, us, h8, h9, h10, -⟩ := (h1 x.1 h3).1
      rw [h5, Except.ok.injEq] at h8
      subst h8
      rw [h6, Except.ok.injEq] at h9
      subst h9
      rw [h7, Except.ok.injEq] at h10
      exact h10.symm
    have hmap : ((occurrences nodes.length els k).map fun x => (Cs x.1).mulVec ((eps x.1).getD x.2 0) c) =
        (occurrences nodes.length els k).map fun x => C.mulVec ((eps x.1).getD x.2 0) c :=
      List.map_congr_left fun x hx => by rw [hCs x hx]
    rw [hmap]
    generalize occurrences nodes.length els k = l
    have hlin : (l.map fun x => C.mulVec ((eps x.1).getD x.2 0) c).sum =
        C.mulVec (fun c => (l.map fun x => (eps x.1).getD x.2 0 c).sum) c := by
      induction l with
      | nil => simp [Matrix.mulVec, dotProduct]
      | cons a l ih =>
        simp only [List.map_cons, List.sum_cons]
        rw [ih, ← Pi.add_apply, ← Matrix.mulVec_add]
        rfl
    rw [hlin]
    simp only [Matrix.mulVec, dotProduct]
    rw [Finset.sum_div]
    exact Finset.sum_congr rfl fun i _ => by ring

/-! ## C74 -/

/-- C74.  For displacements sampled from an affine field, in a mesh whose first element is a four node
quadrilateral or a six node triangle, every node of an element gets exactly the strain of the field. -/
theorem C74_strain {nodes mats sol : Table K} {els : List (List ℤ)} {E S}
    (h : strainNodes nodes els mats sol = .ok (E, S)) {c : Fin 2 → K} {G : Matrix (Fin 2) (Fin 2) K}
    (hs : Samples nodes sol c G) {el0 : List ℤ} (h0 : els[0]? = some el0)
    (ht : el0[1]? = some 1 ∨ el0[1]? = some 2) {k : Fin nodes.length}
    (hk : ∃ el ∈ els, Lists nodes.length el k) (i : Fin 3) :
    E k i = some ((![G 0 0, G 1 1, G 0 1 + G 1 0] : Fin 3 → K) i) := by
  obtain ⟨el0', iet, ndof, nne, ng, h1, h2, h3, eps, Cs, h4, h5⟩ := strainNodes_ok h
  rw [h0, Option.some.injEq] at h1
  subst h1
  have hiet : iet ≠ 3 := by
    rintro rfl
    rw [h2] at ht
    simp at ht
  rw [(h5 k i).1]
  apply mean_const (occurrences_ne_nil.2 hk)
  intro x hx
  obtain ⟨h6, h7⟩ := mem_occurrences.1 hx
  obtain ⟨hp, -, hl⟩ := h4 x.1 h6
  obtain ⟨z, hz, -⟩ := mem_spots.1 h7
  have hlt : x.2 < (eps x.1).length := lt_of_lt_of_le (List.getElem?_eq_some_iff.1 hz).1 hl
  rcases hp.affine hs with ⟨-, he⟩ | ⟨-, he⟩ | ⟨hi, -⟩
  · rw [he] at hlt ⊢
    rw [List.length_replicate] at hlt
    rw [List.getD_eq_getElem?_getD, List.getElem?_replicate_of_lt hlt]
    rfl
  · rw [he] at hlt ⊢
    rw [List.length_replicate] at hlt
    rw [List.getD_eq_getElem?_getD, List.getElem?_replicate_of_lt hlt]
    rfl
  · exact absurd hi hiet

/-- C74.  With one elastic matrix in the elements around the node, the stress is that of the field. -/
theorem C74_stress {nodes mats sol : Table K} {els : List (List ℤ)} {E S}
    (h : strainNodes nodes els mats sol = .ok (E, S)) {c : Fin 2 → K} {G : Matrix (Fin 2) (Fin 2) K}
    (hs : Samples nodes sol c G) {el0 : List ℤ} (h0 : els[0]? = some el0)
    (ht : el0[1]? = some 1 ∨ el0[1]? = some 2) {k : Fin nodes.length}
    (hk : ∃ el ∈ els, Lists nodes.length el k) {C : Matrix (Fin 3) (Fin 3) K}
    (hC : ∀ el ∈ els, Lists nodes.length el k → RowMaterial mats el C) (i : Fin 3) :
    S k i = some (C.mulVec ![G 0 0, G 1 1, G 0 1 + G 1 0] i) := by
  rcases C76_stress h hC with ⟨h1, -⟩ | ⟨-, e, he⟩
  · exact absurd hk h1
  · rw [(he i).2]
    have : e = ![G 0 0, G 1 1, G 0 1 + G 1 0] := by
      funext j
      have h1 := C74_strain h hs h0 ht hk j
      rw [(he j).1, Option.some.injEq] at h1
      exact h1
    rw [this]

/-! ## C75 -/

/-- Number of elements that list node `k` first. -/
def firstCount (nn : ℕ) (els : List (List ℤ)) (k : ℕ) : ℕ := els.countP fun el => decide (0 ∈ spots nn el k)

/-- Number of elements that list node `k`. -/
def listCount (nn : ℕ) (els : List (List ℤ)) (k : ℕ) : ℕ := els.countP fun el => decide (spots nn el k ≠ [])

theorem firstCount_meaning (nn : ℕ) (el : List ℤ) (k : ℕ) :
    0 ∈ spots nn el k ↔ ∃ z, el[3]? = some z ∧ Resolves nn z k := by
  rw [mem_spots]
  simp

theorem occurrences_length {nn : ℕ} {els : List (List ℤ)} {k : ℕ} (h : ∀ el ∈ els, (spots nn el k).length ≤ 1) :
    (occurrences nn els k).length = listCount nn els k := by
  induction els with
  | nil => rfl
  | cons el els ih =>
    have ih := ih fun el hel => h el (by simp [hel])
    have h1 := h el (by simp)
    unfold occurrences listCount at *
    rw [List.flatMap_cons, List.length_append, List.countP_cons, ih, List.length_map]
    rcases hs : spots nn el k with _ | ⟨a, t⟩
    · simp
    · rw [hs] at h1
      have : t = [] := by simpa using h1
      subst this
      simp [add_comm]

theorem first_sum {nn : ℕ} {els : List (List ℤ)} {k : ℕ} {eps : List ℤ → List (Fin 3 → K)} {v : Fin 3 → K} {c : Fin 3}
    (h : ∀ el ∈ els, (spots nn el k).length ≤ 1) (he : ∀ el ∈ els, eps el = [v, 0, 0]) :
    ((occurrences nn els k).map fun x => (eps x.1).getD x.2 0 c).sum = (firstCount nn els k : K) * v c := by
  induction els with
  | nil => simp [occurrences, firstCount]
  | cons el els ih =>
    have ih := ih (fun el hel => h el (by simp [hel])) (fun el hel => he el (by simp [hel]))
    have h1 := h el (by simp)
    have he1 := he el (by simp)
    unfold occurrences firstCount at *
    rw [List.flatMap_cons, List.map_append, List.sum_append, List.countP_cons, ih, Nat.cast_add, add_mul, add_comm]
    congr 1
    rcases hs : spots nn el k with _ | ⟨a, t⟩
    · simp
    · rw [hs] at h1
      have : t = [] := by simpa using h1
      subst this
      rcases a with _ | _ | _ | a <;> simp [he1]

/-- C75.  In a mesh of three node triangles an affine field gives, at a node, the strain of the field times the
number of elements that list the node first over the number of elements that list it. -/
theorem C75_formula {nodes mats sol : Table K} {els : List (List ℤ)} {E S}
    (h : strainNodes nodes els mats sol = .ok (E, S)) {c : Fin 2 → K} {G : Matrix (Fin 2) (Fin 2) K}
    (hs : Samples nodes sol c G) {el0 : List ℤ} (h0 : els[0]? = some el0) (ht : el0[1]? = some 3)
    {k : Fin nodes.length} (hk : ∃ el ∈ els, Lists nodes.length el k)
    (hd : ∀ el ∈ els, (spots nodes.length el k).length ≤ 1) (i : Fin 3) :
    E k i = some ((firstCount nodes.length els k : K) * (![G 0 0, G 1 1, G 0 1 + G 1 0] : Fin 3 → K) i /
      (listCount nodes.length els k : K)) := by
  obtain ⟨el0', iet, ndof, nne, ng, h1, h2, h3, eps, Cs, h4, h5⟩ := strainNodes_ok h
  rw [h0, Option.some.injEq] at h1
  subst h1
  rw [ht, Option.some.injEq] at h2
  subst h2
  rw [(h5 k i).1, mean, if_neg (occurrences_ne_nil.2 hk), occurrences_length hd, first_sum hd]
  intro el hel
  rcases (h4 el hel).1.affine hs with ⟨hi, -⟩ | ⟨hi, -⟩ | ⟨-, he⟩
  · cases hi
  · cases hi
  · exact he

theorem countP_lt {α : Type} {p q : α → Bool} {l : List α} (h : ∀ x ∈ l, p x = true → q x = true) {x : α}
    (hx : x ∈ l) (hp : p x = false) (hq : q x = true) : l.countP p < l.countP q := by
  induction l with
  | nil => cases hx
  | cons a l ih =>
    rw [List.countP_cons, List.countP_cons]
    have hle : l.countP p ≤ l.countP q := List.countP_mono_left fun y hy => h y (by simp [hy])
    rcases List.mem_cons.1 hx with rfl | hx
    · rw [hp, hq]
      simp
      omega
    · have := ih (fun y hy => h y (by simp [hy])) hx
      have ha := h a (by simp)
      cases h3 : p a
      · simp
        omega
      · rw [ha h3]
        simp
        omega

/-- C75.  So the strain of the field is not recovered at any node that some element does not list first. -/
theorem C75_not_recovered {nodes mats sol : Table K} {els : List (List ℤ)} {E S}
    (h : strainNodes nodes els mats sol = .ok (E, S)) {c : Fin 2 → K} {G : Matrix (Fin 2) (Fin 2) K}
    (hs : Samples nodes sol c G) {el0 : List ℤ} (h0 : els[0]? = some el0) (ht : el0[1]? = some 3)
    {k : Fin nodes.length} (hd : ∀ el ∈ els, (spots nodes.length el k).length ≤ 1) {el : List ℤ} (hel : el ∈ els)
    (hk : Lists nodes.length el k) (hf : ¬ ∃ z, el[3]? = some z ∧ Resolves nodes.length z k) {i : Fin 3}
    (hG : (![G 0 0, G 1 1, G 0 1 + G 1 0] : Fin 3 → K) i ≠ 0) :
    E k i ≠ some ((![G 0 0, G 1 1, G 0 1 + G 1 0] : Fin 3 → K) i) := by
  rw [C75_formula h hs h0 ht ⟨el, hel, hk⟩ hd i]
  intro heq
  rw [Option.some.injEq] at heq
  have hlt : firstCount nodes.length els k < listCount nodes.length els k := by
    apply countP_lt (x := el) _ hel
    · simpa [mem_spots] using hf
    · simpa using lists_iff_spots.1 hk
    · intro x _ hx
      simp only [decide_eq_true_eq] at hx ⊢
      exact List.ne_nil_of_mem hx
  have hpos : (0 : K) < (listCount nodes.length els k : K) := by
    rw [Nat.cast_pos]
    omega
  have hlt' : (firstCount nodes.length els k : K) < (listCount nodes.length els k : K) := Nat.cast_lt.2 hlt
  rw [div_eq_iff hpos.ne', mul_comm] at heq
  exact hlt'.ne (mul_left_cancel₀ hG heq)

/-! ## C77 -/

/-- C77.  The values at a node are undefined exactly when no element lists it. -/
theorem C77_orphans {nodes mats sol : Table K} {els : List (List ℤ)} {E S}
    (h : strainNodes nodes els mats sol = .ok (E, S)) (k : Fin nodes.length) (c : Fin 3) :
    (E k c = none ↔ ¬ ∃ el ∈ els, Lists nodes.length el k) ∧
    (S k c = none ↔ ¬ ∃ el ∈ els, Lists nodes.length el k) := by
  obtain ⟨_, _, _, _, _, _, _, _, eps, Cs, h1, h2⟩ := strainNodes_ok h
  rw [(h2 k c).1, (h2 k c).2, ← occurrences_ne_nil, not_not, mean, mean]
  constructor <;> split <;> simp_all

/-- C77.  Only meshes of the types 1, 2 and 3 (by the first element) are handled. -/
theorem C77_types {nodes mats sol : Table K} {els : List (List ℤ)} {r}
    (h : strainNodes nodes els mats sol = .ok r) :
    ∃ el0 ty, els[0]? = some el0 ∧ el0[1]? = some ty ∧ (ty = 1 ∨ ty = 2 ∨ ty = 3) := by
  obtain ⟨E, S⟩ := r
  obtain ⟨el0, iet, ndof, nne, ng, h1, h2, h3, eps, Cs, h4, -⟩ := strainNodes_ok h
  refine ⟨el0, iet, h1, h2, ?_⟩
  obtain ⟨_, _, _, _, _, _, _, _, _, _, _, h5⟩ := (h4 el0 (List.mem_of_getElem? h1)).1
  unfold elemStrains at h5
  dsimp only at h5
  split at h5
  · exact Or.inl rfl
  · exact Or.inr (Or.inl rfl)
  · exact Or.inr (Or.inr rfl)
  · cases h5

/-- C77.  Material rows must have exactly two values for every element, so a density column is refused. -/
theorem C77_two_columns {nodes mats sol : Table K} {els : List (List ℤ)} {r}
    (h : strainNodes nodes els mats sol = .ok r) :
    ∀ el ∈ els, ∃ mi E nu, pyGet el 2 = .ok mi ∧ pyGet mats mi = .ok [E, nu] ∧ 1 - nu ^ 2 ≠ 0 := by
  obtain ⟨E, S⟩ := r
  obtain ⟨_, _, _, _, _, _, _, _, eps, Cs, h4, -⟩ := strainNodes_ok h
  intro el hel
  obtain ⟨mi, row, _, _, h1, h2, h3, _⟩ := (h4 el hel).1
  obtain ⟨E, nu, rfl, h4, -⟩ := umat_ok.1 h3
  exact ⟨mi, E, nu, h1, h2, h4⟩

/-- C77.  With a density column in the row of the first element the error is `ValueError`. -/
theorem C77_density {nodes mats sol : Table K} {el0 : List ℤ} {els : List (List ℤ)} {ty mi : ℤ} {row : List K}
    (h1 : el0[1]? = some ty) (hty : 1 ≤ ty ∧ ty ≤ 8) (h2 : el0[2]? = some mi) (h3 : pyGet mats mi = .ok row)
    (hr : row.length ≠ 2) : strainNodes nodes (el0 :: els) mats sol = .error .valueError := by
  have he : ∃ t, Assem.eletype ty = .ok t := by
    obtain ⟨a, b⟩ := hty
    interval_cases ty <;> exact ⟨_, rfl⟩
  obtain ⟨⟨ndof, nne, ng⟩, he⟩ := he
  unfold strainNodes
  have hg : pyGet (el0 :: els) 0 = .ok el0 := pyGet_zero.2 rfl
  rw [hg, ok_bind, pyGet_one.2 h1, ok_bind, he, ok_bind]
  dsimp only
  rw [List.foldlM_cons]
  have : ∀ acc : NodeAcc K nodes.length,
      strainElem ty ndof nne nodes mats sol acc el0 = .error .valueError := by
    intro acc
    unfold strainElem
    rw [pyGet_two.2 h2, ok_bind, h3, ok_bind]
    split
    · exact absurd rfl hr
    · rfl
  rw [this]
  rfl

/-- C77.  A mesh starting with a well-formed nine node quadrilateral fails with an unbound local variable. -/
theorem C77_quad9 {nodes mats sol : Table K} {id mi : ℤ} {zs : List ℤ} {els : List (List ℤ)} {E nu : K}
    (hz : zs.length = 9) (hm : pyGet mats mi = .ok [E, nu]) (hnu : nu ^ 2 ≠ 1)
    (hn : ∀ z ∈ zs, ∃ nd, pyGet nodes z = .ok nd ∧ 3 ≤ nd.length)
    (hu : ∀ z ∈ zs, ∃ u, pyGet sol z = .ok u ∧ 2 ≤ u.length) :
    strainNodes nodes ((id :: 4 :: mi :: zs) :: els) mats sol = .error .unboundLocal := by
  have hnu1 : 1 - nu ^ 2 ≠ 0 := fun h => hnu (sub_eq_zero.1 h).symm
  have h1' : (2 : K) * (1 + nu) ≠ 0 := by
    intro h0
    apply hnu1
    have : nu = -1 := by linear_combination h0 / 2
    rw [this]
    ring
  unfold strainNodes
  have hg : pyGet ((id :: 4 :: mi :: zs) :: els) 0 = .ok (id :: 4 :: mi :: zs) := pyGet_zero.2 rfl
  have hg1 : pyGet (id :: 4 :: mi :: zs) 1 = .ok 4 := pyGet_one.2 rfl
  have hg2 : pyGet (id :: 4 :: mi :: zs) 2 = .ok mi := pyGet_two.2 rfl
  rw [hg, ok_bind, hg1, ok_bind]
  have he : Assem.eletype 4 = .ok (18, 9, 9) := rfl
  rw [he, ok_bind]
  dsimp only
  rw [List.foldlM_cons]
  have : ∀ acc : NodeAcc K nodes.length,
      strainElem 4 18 9 nodes mats sol acc (id :: 4 :: mi :: zs) = .error .unboundLocal := by
    intro acc
    unfold strainElem
    rw [hg2, ok_bind, hm, ok_bind]
    dsimp only
    unfold pyDiv
    rw [if_neg h1', ok_bind, if_neg hnu1, ok_bind, if_neg hnu1, ok_bind, if_neg (by simp [hz])]
    obtain ⟨xs, hx⟩ := (mapM_exists (l := zs) (f := fun i => do
        let nd ← pyGet nodes i
        let x ← pyGet nd 1
        let y ← pyGet nd 2
        pure [x, y])).2 (by
      intro z hz
      obtain ⟨nd, h1, h2⟩ := hn z hz
      refine ⟨[nd[1], nd[2]], ?_⟩
      rw [h1, ok_bind, pyGet_one.2 (List.getElem?_eq_getElem (by omega)), ok_bind,
        pyGet_two.2 (List.getElem?_eq_getElem (by omega)), ok_bind]
      rfl)
    obtain ⟨us, hus⟩ := (mapM_exists (l := zs) (f := fun i => do
        let u ← pyGet sol i
        let ux ← pyGet u 0
        let uy ← pyGet u 1
        pure [ux, uy])).2 (by
      intro z hz
      obtain ⟨u, h1, h2⟩ := hu z hz
      refine ⟨[u[0], u[1]], ?_⟩
      rw [h1, ok_bind, pyGet_zero.2 (List.getElem?_eq_getElem (by omega)), ok_bind,
        pyGet_one.2 (List.getElem?_eq_getElem (by omega)), ok_bind]
      rfl)
    have hdrop : List.drop 3 (id :: 4 :: mi :: zs) = zs := rfl
    rw [hdrop, hx, ok_bind, if_neg (by simp), hus, ok_bind]
    rfl
  rw [this]
  rfl

/-! ## C78

The intended statement: row `i` of the second output is the position of integration point `i`. -/

/-- C78.  The first column is the abscissa of the point. -/
theorem C78_abscissa_partial {n : ℕ} {st f pts m} (h : StrainRoutine (K := K) n st f pts m)
    {X : Matrix (Fin n) (Fin 2) K} {u : Fin n × Fin 2 → K} {eps xl} (hr : st X u = .ok (eps, xl)) {i : ℕ} {p : ℚ × ℚ}
    (hp : pts[i]? = some p) : ∃ row, xl[i]? = some row ∧ row 0 = place (f (p.1 : K) (p.2 : K)).1 X 0 := by
  obtain ⟨-, -, h2⟩ := h.ok.1 hr
  refine ⟨![place (f (p.1 : K) (p.2 : K)).1 X 0, place (f (p.1 : K) (p.2 : K)).1 X 0], ?_, ?_⟩
  · rw [h2, List.getElem?_append_left, List.getElem?_map, hp]
    · rfl
    · rw [List.length_map]
      exact (List.getElem?_eq_some_iff.1 hp).1
  · rfl

/-- C78.  The second column always repeats the first. -/
theorem C78_columns_equal {n : ℕ} {st f pts m} (h : StrainRoutine (K := K) n st f pts m)
    {X : Matrix (Fin n) (Fin 2) K} {u : Fin n × Fin 2 → K} {eps xl} (hr : st X u = .ok (eps, xl)) :
    ∀ row ∈ xl, row 1 = row 0 := by
  obtain ⟨-, -, h2⟩ := h.ok.1 hr
  intro row hrow
  rw [h2, List.mem_append, List.mem_map] at hrow
  rcases hrow with ⟨p, -, rfl⟩ | hrow
  · rfl
  · rw [(List.mem_replicate.1 hrow).2]
    rfl

/-- C78.  So no reported position is that of a point off the line `x = y`. -/
theorem C78_wrong {n : ℕ} {st f pts m} (h : StrainRoutine (K := K) n st f pts m)
    {X : Matrix (Fin n) (Fin 2) K} {u : Fin n × Fin 2 → K} {eps xl} (hr : st X u = .ok (eps, xl)) {r s : K}
    (hne : place (f r s).1 X 0 ≠ place (f r s).1 X 1) : place (f r s).1 X ∉ xl := by
  intro hx
  exact hne (C78_columns_equal h hr _ hx).symm

/-- The unit triangle moved one to the right: the point used has abscissa `4/3` and ordinate `1/3`. -/
example : ∃ r, strEl3 (K := ℚ) !![1, 0; 2, 0; 1, 1] (fun _ => 0) = .ok r := isOk_exists (by decide +kernel)

/-! ## Cases -/

/-- Two squares side by side, an unused node and an affine field (strains `1/10, 0, 1/5`). -/
def caseNodes : Table ℚ := [[0, 0, 0], [1, 1, 0], [2, 2, 0], [3, 0, 1], [4, 1, 1], [5, 2, 1], [6, 9, 9]]
def caseEls : List (List ℤ) := [[0, 1, 0, 0, 1, 4, 3], [1, 1, 0, 1, 2, 5, 4]]
def caseMats : Table ℚ := [[8, 1/4]]
def caseSol : Table ℚ := caseNodes.map fun nd => [nd.getD 1 0 / 10 + nd.getD 2 0 / 5, 3]

example : Samples caseNodes caseSol ![0, 3] !![1/10, 1/5; 0, 0] ∧
    (∃ el ∈ caseEls, Lists caseNodes.length el 4) ∧ (∃ r, strainNodes caseNodes caseEls caseMats caseSol = .ok r) := by
  refine ⟨⟨rfl, ?_⟩, ⟨[0, 1, 0, 0, 1, 4, 3], by decide, 4, by decide, by decide⟩, isOk_exists (by decide +kernel)⟩
  intro i nd u h1 h2 x y h3 h4
  rw [caseSol, List.getElem?_map, h1, Option.map_some, Option.some.injEq] at h2
  subst h2
  rw [List.getD_eq_getElem?_getD, List.getD_eq_getElem?_getD, h3, h4]
  simp
  ring

/-- The same region cut in triangles: accepted, node 4 is listed first by one of its four elements. -/
def caseTri : List (List ℤ) := [[0, 3, 0, 0, 1, 4], [1, 3, 0, 4, 3, 0], [2, 3, 0, 1, 2, 4], [3, 3, 0, 2, 5, 4]]

example : (∃ r, strainNodes caseNodes caseTri caseMats caseSol = .ok r) ∧
    firstCount 7 caseTri 4 = 1 ∧ listCount 7 caseTri 4 = 4 ∧ ∀ el ∈ caseTri, (spots 7 el 4).length ≤ 1 :=
  ⟨isOk_exists (by decide +kernel), by decide, by decide, by decide⟩

/-- A density column. -/
example : strainNodes caseNodes caseEls [[8, 1/4, 1]] caseSol = .error .valueError :=
  C77_density (ty := 1) (mi := 0) (row := [8, 1/4, 1]) rfl (by decide) rfl (by decide +kernel) (by decide)

end
end SolidsPy
