import Verif.Model.Pre
import Verif.Spec.Grid
import Verif.Proofs.Lists
import Verif.Props.Elements

/-! # C65 - C67: the structured mesh -/

set_option linter.unusedSectionVars false

namespace SolidsPy
open Spec Pre Fem Uel Gauss

section
variable {K : Type} [Field K] [LinearOrder K] [IsStrictOrderedRing K] [FloorRing K]

/-! ## Rows and columns -/

/-- Number of the node in row `r`, column `c`. -/
def nodeNo (nx r c : ℕ) : ℕ := r * (nx + 1) + c

theorem nodeNo_inj {nx r c r' c' : ℕ} (hc : c ≤ nx) (hc' : c' ≤ nx) (h : nodeNo nx r c = nodeNo nx r' c') :
    r = r' ∧ c = c' := base_inj (by omega) (by omega) h

theorem nodeNo_lt {nx ny r c : ℕ} (hr : r ≤ ny) (hc : c ≤ nx) : nodeNo nx r c < (nx + 1) * (ny + 1) := by
  unfold nodeNo
  nlinarith

theorem gridEls_getElem? {nx ny r c : ℕ} (hr : r < ny) (hc : c < nx) :
    (gridEls nx ny)[r * nx + c]? = some [((r * nx + c : ℕ) : ℤ), 1, 0, nodeNo nx r c, nodeNo nx r (c + 1),
      nodeNo nx (r + 1) (c + 1), nodeNo nx (r + 1) c] := by
  have h := flatMap_map_getElem? (List.range ny) (List.range nx)
    (fun row col : ℕ => ([(row : ℤ) * nx + col, 1, 0, (row : ℤ) * nx + col + row,
      (row : ℤ) * nx + col + row + 1, (row : ℤ) * nx + col + row + nx + 2,
      (row : ℤ) * nx + col + row + nx + 1] : List ℤ)) (a := r) (b := c) (x := r)
    (by simpa using hc) (by simp [hr])
  rw [List.length_range] at h
  unfold gridEls nodeNo
  refine h.trans ?_
  simp only [List.getElem?_range hc, Option.map_some, Option.some.injEq, List.cons.injEq, true_and, and_true]
  push_cast
  refine ⟨rfl, ?_, ?_, ?_, ?_⟩ <;> ring

theorem gridEls_length (nx ny : ℕ) : (gridEls nx ny).length = nx * ny := by
  unfold gridEls
  have := flatMap_map_length (List.range ny) (List.range nx)
    (fun row col : ℕ => ([(row : ℤ) * nx + col, 1, 0, (row : ℤ) * nx + col + row,
      (row : ℤ) * nx + col + row + 1, (row : ℤ) * nx + col + row + nx + 2,
      (row : ℤ) * nx + col + row + nx + 1] : List ℤ))
  rw [List.length_range, List.length_range, Nat.mul_comm] at this
  exact this

theorem mgridAxis_length (a b : K) (n : ℕ) : (mgridAxis a b n).length = n := by simp [mgridAxis]

theorem grid_x (L H : K) {nx ny r c : ℕ} (hr : r ≤ ny) (hc : c ≤ nx) :
    (rectGrid L H nx ny).1[nodeNo nx r c]? = some (-L / 2 + c * (L / nx)) := by
  unfold rectGrid nodeNo
  dsimp only
  have h := flatMap_map_getElem? (mgridAxis (-H / 2) (H / 2) (ny + 1)) (mgridAxis (-L / 2) (L / 2) (nx + 1))
    (fun _ x => x) (a := r) (b := c) (x := (mgridAxis (-H / 2) (H / 2) (ny + 1))[r]'(by
      rw [mgridAxis_length]; omega)) (by rw [mgridAxis_length]; omega) (List.getElem?_eq_getElem _)
  rw [mgridAxis_length] at h
  simp only [List.map_id'] at h
  rw [h, Option.map_id']
  simp only [mgridAxis, List.getElem?_map, List.getElem?_range (by omega : c < nx + 1), Option.map_some,
    Option.some.injEq]
  push_cast
  ring_nf

theorem grid_y (L H : K) {nx ny r c : ℕ} (hr : r ≤ ny) (hc : c ≤ nx) :
    (rectGrid L H nx ny).2.1[nodeNo nx r c]? = some (-H / 2 + r * (H / ny)) := by
  unfold rectGrid nodeNo
  dsimp only
  have h := flatMap_map_getElem? (mgridAxis (-H / 2) (H / 2) (ny + 1)) (mgridAxis (-L / 2) (L / 2) (nx + 1))
    (fun y _ => y) (a := r) (b := c) (x := (mgridAxis (-H / 2) (H / 2) (ny + 1))[r]'(by
      rw [mgridAxis_length]; omega)) (by rw [mgridAxis_length]; omega) (List.getElem?_eq_getElem _)
  rw [mgridAxis_length] at h
  rw [h]
  rw [List.getElem?_eq_getElem (by rw [mgridAxis_length]; omega), Option.map_some, Option.some.injEq]
  simp only [mgridAxis, List.getElem_map, List.getElem_range]
  push_cast
  ring_nf

theorem node_split {nx ny v : ℕ} (h : v < (nx + 1) * (ny + 1)) : ∃ r c, r ≤ ny ∧ c ≤ nx ∧ v = nodeNo nx r c := by
  obtain ⟨h1, h2, h3⟩ := div_mod_lt h
  exact ⟨_, _, by omega, by omega, h3⟩

/-! ## C65 -/

/-- C65.  The structured mesh has `(nx+1)(ny+1)` nodes and `nx*ny` elements numbered from 0, of type 1 and
material 0; each has four distinct existing nodes. -/
theorem C65_elements (L H : K) (nx ny : ℕ) :
    (rectGrid L H nx ny).1.length = (nx + 1) * (ny + 1) ∧
    (rectGrid L H nx ny).2.1.length = (nx + 1) * (ny + 1) ∧
    (rectGrid L H nx ny).2.2.length = nx * ny ∧
    ∀ e < nx * ny, ∃ a b c d : ℕ, (rectGrid L H nx ny).2.2[e]? = some [(e : ℤ), 1, 0, a, b, c, d] ∧
      [a, b, c, d].Nodup ∧ ∀ v ∈ [a, b, c, d], v < (nx + 1) * (ny + 1) := by
  refine ⟨?_, ?_, gridEls_length nx ny, ?_⟩
  · unfold rectGrid
    dsimp only
    have := flatMap_map_length (mgridAxis (-H / 2) (H / 2) (ny + 1)) (mgridAxis (-L / 2) (L / 2) (nx + 1))
      (fun _ x => x)
    simp only [List.map_id', mgridAxis_length] at this
    rw [this, Nat.mul_comm]
  · unfold rectGrid
    dsimp only
    rw [flatMap_map_length, mgridAxis_length, mgridAxis_length, Nat.mul_comm]
  · intro e he
    obtain ⟨h1, h2, h3⟩ := div_mod_lt he
    generalize e / nx = r at *
    generalize e % nx = c at *
    subst h3
    refine ⟨_, _, _, _, gridEls_getElem? h1 h2, ?_, ?_⟩
    · unfold nodeNo
      simp only [List.nodup_cons, List.mem_cons, List.not_mem_nil, or_false, not_or, not_false_eq_true,
        List.nodup_nil, and_true]
      have e : (r + 1) * (nx + 1) = r * (nx + 1) + (nx + 1) := by ring
      rw [e]
      refine ⟨⟨?_, ?_, ?_⟩, ⟨?_, ?_⟩, ?_⟩ <;> omega
    · intro v hv
      simp only [List.mem_cons, List.not_mem_nil, or_false] at hv
      rcases hv with rfl | rfl | rfl | rfl <;> apply nodeNo_lt <;> omega

/-- C65.  Every node belongs to an element. -/
theorem C65_used (L H : K) {nx ny : ℕ} (hx : 0 < nx) (hy : 0 < ny) {v : ℕ} (hv : v < (nx + 1) * (ny + 1)) :
    ∃ (e : ℕ) (row : List ℤ), (rectGrid L H nx ny).2.2[e]? = some row ∧ (v : ℤ) ∈ row.drop 3 := by
  obtain ⟨r, c, hr, hc, rfl⟩ := node_split hv
  by_cases h1 : r < ny
  · by_cases h2 : c < nx
    · exact ⟨_, _, gridEls_getElem? h1 h2, by simp⟩
    · obtain ⟨c, rfl⟩ : ∃ c', c = c' + 1 := ⟨c - 1, by omega⟩
      exact ⟨_, _, gridEls_getElem? h1 (by omega : c < nx), by simp⟩
  · obtain ⟨r, rfl⟩ : ∃ r', r = r' + 1 := ⟨r - 1, by omega⟩
    by_cases h2 : c < nx
    · exact ⟨_, _, gridEls_getElem? (by omega : r < ny) h2, by simp⟩
    · obtain ⟨c, rfl⟩ : ∃ c', c = c' + 1 := ⟨c - 1, by omega⟩
      exact ⟨_, _, gridEls_getElem? (by omega : r < ny) (by omega : c < nx), by simp⟩

/-! ## C66 -/

/-- C66.  Element number `r*nx + c` is the cell in row `r`, column `c` of the division of the rectangle into
`ny` rows and `nx` columns, its corners listed counter-clockwise from the lower left. -/
theorem C66_cell (L H : K) {nx ny r c : ℕ} (hr : r < ny) (hc : c < nx) :
    ∃ row, (rectGrid L H nx ny).2.2[r * nx + c]? = some row ∧
      corners (rectGrid L H nx ny).1 (rectGrid L H nx ny).2.1 row =
        [(-L / 2 + c * (L / nx), -H / 2 + r * (H / ny)),
         (-L / 2 + (c + 1) * (L / nx), -H / 2 + r * (H / ny)),
         (-L / 2 + (c + 1) * (L / nx), -H / 2 + (r + 1) * (H / ny)),
         (-L / 2 + c * (L / nx), -H / 2 + (r + 1) * (H / ny))] := by
  refine ⟨_, gridEls_getElem? hr hc, ?_⟩
  simp only [corners, List.drop_succ_cons, List.drop_zero, List.map_cons, List.map_nil, Int.toNat_natCast,
    List.getD_eq_getElem?_getD]
  rw [grid_x L H (by omega) (by omega), grid_x L H (by omega) (by omega), grid_x L H (by omega) (by omega),
    grid_x L H (by omega) (by omega), grid_y L H (by omega) (by omega), grid_y L H (by omega) (by omega),
    grid_y L H (by omega) (by omega), grid_y L H (by omega) (by omega)]
  simp

theorem mem_grid {L H : K} {nx ny : ℕ} {row : List ℤ} (h : row ∈ (rectGrid L H nx ny).2.2) :
    ∃ r c, r < ny ∧ c < nx ∧ (rectGrid L H nx ny).2.2[r * nx + c]? = some row := by
  obtain ⟨e, he, rfl⟩ := List.mem_iff_getElem.1 h
  have he' : e < nx * ny := by
    rw [← gridEls_length nx ny]
    exact he
  obtain ⟨h1, h2, h3⟩ := div_mod_lt he'
  refine ⟨_, _, h1, h2, ?_⟩
  rw [← h3, List.getElem?_eq_getElem he]

/-- C66.  Every element has area `(L/nx)(H/ny)`, positive orientation for a positive size. -/
theorem C66_area {L H : K} {nx ny : ℕ} {row : List ℤ} (h : row ∈ (rectGrid L H nx ny).2.2) :
    polyArea (corners (rectGrid L H nx ny).1 (rectGrid L H nx ny).2.1 row) = L / nx * (H / ny) := by
  obtain ⟨r, c, hr, hc, h1⟩ := mem_grid h
  obtain ⟨row', h2, h3⟩ := C66_cell L H hr hc
  rw [h1, Option.some.injEq] at h2
  subst h2
  rw [h3]
  simp only [polyArea, List.take_succ_cons, List.take_zero, List.cons_append, List.nil_append, sweep]
  ring

/-- C66.  The areas add up to the area of the rectangle. -/
theorem C66_total (L H : K) {nx ny : ℕ} (hx : 0 < nx) (hy : 0 < ny) :
    (((rectGrid L H nx ny).2.2).map fun row =>
      polyArea (corners (rectGrid L H nx ny).1 (rectGrid L H nx ny).2.1 row)).sum = L * H := by
  rw [List.map_congr_left (g := fun _ => L / nx * (H / ny)) fun row hrow => C66_area hrow]
  simp only [List.map_const', List.sum_replicate, (C65_elements L H nx ny).2.2.1, nsmul_eq_mul]
  have h1 : (nx : K) ≠ 0 := by exact_mod_cast hx.ne'
  have h2 : (ny : K) ≠ 0 := by exact_mod_cast hy.ne'
  push_cast
  field_simp

/-- C66.  All nodes lie in the rectangle `[-L/2, L/2] x [-H/2, H/2]`. -/
theorem C66_inside {L H : K} (hL : 0 ≤ L) (hH : 0 ≤ H) {nx ny : ℕ} (hx : 0 < nx) (hy : 0 < ny) {v : ℕ} {x y : K}
    (h1 : (rectGrid L H nx ny).1[v]? = some x) (h2 : (rectGrid L H nx ny).2.1[v]? = some y) :
    -L / 2 ≤ x ∧ x ≤ L / 2 ∧ -H / 2 ≤ y ∧ y ≤ H / 2 := by
  have hv : v < (nx + 1) * (ny + 1) := by
    rw [← (C65_elements L H nx ny).1]
    exact (List.getElem?_eq_some_iff.1 h1).1
  obtain ⟨r, c, hr, hc, rfl⟩ := node_split hv
  rw [grid_x L H hr hc, Option.some.injEq] at h1
  rw [grid_y L H hr hc, Option.some.injEq] at h2
  have key : ∀ (A : K) (n k : ℕ), 0 ≤ A → 0 < n → k ≤ n → 0 ≤ (k : K) * (A / n) ∧ (k : K) * (A / n) ≤ A := by
    intro A n k hA hn hk
    have hn' : (0 : K) < n := by exact_mod_cast hn
    have hk' : (k : K) ≤ n := by exact_mod_cast hk
    refine ⟨by positivity, ?_⟩
    calc (k : K) * (A / n) ≤ n * (A / n) := mul_le_mul_of_nonneg_right hk' (by positivity)
      _ = A := by field_simp
  have a := key L nx c hL hx hc
  have b := key H ny r hH hy hr
  subst h1 h2
  refine ⟨?_, ?_, ?_, ?_⟩ <;> linarith [a.1, a.2, b.1, b.2]

/-- C66.  The four corners of the rectangle are nodes. -/
theorem C66_corners (L H : K) {nx ny : ℕ} (hx : 0 < nx) (hy : 0 < ny) (x : K) (y : K)
    (hX : x = -L / 2 ∨ x = L / 2) (hY : y = -H / 2 ∨ y = H / 2) :
    ∃ v : ℕ, (rectGrid L H nx ny).1[v]? = some x ∧ (rectGrid L H nx ny).2.1[v]? = some y := by
  have h1 : (nx : K) ≠ 0 := by exact_mod_cast hx.ne'
  have h2 : (ny : K) ≠ 0 := by exact_mod_cast hy.ne'
  have e1 : ∃ c ≤ nx, x = -L / 2 + (c : K) * (L / nx) := by
    rcases hX with rfl | rfl
    · exact ⟨0, by omega, by simp⟩
    · exact ⟨nx, le_rfl, by field_simp; ring⟩
  have e2 : ∃ r ≤ ny, y = -H / 2 + (r : K) * (H / ny) := by
    rcases hY with rfl | rfl
    · exact ⟨0, by omega, by simp⟩
    · exact ⟨ny, le_rfl, by field_simp; ring⟩
  obtain ⟨c, hc, rfl⟩ := e1
  obtain ⟨r, hr, rfl⟩ := e2
  exact ⟨_, grid_x L H hr hc, grid_y L H hr hc⟩

/-- C66.  The four-node routine accepts an element of the mesh exactly when a quarter of its area exceeds the
threshold of `jacoper`. -/
theorem C66_accepted_iff {L H : K} {nx ny : ℕ} {row : List ℤ} (h : row ∈ (rectGrid L H nx ny).2.2)
    {E nu : K} (hnu : nu ^ 2 ≠ 1) :
    (∃ r, elastQuad4 ((corners (rectGrid L H nx ny).1 (rectGrid L H nx ny).2.1 row).map fun p => [p.1, p.2])
      [E, nu] = .ok r) ↔ 1e-8 < L / nx * (H / ny) / 4 := by
  obtain ⟨r, c, hr, hc, h1⟩ := mem_grid h
  obtain ⟨row', h2, h3⟩ := C66_cell L H hr hc
  rw [h1, Option.some.injEq] at h2
  subst h2
  rw [h3]
  have e1 : -L / 2 + ((c : K) + 1) * (L / nx) = (-L / 2 + (c : K) * (L / nx)) + L / nx := by ring
  have e2 : -H / 2 + ((r : K) + 1) * (H / ny) = (-H / 2 + (r : K) * (H / ny)) + H / ny := by ring
  rw [e1, e2]
  generalize -L / 2 + (c : K) * (L / nx) = x0
  generalize -H / 2 + (r : K) * (H / ny) = y0
  generalize L / nx = a
  generalize H / ny = b
  have hX : ([(x0, y0), (x0 + a, y0), (x0 + a, y0 + b), (x0, y0 + b)] : List (K × K)).map
      (fun p => [p.1, p.2]) =
      matRows (!![x0, y0; x0 + a, y0; x0 + a, y0 + b; x0, y0 + b] : Matrix (Fin 4) (Fin 2) K) := by
    simp [matRows, List.ofFn_succ]
  rw [hX]
  have hj : ∀ s t : K, jdet (shapeQuad4 s t)
      (!![x0, y0; x0 + a, y0; x0 + a, y0 + b; x0, y0 + b] : Matrix (Fin 4) (Fin 2) K) = a * b / 4 := by
    intro s t
    unfold jdet
    rw [quad4_det]
    simp
    ring
  have hrep : Rep2 4 (elastQuad4 (K := K)) (ruleQuad shapeQuad4 pts1d2 wts1d2) false := rep_plane body_quad4
  obtain ⟨C, hC⟩ := (C35_returns_iff [E, nu]).2 ⟨E, nu, rfl, hnu⟩
  constructor
  · rintro ⟨r, hr⟩
    obtain ⟨C', ρ, -, ha, -⟩ := (hrep.ok _ _ _).1 hr
    have := ha (at2 shapeQuad4 _, _) (List.mem_map.2 ⟨_, List.mem_of_getElem? (i := 0) rfl, rfl⟩)
    unfold at2 at this
    rwa [hj] at this
  · intro hlt
    refine ⟨_, (hrep.ok _ _ _).2 ⟨C, _, ⟨by simp, hC, rfl⟩, ?_, rfl⟩⟩
    intro x hx
    obtain ⟨p, -, rfl⟩ := List.mem_map.1 hx
    unfold at2
    rw [hj]
    exact hlt

/-! ## C67 -/

/-- The four directed sides of cell `(r, c)`. -/
def cellSides (nx r c : ℕ) : List (ℤ × ℤ) :=
  [((nodeNo nx r c : ℕ), (nodeNo nx r (c + 1) : ℕ)), ((nodeNo nx r (c + 1) : ℕ), (nodeNo nx (r + 1) (c + 1) : ℕ)),
   ((nodeNo nx (r + 1) (c + 1) : ℕ), (nodeNo nx (r + 1) c : ℕ)), ((nodeNo nx (r + 1) c : ℕ), (nodeNo nx r c : ℕ))]

theorem grid_sides (L H : K) (nx ny : ℕ) : meshSides (rectGrid L H nx ny).2.2 =
    (List.range ny).flatMap fun r => (List.range nx).flatMap fun c => cellSides nx r c := by
  unfold meshSides rectGrid gridEls
  dsimp only
  rw [List.flatMap_assoc]
  congr 1
  funext r
  rw [List.flatMap_map]
  congr 1
  funext c
  simp [sides, cellSides, nodeNo]
  refine ⟨⟨?_, ?_⟩, ⟨?_, ?_⟩, ⟨?_, ?_⟩, ⟨?_, ?_⟩⟩ <;> ring

theorem mem_sides {L H : K} {nx ny : ℕ} {s : ℤ × ℤ} : s ∈ meshSides (rectGrid L H nx ny).2.2 ↔
    ∃ r c, r < ny ∧ c < nx ∧ s ∈ cellSides nx r c := by
  rw [grid_sides]
  simp only [List.mem_flatMap, List.mem_range]
  constructor
  · rintro ⟨r, hr, c, hc, h⟩
    exact ⟨r, c, hr, hc, h⟩
  · rintro ⟨r, c, hr, hc, h⟩
    exact ⟨r, hr, c, hc, h⟩

theorem cellSides_inj {nx r c r' c' : ℕ} (hc : c < nx) (hc' : c' < nx) {s : ℤ × ℤ} (h : s ∈ cellSides nx r c)
    (h' : s ∈ cellSides nx r' c') : r = r' ∧ c = c' := by
  simp only [cellSides, List.mem_cons, List.not_mem_nil, or_false] at h h'
  have key : ∀ {a b a' b' : ℕ}, b ≤ nx → b' ≤ nx → ((nodeNo nx a b : ℕ) : ℤ) = (nodeNo nx a' b' : ℕ) →
      a = a' ∧ b = b' := fun h1 h2 h3 => nodeNo_inj h1 h2 (by exact_mod_cast h3)
  rcases h with rfl | rfl | rfl | rfl <;> rcases h' with h | h | h | h <;>
    (rw [Prod.mk.injEq] at h; have h1 := key (by omega) (by omega) h.1; have h2 := key (by omega) (by omega) h.2;
     omega)

/-- C67.  No directed side occurs twice in the mesh: neighbouring elements run through a common side in opposite
directions. -/
theorem C67_directed_once (L H : K) (nx ny : ℕ) : (meshSides (rectGrid L H nx ny).2.2).Nodup := by
  rw [grid_sides, List.nodup_flatMap]
  refine ⟨fun r _ => ?_, ?_⟩
  · rw [List.nodup_flatMap]
    refine ⟨fun c hc => ?_, ?_⟩
    · have hc := List.mem_range.1 hc
      simp only [cellSides, nodeNo, List.nodup_cons, List.mem_cons, List.not_mem_nil, or_false, not_or,
        Prod.mk.injEq, not_and, not_false_eq_true, List.nodup_nil, and_true]
      have e : (r + 1) * (nx + 1) = r * (nx + 1) + (nx + 1) := by ring
      rw [e]
      refine ⟨⟨?_, ?_, ?_⟩, ⟨?_, ?_⟩, ?_⟩ <;> intro h <;> push_cast at h ⊢ <;> omega
    · refine List.Pairwise.imp_of_mem ?_ (List.nodup_range (n := nx))
      intro c c' hc hc' hne s hs hs'
      exact hne (cellSides_inj (List.mem_range.1 hc) (List.mem_range.1 hc') hs hs').2
  · refine List.Pairwise.imp_of_mem ?_ (List.nodup_range (n := ny))
    intro r r' hr hr' hne s hs hs'
    obtain ⟨c, hc, h⟩ := List.mem_flatMap.1 hs
    obtain ⟨c', hc', h'⟩ := List.mem_flatMap.1 hs'
    exact hne (cellSides_inj (List.mem_range.1 hc) (List.mem_range.1 hc') h h').1

/-- C67.  A side of an element is shared with another element, which runs through it backwards, unless it lies
on the border of the rectangle. -/
theorem C67_conforming {L H : K} (hL : 0 < L) (hH : 0 < H) {nx ny : ℕ} {p q : ℕ}
    (h : ((p : ℤ), (q : ℤ)) ∈ meshSides (rectGrid L H nx ny).2.2) {xp yp xq yq : K}
    (hp : (rectGrid L H nx ny).1[p]? = some xp ∧ (rectGrid L H nx ny).2.1[p]? = some yp)
    (hq : (rectGrid L H nx ny).1[q]? = some xq ∧ (rectGrid L H nx ny).2.1[q]? = some yq) :
    ((q : ℤ), (p : ℤ)) ∈ meshSides (rectGrid L H nx ny).2.2 ↔
      ¬ OnSide (-L / 2) (L / 2) (-H / 2) (H / 2) (xp, yp) (xq, yq) := by
  obtain ⟨r, c, hr, hc, h⟩ := mem_sides.1 h
  have hx : 0 < nx := by omega
  have hy : 0 < ny := by omega
  have key : ∀ {a b a' b' : ℕ}, b ≤ nx → b' ≤ nx → ((nodeNo nx a b : ℕ) : ℤ) = (nodeNo nx a' b' : ℕ) →
      a = a' ∧ b = b' := fun h1 h2 h3 => nodeNo_inj h1 h2 (by exact_mod_cast h3)
  have side : ∀ {A : K} {n k : ℕ}, 0 < A → 0 < n →
      ((-A / 2 + (k : K) * (A / n) = -A / 2 ↔ k = 0) ∧ (-A / 2 + (k : K) * (A / n) = A / 2 ↔ k = n)) := by
    intro A n k hA hn
    have hn' : (n : K) ≠ 0 := by exact_mod_cast hn.ne'
    constructor
    · rw [add_eq_left, mul_eq_zero, Nat.cast_eq_zero]
      have : A / n ≠ 0 := div_ne_zero hA.ne' hn'
      tauto
    · constructor
      · intro h
        have : (k : K) * (A / n) = A := by linarith
        rw [mul_div_assoc', div_eq_iff hn', mul_comm] at this
        exact_mod_cast mul_left_cancel₀ hA.ne' this
      · rintro rfl
        field_simp
        ring
  have rev : ((q : ℤ), (p : ℤ)) ∈ meshSides (rectGrid L H nx ny).2.2 ↔
      ∃ r c, r < ny ∧ c < nx ∧ ((q : ℤ), (p : ℤ)) ∈ cellSides nx r c := mem_sides
  rw [rev]
  have on : ∀ {a b a' b' : ℕ}, a ≤ ny → b ≤ nx → a' ≤ ny → b' ≤ nx → p = nodeNo nx a b → q = nodeNo nx a' b' →
      (OnSide (-L / 2) (L / 2) (-H / 2) (H / 2) (xp, yp) (xq, yq) ↔
        (b = 0 ∧ b' = 0) ∨ (b = nx ∧ b' = nx) ∨ (a = 0 ∧ a' = 0) ∨ (a = ny ∧ a' = ny)) := by
    rintro a b a' b' ha hb ha' hb' rfl rfl
    rw [grid_x L H ha hb, grid_y L H ha hb, Option.some.injEq, Option.some.injEq] at hp
    rw [grid_x L H ha' hb', grid_y L H ha' hb', Option.some.injEq, Option.some.injEq] at hq
    obtain ⟨rfl, rfl⟩ := hp
    obtain ⟨rfl, rfl⟩ := hq
    unfold OnSide
    dsimp only
    rw [(side hL hx).1, (side hL hx).1, (side hL hx).2, (side hL hx).2, (side hH hy).1, (side hH hy).1,
      (side hH hy).2, (side hH hy).2]
  clear hp hq
  simp only [cellSides, List.mem_cons, List.not_mem_nil, or_false, Prod.mk.injEq, Nat.cast_inj] at h ⊢
  rcases h with ⟨h1, h2⟩ | ⟨h1, h2⟩ | ⟨h1, h2⟩ | ⟨h1, h2⟩
  · rw [on (by omega) (by omega) (by omega) (by omega) h1 h2, h1, h2]
    constructor
    · rintro ⟨r', c', hr', hc', ⟨e1, e2⟩ | ⟨e1, e2⟩ | ⟨e1, e2⟩ | ⟨e1, e2⟩⟩ <;>
        (have := nodeNo_inj (by omega) (by omega) e1; have := nodeNo_inj (by omega) (by omega) e2; omega)
    · intro hn
      refine ⟨r - 1, c, by omega, hc, ?_⟩
      rw [show r - 1 + 1 = r by omega]
      simp
  · rw [on (by omega) (by omega) (by omega) (by omega) h1 h2, h1, h2]
    constructor
    · rintro ⟨r', c', hr', hc', ⟨e1, e2⟩ | ⟨e1, e2⟩ | ⟨e1, e2⟩ | ⟨e1, e2⟩⟩ <;>
        (have := nodeNo_inj (by omega) (by omega) e1; have := nodeNo_inj (by omega) (by omega) e2; omega)
    · intro hn
      exact ⟨r, c + 1, by omega, by omega, by simp⟩
  · rw [on (by omega) (by omega) (by omega) (by omega) h1 h2, h1, h2]
    constructor
    · rintro ⟨r', c', hr', hc', ⟨e1, e2⟩ | ⟨e1, e2⟩ | ⟨e1, e2⟩ | ⟨e1, e2⟩⟩ <;>
        (have := nodeNo_inj (by omega) (by omega) e1; have := nodeNo_inj (by omega) (by omega) e2; omega)
    · intro hn
      exact ⟨r + 1, c, by omega, by omega, by simp⟩
  · rw [on (by omega) (by omega) (by omega) (by omega) h1 h2, h1, h2]
    constructor
    · rintro ⟨r', c', hr', hc', ⟨e1, e2⟩ | ⟨e1, e2⟩ | ⟨e1, e2⟩ | ⟨e1, e2⟩⟩ <;>
        (have := nodeNo_inj (by omega) (by omega) e1; have := nodeNo_inj (by omega) (by omega) e2; omega)
    · intro hn
      refine ⟨r, c - 1, by omega, by omega, ?_⟩
      rw [show c - 1 + 1 = c by omega]
      simp

/-- The mesh of two by one cells on a rectangle of sides 2 and 1. -/
example : (rectGrid (2 : ℚ) 1 2 1) = ([-1, 0, 1, -1, 0, 1], [-1/2, -1/2, -1/2, 1/2, 1/2, 1/2],
    [[0, 1, 0, 0, 1, 4, 3], [1, 1, 0, 1, 2, 5, 4]]) := by decide +kernel

end
end SolidsPy
