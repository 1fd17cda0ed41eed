import Verif.Props.StrainFrames
import Verif.Props.GridRefine
import Mathlib.Analysis.Calculus.Deriv.Mul
import Mathlib.Analysis.Calculus.Deriv.Add

/-! # C146: nodal strains where the strain varies -/

set_option linter.unusedSectionVars false

namespace SolidsPy
open Spec Assem Matrix Fem Uel Gauss Pre

/-- A displacement field with components `a + b x + c y + e x y`. -/
structure Spec.Bilinear (K : Type) where
  a : Fin 2 → K
  b : Fin 2 → K
  c : Fin 2 → K
  e : Fin 2 → K

section
variable {K : Type} [Field K] [LinearOrder K] [IsStrictOrderedRing K] [FloorRing K]
variable {d : Gui.Data K} {L H E nu : K} {rest : List K} {nx ny : ℕ} {sol : Table K}

/-- The displacement at a point. -/
def Spec.Bilinear.val (f : Bilinear K) (x y : K) (j : Fin 2) : K := f.a j + f.b j * x + f.c j * y + f.e j * (x * y)

/-- The strain at a point: elongations along the axes and change of the right angle. -/
def Spec.Bilinear.strain (f : Bilinear K) (x y : K) : Fin 3 → K :=
  ![f.b 0 + f.e 0 * y, f.c 1 + f.e 1 * x, (f.c 0 + f.e 0 * x) + (f.b 1 + f.e 1 * y)]

/-- The strains are the derivatives of the displacement. -/
theorem Spec.Bilinear.strain_deriv (f : Bilinear ℝ) (x y : ℝ) : ∃ uxx uyy uxy uyx : ℝ,
    HasDerivAt (fun t => f.val t y 0) uxx x ∧ HasDerivAt (fun t => f.val x t 1) uyy y ∧
    HasDerivAt (fun t => f.val x t 0) uxy y ∧ HasDerivAt (fun t => f.val t y 1) uyx x ∧
    f.strain x y = ![uxx, uyy, uxy + uyx] := by
  have hx : ∀ j, HasDerivAt (fun t => f.val t y j) (f.b j + f.e j * y) x := by
    intro j
    have h1 := ((hasDerivAt_id x).const_mul (f.b j)).const_add (f.a j)
    have h2 := (((hasDerivAt_id x).mul_const y).const_mul (f.e j))
    have h3 := (h1.add_const (f.c j * y)).add h2
    simp only [id, one_mul, mul_one] at h3
    exact h3
  have hy : ∀ j, HasDerivAt (fun t => f.val x t j) (f.c j + f.e j * x) y := by
    intro j
    have h1 := ((hasDerivAt_id y).const_mul (f.c j)).const_add (f.a j + f.b j * x)
    have h2 := (((hasDerivAt_id y).const_mul x).const_mul (f.e j))
    have h3 := h1.add h2
    simp only [id, mul_one] at h3
    exact h3
  exact ⟨_, _, _, _, hx 0, hy 1, hy 0, hx 1, rfl⟩

/-- Where the strain attributed to a corner of a rectangle is taken, seen from that corner, in units of the sides (corners
counter-clockwise from the lower left one). -/
def Spec.samplingShift (g : K) : ℕ → K × K
  | 0 => ((1 - g) / 2, (1 - g) / 2)
  | 1 => (-(1 + g) / 2, (1 + g) / 2)
  | 2 => (-(1 - g) / 2, -(1 + g) / 2)
  | _ => ((1 + g) / 2, -(1 - g) / 2)

/-- The node in row `r`, column `c` of a grid of `nx` times `ny` cells is the first corner of the cell to its upper right, the
second of that to its upper left, and so on: the corners it is. -/
def Spec.cellsAround (nx ny r c : ℕ) : List ℕ :=
  (if r < ny ∧ c < nx then [0] else []) ++ (if r < ny ∧ 0 < c then [1] else []) ++
  (if 0 < r ∧ 0 < c then [2] else []) ++ (if 0 < r ∧ c < nx then [3] else [])

/-- The displacement table holds the field at the nodes. -/
def Spec.HoldsField (f : Bilinear K) (nodes sol : Table K) : Prop :=
  sol.length = nodes.length ∧ ∀ p < nodes.length, ∀ j : Fin 2,
    fieldOf sol p j = f.val (coordOf nodes p 0) (coordOf nodes p 1) j

theorem rect_bilinear {a b : K} (ha : a ≠ 0) (hb : b ≠ 0) (x y r s : K) (f : Bilinear K) (u : Fin 4 × Fin 2 → K)
    (hu : ∀ i j, u (i, j) = f.val (rectAt x y a b i 0) (rectAt x y a b i 1) j) :
    (bMat2 (grad (shapeQuad4 r s).2 (rectAt x y a b))).mulVec u = f.strain (x + a * ((1 + r) / 2)) (y + b * ((1 + s) / 2)) := by
  rw [rect_strain ha hb]
  funext i
  simp only [Pi.add_apply, Pi.smul_apply, smul_eq_mul, centreStrain, upStrain, rightStrain, hu]
  fin_cases i <;> simp [rectAt, Bilinear.val, Bilinear.strain] <;> field_simp <;> ring

/-- The four strains of a rectangle. -/
def rectStrains (f : Bilinear K) (g x y a b : K) : List (Fin 3 → K) :=
  [f.strain (x + a * ((1 - g) / 2)) (y + b * ((1 - g) / 2)), f.strain (x + a * ((1 - g) / 2)) (y + b * ((1 + g) / 2)),
   f.strain (x + a * ((1 + g) / 2)) (y + b * ((1 - g) / 2)), f.strain (x + a * ((1 + g) / 2)) (y + b * ((1 + g) / 2))]

theorem rect_elemStrains {a b : K} (ha : a ≠ 0) (hb : b ≠ 0) (x y : K) (f : Bilinear K) {us : Table K}
    (hu : ∀ (i : Fin 4) (j : Fin 2), (us.getD i []).getD j 0 = f.val (rectAt x y a b i 0) (rectAt x y a b i 1) j)
    {xs : Table K} {eps : List (Fin 3 → K)} (hX : toMat 4 2 xs = .ok (rectAt x y a b)) (h : Post.elemStrains 1 xs us = .ok eps) :
    eps = rectStrains f (gaussPt : K) x y a b := by
  simp only [Post.elemStrains, hX, ok_bind] at h
  obtain ⟨⟨e, xl⟩, he, h⟩ := bind_ok.1 h
  obtain rfl := pure_ok.1 h
  obtain ⟨-, h2, -⟩ := StrainRoutine.el4.ok.1 he
  have h3 : ∀ r s : K, (bMat2 (grad (shapeQuad4 r s).2 (rectAt x y a b))).mulVec
      (fun p : Fin 4 × Fin 2 => (us.getD p.1 []).getD p.2 0) = f.strain (x + a * ((1 + r) / 2)) (y + b * ((1 + s) / 2)) :=
    fun r s => rect_bilinear ha hb x y r s f _ fun i j => hu i j
  rw [h2]
  simp only [List.map_cons, List.map_nil, h3]
  have hg : ((0.577350269189625764 : ℚ) : K) = (gaussPt : K) := rfl
  have hg' : ((-0.577350269189625764 : ℚ) : K) = -(gaussPt : K) := by rw [← hg]; push_cast; ring
  simp only [hg, hg', rectStrains, ← sub_eq_add_neg]
  rfl

/-! ## The cells at a node of a grid -/

/-- The row of a cell in the table of elements. -/
def cellRow (nx r c : ℕ) : List ℤ :=
  [((r * nx + c : ℕ) : ℤ), 1, 0, nodeNo nx r c, nodeNo nx r (c + 1), nodeNo nx (r + 1) (c + 1), nodeNo nx (r + 1) c]

theorem gridEls_cells (nx ny : ℕ) : gridEls nx ny = (List.range ny).flatMap fun r => (List.range nx).map fun c => cellRow nx r c := by
  unfold gridEls
  congr 1
  funext r
  congr 1
  funext c
  simp only [cellRow, nodeNo, List.cons.injEq, true_and, and_true]
  push_cast
  refine ⟨rfl, ?_, ?_, ?_, ?_⟩ <;> ring

theorem resolves_cast {n v k : ℕ} (hv : v < n) : Resolves n (v : ℤ) k ↔ v = k := by
  unfold Resolves
  omega

theorem cell_spots {nn nx r c k : ℕ} (hn : ∀ v ∈ cellNodes nx r c, v < nn) (φ : ℕ → K) :
    ((spots nn (cellRow nx r c) k).map φ).sum =
      (if nodeNo nx r c = k then φ 0 else 0) + (if nodeNo nx r (c + 1) = k then φ 1 else 0) +
      (if nodeNo nx (r + 1) (c + 1) = k then φ 2 else 0) + (if nodeNo nx (r + 1) c = k then φ 3 else 0) := by
  simp only [cellNodes, List.mem_cons, List.not_mem_nil, or_false, forall_eq_or_imp, forall_eq] at hn
  obtain ⟨h0, h1, h2, h3⟩ := hn
  simp only [spots, cellRow, List.drop_succ_cons, List.drop_zero, List.zipIdx_cons, List.zipIdx_nil, List.filter_cons, List.filter_nil,
    resolves_cast h0, resolves_cast h1, resolves_cast h2, resolves_cast h3, decide_eq_true_eq]
  split_ifs <;> simp <;> ring

theorem sum_flatMap' {α β : Type} (l : List α) (g : α → List β) (φ : β → K) :
    ((l.flatMap g).map φ).sum = (l.map fun a => ((g a).map φ).sum).sum := by
  induction l with
  | nil => rfl
  | cons a l ih => rw [List.flatMap_cons, List.map_append, List.sum_append, ih]; rfl

theorem sum_map_range (n : ℕ) (g : ℕ → K) : ((List.range n).map g).sum = ∑ i ∈ Finset.range n, g i := by
  induction n with
  | zero => rfl
  | succ n ih => rw [List.range_succ, List.map_append, List.sum_append, ih, Finset.sum_range_succ]; simp

/-- Sums over the occurrences of a node of a grid. -/
theorem grid_occurrences {r c : ℕ} (hr : r ≤ ny) (hc : c ≤ nx) (ψ : List ℤ → ℕ → K) :
    ((occurrences ((nx + 1) * (ny + 1)) (gridEls nx ny) (nodeNo nx r c)).map fun x => ψ x.1 x.2).sum =
      (if r < ny ∧ c < nx then ψ (cellRow nx r c) 0 else 0) + (if r < ny ∧ 0 < c then ψ (cellRow nx r (c - 1)) 1 else 0) +
      (if 0 < r ∧ 0 < c then ψ (cellRow nx (r - 1) (c - 1)) 2 else 0) +
      (if 0 < r ∧ c < nx then ψ (cellRow nx (r - 1) c) 3 else 0) := by
  have h1 : ((occurrences ((nx + 1) * (ny + 1)) (gridEls nx ny) (nodeNo nx r c)).map fun x => ψ x.1 x.2).sum =
      ∑ a ∈ Finset.range ny, ∑ b ∈ Finset.range nx, ((spots ((nx + 1) * (ny + 1)) (cellRow nx a b) (nodeNo nx r c)).map
        fun i => ψ (cellRow nx a b) i).sum := by
    rw [occurrences, gridEls_cells, sum_flatMap', sum_flatMap', sum_map_range]
    refine Finset.sum_congr rfl fun a _ => ?_
    rw [List.map_map, sum_map_range]
    refine Finset.sum_congr rfl fun b _ => ?_
    simp [Function.comp_def]
  have h2 : ∀ a ∈ Finset.range ny, ∀ b ∈ Finset.range nx,
      ((spots ((nx + 1) * (ny + 1)) (cellRow nx a b) (nodeNo nx r c)).map fun i => ψ (cellRow nx a b) i).sum =
      (if a = r then (if b = c then ψ (cellRow nx r c) 0 else 0) else 0) +
      (if a = r then (if b + 1 = c then ψ (cellRow nx r (c - 1)) 1 else 0) else 0) +
      (if a + 1 = r then (if b + 1 = c then ψ (cellRow nx (r - 1) (c - 1)) 2 else 0) else 0) +
      (if a + 1 = r then (if b = c then ψ (cellRow nx (r - 1) c) 3 else 0) else 0) := by
    intro a ha b hb
    rw [Finset.mem_range] at ha hb
    rw [cell_spots (by
      simp only [cellNodes, List.mem_cons, List.not_mem_nil, or_false, forall_eq_or_imp, forall_eq]
      exact ⟨nodeNo_lt (by omega) (by omega), nodeNo_lt (by omega) (by omega), nodeNo_lt (by omega) (by omega),
        nodeNo_lt (by omega) (by omega)⟩)]
    have inj : ∀ {x y : ℕ}, y ≤ nx → (nodeNo nx x y = nodeNo nx r c ↔ x = r ∧ y = c) := by
      intro x y hy
      exact ⟨fun e => nodeNo_inj hy hc e, by rintro ⟨rfl, rfl⟩; rfl⟩
    rw [if_congr (inj (by omega : b ≤ nx)) rfl rfl, if_congr (inj (by omega : b + 1 ≤ nx)) rfl rfl,
      if_congr (inj (by omega : b + 1 ≤ nx)) rfl rfl, if_congr (inj (by omega : b ≤ nx)) rfl rfl]
    simp only [ite_and]
    congr 1
    · congr 1
      · congr 1
        · split_ifs with h1 h2
          · rw [h1, h2]
          all_goals rfl
        · split_ifs with h1 h2
          · rw [h1, ← h2]; rfl
          all_goals rfl
      · split_ifs with h1 h2
        · rw [← h1, ← h2]; rfl
        all_goals rfl
    · split_ifs with h1 h2
      · rw [← h1, h2]; rfl
      all_goals rfl
  rw [h1, Finset.sum_congr rfl fun a ha => Finset.sum_congr rfl fun b hb => h2 a ha b hb]
  have inner : ∀ (p : ℕ → Prop) [DecidablePred p] (x : K) (q : ℕ → Prop) [DecidablePred q],
      ∑ a ∈ Finset.range ny, ∑ b ∈ Finset.range nx, (if p a then (if q b then x else 0) else 0) =
      ∑ a ∈ Finset.range ny, (if p a then ∑ b ∈ Finset.range nx, (if q b then x else 0) else 0) := by
    intro p _ x q _
    refine Finset.sum_congr rfl fun a _ => ?_
    split_ifs <;> simp
  simp only [Finset.sum_add_distrib]
  rw [inner (· = r) _ (· = c), inner (· = r) _ (fun b => b + 1 = c), inner (fun a => a + 1 = r) _ (fun b => b + 1 = c),
    inner (fun a => a + 1 = r) _ (· = c)]
  simp only [sum_pick, sum_pick_succ hr, sum_pick_succ hc, ite_and]

/-- Sums over the corners a node of a grid is. -/
theorem around_sum (nx ny r c : ℕ) (φ : ℕ → K) : ((cellsAround nx ny r c).map φ).sum =
    (if r < ny ∧ c < nx then φ 0 else 0) + (if r < ny ∧ 0 < c then φ 1 else 0) + (if 0 < r ∧ 0 < c then φ 2 else 0) +
      (if 0 < r ∧ c < nx then φ 3 else 0) := by
  unfold cellsAround
  split_ifs <;> simp <;> ring

theorem mean_of_sums {α β : Type} {l : List α} {m : List β} {f : α → K} {g : β → K} (h1 : (l.map f).sum = (m.map g).sum)
    (h2 : l.length = m.length) : mean l f = mean m g := by
  unfold mean
  have : l = [] ↔ m = [] := by rw [← List.length_eq_zero_iff, ← List.length_eq_zero_iff, h2]
  simp only [this, h1, h2]

theorem around_length {r c : ℕ} (hr : r ≤ ny) (hc : c ≤ nx) :
    (occurrences ((nx + 1) * (ny + 1)) (gridEls nx ny) (nodeNo nx r c)).length = (cellsAround nx ny r c).length := by
  have h := grid_occurrences (K := ℚ) (nx := nx) (ny := ny) hr hc fun _ _ => 1
  rw [← around_sum nx ny r c fun _ => (1 : ℚ)] at h
  simp only [List.map_const', List.sum_replicate, nsmul_eq_mul, mul_one] at h
  exact_mod_cast h

/-- The cell of a grid as a rectangle. -/
theorem GridModel.rect (h : GridModel d L H nx ny E nu rest) {r c : ℕ} (hr : r < ny) (hc : c < nx) {xs : Table K}
    (hx : coordsOf d.nodes (cellRow nx r c) = .ok xs) {X : Matrix (Fin 4) (Fin 2) K} (hX : toMat 4 2 xs = .ok X) :
    X = rectAt (-L / 2 + c * (L / nx)) (-H / 2 + r * (H / ny)) (L / nx) (H / ny) := by
  have hp : ∀ {r' c' : ℕ}, r' ≤ ny → c' ≤ nx → ∀ i : Fin 2, coordOf d.nodes (nodeNo nx r' c') i =
      (![-L / 2 + c' * (L / nx), -H / 2 + r' * (H / ny)] : Fin 2 → K) i := by
    intro r' c' hr' hc' i
    have := congrFun (h.pos hr' hc') i
    exact this
  have hv : ∀ {r' c' : ℕ}, r' ≤ ny → c' ≤ nx → Resolves d.nodes.length (nodeNo nx r' c' : ℤ) (nodeNo nx r' c') := by
    intro r' c' hr' hc'
    rw [h.size]
    exact (resolves_cast (nodeNo_lt hr' hc')).2 rfl
  have rd := fun (a : Fin 4) (z : ℤ) (hz : ((cellRow nx r c).drop 3)[(a : ℕ)]? = some z) (p : ℕ)
    (hp : Resolves d.nodes.length z p) (i : Fin 2) => coordsOf_read hx hX hz hp i
  ext a i
  match a with
  | 0 =>
    rw [rd 0 _ rfl _ (hv (by omega) (by omega)), hp (by omega) (by omega)]
    fin_cases i <;> simp [rectAt]
  | 1 =>
    rw [rd 1 _ rfl _ (hv (by omega) (by omega)), hp (by omega) (by omega)]
    fin_cases i <;> simp [rectAt]; ring
  | 2 =>
    rw [rd 2 _ rfl _ (hv (by omega) (by omega)), hp (by omega) (by omega)]
    fin_cases i <;> simp [rectAt] <;> ring
  | 3 =>
    rw [rd 3 _ rfl _ (hv (by omega) (by omega)), hp (by omega) (by omega)]
    fin_cases i <;> simp [rectAt]; ring

theorem GridModel.cell_strains (h : GridModel d L H nx ny E nu rest) (hL : 0 < L) (hH : 0 < H) {f : Bilinear K} (hf : HoldsField f d.nodes sol)
    {r c : ℕ} (hr : r < ny) (hc : c < nx) {ndof nne : ℕ} {eps : List (Fin 3 → K)} {C : Matrix (Fin 3) (Fin 3) K}
    (hp : ElemPart 1 ndof nne d.nodes d.mats sol (cellRow nx r c) eps C) :
    eps = rectStrains f (gaussPt : K) (-L / 2 + c * (L / nx)) (-H / 2 + r * (H / ny)) (L / nx) (H / ny) := by
  obtain ⟨mi, row, xs, us, -, -, -, -, -, hx, hu, he⟩ := hp
  have hnx : (0 : K) < nx := by exact_mod_cast (by omega : 0 < nx)
  have hny : (0 : K) < ny := by exact_mod_cast (by omega : 0 < ny)
  have hX : ∃ X, toMat 4 2 xs = .ok X := by
    simp only [Post.elemStrains] at he
    obtain ⟨X, hX, -⟩ := bind_ok.1 he
    exact ⟨X, hX⟩
  obtain ⟨X, hX⟩ := hX
  have hXr := h.rect hr hc hx hX
  have hv : ∀ {r' c' : ℕ}, r' ≤ ny → c' ≤ nx → nodeNo nx r' c' < d.nodes.length := by
    intro r' c' hr' hc'
    rw [h.size]
    exact nodeNo_lt hr' hc'
  have key : ∀ (i : Fin 4) (z : ℤ) (p : ℕ), ((cellRow nx r c).drop 3)[(i : ℕ)]? = some z → p < d.nodes.length →
      z = (p : ℤ) → ∀ j : Fin 2, (us.getD i []).getD j 0 = f.val (X i 0) (X i 1) j := by
    intro i z p hz hp hzp j
    subst hzp
    rw [dispOf_read hu hz (hf.1 ▸ (resolves_cast hp).2 rfl), hf.2 p hp,
      coordsOf_read hx hX hz ((resolves_cast hp).2 rfl), coordsOf_read hx hX hz ((resolves_cast hp).2 rfl)]
    rfl
  have hval : ∀ (i : Fin 4) (j : Fin 2), (us.getD i []).getD j 0 = f.val (X i 0) (X i 1) j := by
    intro i j
    match i with
    | 0 => exact key 0 _ _ rfl (hv (r' := r) (c' := c) (by omega) (by omega)) rfl j
    | 1 => exact key 1 _ _ rfl (hv (r' := r) (c' := c + 1) (by omega) (by omega)) rfl j
    | 2 => exact key 2 _ _ rfl (hv (r' := r + 1) (c' := c + 1) (by omega) (by omega)) rfl j
    | 3 => exact key 3 _ _ rfl (hv (r' := r + 1) (c' := c) (by omega) (by omega)) rfl j
  subst hXr
  exact rect_elemStrains (by positivity) (by positivity) _ _ f hval hX he

/-- C146.  Nodal strains of a plate meshed by `rect_grid` whose displacements are those of a bilinear field: the mean over the
cells at the node of the strain at one point of each cell.  The point is near the node only in the cell to the upper right. -/
theorem C146_grid (h : GridModel d L H nx ny E nu rest) (hL : 0 < L) (hH : 0 < H) {f : Bilinear K} (hf : HoldsField f d.nodes sol)
    {Es Ss} (hs : Post.strainNodes d.nodes d.elements d.mats sol = .ok (Es, Ss)) {r c : ℕ} (hr : r ≤ ny) (hc : c ≤ nx)
    {k : Fin d.nodes.length} (hk : k = nodeNo nx r c) (i : Fin 3) :
    Es k i = mean (cellsAround nx ny r c) fun a =>
      f.strain (-L / 2 + c * (L / nx) + L / nx * (samplingShift (gaussPt : K) a).1)
        (-H / 2 + r * (H / ny) + H / ny * (samplingShift (gaussPt : K) a).2) i := by
  obtain ⟨el0, iet, ndof, nne, ng, h1, h2, h3, eps, Cs, h4, h5⟩ := strainNodes_ok hs
  have hels : d.elements = gridEls nx ny := h.elements
  rw [(h5 k i).1, hk, h.size, hels]
  refine mean_of_sums ?_ (around_length hr hc)
  have hiet : iet = 1 := by
    have := List.mem_of_getElem? h1
    rw [hels, gridEls_cells] at this
    simp only [List.mem_flatMap, List.mem_map] at this
    obtain ⟨a, -, b, -, rfl⟩ := this
    exact (Option.some.inj h2).symm
  subst hiet
  have cell : ∀ {a b : ℕ}, a < ny → b < nx → eps (cellRow nx a b) =
      rectStrains f (gaussPt : K) (-L / 2 + b * (L / nx)) (-H / 2 + a * (H / ny)) (L / nx) (H / ny) := by
    intro a b ha hb
    refine h.cell_strains hL hH hf ha hb (h4 _ ?_).1
    rw [hels, gridEls_cells, List.mem_flatMap]
    exact ⟨a, by simpa using ha, List.mem_map.2 ⟨b, by simpa using hb, rfl⟩⟩
  rw [grid_occurrences hr hc fun el a => (eps el).getD a 0 i, around_sum]
  congr 1
  · congr 1
    · congr 1
      · split_ifs with hh
        · rw [cell hh.1 hh.2]
          rfl
        · rfl
      · split_ifs with hh
        · rw [cell hh.1 (by omega)]
          have : ((c - 1 : ℕ) : K) = c - 1 := by rw [Nat.cast_sub (by omega)]; simp
          simp only [rectStrains, samplingShift, List.getD_cons_succ, List.getD_cons_zero, this]
          exact congrFun (congrArg₂ f.strain (by ring) (by ring)) i
        · rfl
    · split_ifs with hh
      · rw [cell (by omega) (by omega)]
        have : ((c - 1 : ℕ) : K) = c - 1 := by rw [Nat.cast_sub (by omega)]; simp
        have h' : ((r - 1 : ℕ) : K) = r - 1 := by rw [Nat.cast_sub (by omega)]; simp
        simp only [rectStrains, samplingShift, List.getD_cons_succ, List.getD_cons_zero, this, h']
        exact congrFun (congrArg₂ f.strain (by ring) (by ring)) i
      · rfl
  · split_ifs with hh
    · rw [cell (by omega) hh.2]
      have h' : ((r - 1 : ℕ) : K) = r - 1 := by rw [Nat.cast_sub (by omega)]; simp
      simp only [rectStrains, samplingShift, List.getD_cons_succ, List.getD_cons_zero, h']
      exact congrFun (congrArg₂ f.strain (by ring) (by ring)) i
    · rfl

/-! ## Interior nodes, edges and corners -/

/-- Where the strain reported at a node is taken, seen from the node, in units of the sides of a cell. -/
def Spec.reportShift (g : K) (nx ny r c : ℕ) : K × K :=
  if r = 0 then (if c = 0 then samplingShift g 0 else if c = nx then samplingShift g 1 else (-g / 2, 1 / 2))
  else if r = ny then (if c = 0 then samplingShift g 3 else if c = nx then samplingShift g 2 else (g / 2, -1 / 2))
  else if c = 0 then (1 / 2, 0) else if c = nx then (-1 / 2, 0) else (0, 0)

/-- C146.  The strain reported at a node is that of the field at one point, which is the node itself in the interior. -/
theorem C146_point (h : GridModel d L H nx ny E nu rest) (hL : 0 < L) (hH : 0 < H) (hnx : 0 < nx) (hny : 0 < ny)
    {f : Bilinear K} (hf : HoldsField f d.nodes sol)
    {Es Ss} (hs : Post.strainNodes d.nodes d.elements d.mats sol = .ok (Es, Ss)) {r c : ℕ} (hr : r ≤ ny) (hc : c ≤ nx)
    {k : Fin d.nodes.length} (hk : k = nodeNo nx r c) (i : Fin 3) :
    Es k i = some (f.strain (coordOf d.nodes k 0 + L / nx * (reportShift (gaussPt : K) nx ny r c).1)
      (coordOf d.nodes k 1 + H / ny * (reportShift (gaussPt : K) nx ny r c).2) i) := by
  have h0 : coordOf d.nodes k 0 = -L / 2 + c * (L / nx) := by rw [hk]; exact congrFun (h.pos hr hc) 0
  have h1 : coordOf d.nodes k 1 = -H / 2 + r * (H / ny) := by rw [hk]; exact congrFun (h.pos hr hc) 1
  rw [C146_grid h hL hH hf hs hr hc hk i, h0, h1]
  generalize -L / 2 + c * (L / nx) = x
  generalize -H / 2 + r * (H / ny) = y
  generalize L / nx = a
  generalize H / ny = b
  generalize (gaussPt : K) = g
  have e3 : ∀ (p : Fin 3 → Prop), p 0 → p 1 → p 2 → ∀ i, p i := fun p q0 q1 q2 i => by fin_cases i <;> assumption
  have two : ∀ p q : K × K, mean [p, q] (fun t => f.strain (x + a * t.1) (y + b * t.2) i) =
      some (f.strain (x + a * ((p.1 + q.1) / 2)) (y + b * ((p.2 + q.2) / 2)) i) := by
    intro p q
    simp only [mean, reduceCtorEq, if_false, List.map_cons, List.map_nil, List.sum_cons, List.sum_nil, List.length_cons, List.length_nil]
    congr 1
    revert i
    refine e3 _ ?_ ?_ ?_ <;> simp [Bilinear.strain] <;> ring
  have four : ∀ p q v w : K × K, mean [p, q, v, w] (fun t => f.strain (x + a * t.1) (y + b * t.2) i) =
      some (f.strain (x + a * ((p.1 + q.1 + v.1 + w.1) / 4)) (y + b * ((p.2 + q.2 + v.2 + w.2) / 4)) i) := by
    intro p q v w
    simp only [mean, reduceCtorEq, if_false, List.map_cons, List.map_nil, List.sum_cons, List.sum_nil, List.length_cons, List.length_nil]
    congr 1
    clear two
    revert i
    refine e3 _ ?_ ?_ ?_ <;> simp [Bilinear.strain] <;> ring
  have one : ∀ p : K × K, mean [p] (fun t => f.strain (x + a * t.1) (y + b * t.2) i) =
      some (f.strain (x + a * p.1) (y + b * p.2) i) := by
    intro p
    simp [mean]
  have hm : ∀ l : List ℕ, mean l (fun t => f.strain (x + a * (samplingShift g t).1) (y + b * (samplingShift g t).2) i) =
      mean (l.map (samplingShift g)) (fun t => f.strain (x + a * t.1) (y + b * t.2) i) := by
    intro l
    simp [mean, Function.comp_def]
  rw [hm]
  have fin : ∀ {p q p' q' : K}, p = p' → q = q' →
      some (f.strain (x + a * p) (y + b * q) i) = some (f.strain (x + a * p') (y + b * q') i) := by
    rintro p q _ _ rfl rfl; rfl
  unfold cellsAround reportShift
  rcases Nat.eq_zero_or_pos r with r0 | r0
  · subst r0
    rcases Nat.eq_zero_or_pos c with c0 | c0
    · subst c0
      simp only [hnx, hny, lt_irrefl, and_true, and_false, if_true, if_false, List.append_nil, List.map_cons, List.map_nil, one]
    · rcases hc.eq_or_lt with cn | cn
      · simp only [cn, hnx.ne', hnx, hny, lt_irrefl, and_true, and_false, if_true, if_false, List.append_nil, List.nil_append,
          List.map_cons, List.map_nil, one]
      · simp only [cn, cn.ne, c0.ne', c0, hny, lt_irrefl, and_true, if_true, if_false, List.append_nil,
          List.cons_append, List.nil_append, List.map_cons, List.map_nil, two]
        refine fin ?_ ?_ <;> simp only [samplingShift] <;> ring
  · rcases hr.eq_or_lt with rn | rn
    · rcases Nat.eq_zero_or_pos c with c0 | c0
      · simp only [rn, c0, hny.ne', hnx, hny, lt_irrefl, and_true, and_false, if_true, if_false, List.append_nil,
          List.nil_append, List.map_cons, List.map_nil, one]
      · rcases hc.eq_or_lt with cn | cn
        · simp only [rn, cn, hny.ne', hnx.ne', hnx, hny, lt_irrefl, and_true, and_false, if_true, if_false, List.append_nil,
            List.nil_append, List.map_cons, List.map_nil, one]
        · simp only [rn, cn, cn.ne, c0.ne', c0, hny.ne', hny, lt_irrefl, and_true, if_true, if_false,
            List.cons_append, List.nil_append, List.map_cons, List.map_nil, two]
          refine fin ?_ ?_ <;> simp only [samplingShift] <;> ring
    · rcases Nat.eq_zero_or_pos c with c0 | c0
      · simp only [rn, rn.ne, r0, r0.ne', c0, hnx, lt_irrefl, and_true, and_false, if_true, if_false, List.append_nil,
          List.cons_append, List.nil_append, List.map_cons, List.map_nil, two]
        refine fin ?_ ?_ <;> simp only [samplingShift] <;> ring
      · rcases hc.eq_or_lt with cn | cn
        · simp only [rn, rn.ne, r0, r0.ne', cn, hnx.ne', hnx, lt_irrefl, and_true, and_false, if_true, if_false, List.append_nil,
            List.cons_append, List.nil_append, List.map_cons, List.map_nil, two]
          refine fin ?_ ?_ <;> simp only [samplingShift] <;> ring
        · simp only [rn, rn.ne, r0, r0.ne', cn, cn.ne, c0, c0.ne', and_true, if_true, if_false,
            List.cons_append, List.nil_append, List.map_cons, List.map_nil, four]
          refine fin ?_ ?_ <;> simp only [samplingShift] <;> ring

/-- C146.  At the interior nodes the strain reported is the strain of the field at the node, and the stress reported that strain
times the elastic matrix. -/
theorem C146_interior (h : GridModel d L H nx ny E nu []) (hL : 0 < L) (hH : 0 < H)
    {f : Bilinear K} (hf : HoldsField f d.nodes sol)
    {Es Ss} (hs : Post.strainNodes d.nodes d.elements d.mats sol = .ok (Es, Ss)) {r c : ℕ} (hr0 : 0 < r) (hr : r < ny) (hc0 : 0 < c)
    (hc : c < nx) {k : Fin d.nodes.length} (hk : k = nodeNo nx r c) (i : Fin 3) :
    Es k i = some (f.strain (coordOf d.nodes k 0) (coordOf d.nodes k 1) i) ∧
    ∀ C, umat [E, nu] = .ok C → Ss k i = some (C.mulVec (f.strain (coordOf d.nodes k 0) (coordOf d.nodes k 1)) i) := by
  have hE : ∀ i, Es k i = some (f.strain (coordOf d.nodes k 0) (coordOf d.nodes k 1) i) := by
    intro i
    rw [C146_point h hL hH (by omega) (by omega) hf hs hr.le hc.le hk i]
    simp only [reportShift, hr0.ne', hr.ne, hc0.ne', hc.ne, if_false, mul_zero, add_zero]
  refine ⟨hE i, fun C hC => ?_⟩
  rcases C76_stress hs (k := k) (C := C) (by
    intro el hel _
    rw [h.elements] at hel
    change el ∈ gridEls nx ny at hel
    rw [gridEls_cells] at hel
    simp only [List.mem_flatMap, List.mem_map] at hel
    obtain ⟨a, -, b, -, rfl⟩ := hel
    refine ⟨0, [E, nu], rfl, ?_, hC⟩
    exact pyGet_zero.2 h.material) with ⟨-, h1⟩ | ⟨-, e, h1⟩
  · have := (h1 i).1
    rw [hE] at this
    exact absurd this (by simp)
  · have : e = f.strain (coordOf d.nodes k 0) (coordOf d.nodes k 1) := by
      funext j
      have := (h1 j).1
      rw [hE j, Option.some.injEq] at this
      exact this.symm
    rw [(h1 i).2, this]

/-- C146.  A plate one cell high whose elongation is proportional to the height above the axis, as in bending: at the lower right
corner the elongation reported is that of the field times `-0.577…`, so that a fibre in compression is reported in tension. -/
theorem C146_corner (h : GridModel d L H nx 1 E nu rest) (hL : 0 < L) (hH : 0 < H) (hnx : 0 < nx)
    {f : Bilinear K} (hf : HoldsField f d.nodes sol) (h0 : f.b 0 = 0)
    {Es Ss} (hs : Post.strainNodes d.nodes d.elements d.mats sol = .ok (Es, Ss)) {k : Fin d.nodes.length} (hk : (k : ℕ) = nx) :
    Es k 0 = some (-((0.577350269189625764 : ℚ) : K) * f.strain (coordOf d.nodes k 0) (coordOf d.nodes k 1) 0) := by
  have hk' : (k : ℕ) = nodeNo nx 0 nx := by rw [hk, nodeNo]; simp
  rw [C146_point h hL hH hnx one_pos hf hs (Nat.zero_le 1) le_rfl hk' 0]
  have h1 : coordOf d.nodes k 1 = -H / 2 + (0 : ℕ) * (H / (1 : ℕ)) := by rw [hk']; exact congrFun (h.pos (Nat.zero_le 1) le_rfl) 1
  rw [h1]
  have hg : ((0.577350269189625764 : ℚ) : K) = (gaussPt : K) := rfl
  rw [hg]
  simp only [reportShift, samplingShift, hnx.ne', if_true, if_false, Bilinear.strain, cons_val_zero, h0]
  congr 1
  push_cast
  ring

/-! ## Quadratic triangles -/

/-- A displacement field with components `a + b x + c y + p x² + e x y + q y²`. -/
structure Spec.QuadField (K : Type) where
  a : Fin 2 → K
  b : Fin 2 → K
  c : Fin 2 → K
  p : Fin 2 → K
  e : Fin 2 → K
  q : Fin 2 → K

/-- The displacement at a point. -/
def Spec.QuadField.val (f : QuadField K) (x y : K) (j : Fin 2) : K :=
  f.a j + f.b j * x + f.c j * y + f.p j * x ^ 2 + f.e j * (x * y) + f.q j * y ^ 2

/-- Derivatives along the axes. -/
def Spec.QuadField.dx (f : QuadField K) (x y : K) (j : Fin 2) : K := f.b j + 2 * f.p j * x + f.e j * y
/-- Derivatives along the axes. -/
def Spec.QuadField.dy (f : QuadField K) (x y : K) (j : Fin 2) : K := f.c j + f.e j * x + 2 * f.q j * y

/-- The strain at a point. -/
def Spec.QuadField.strain (f : QuadField K) (x y : K) : Fin 3 → K :=
  ![f.dx x y 0, f.dy x y 1, f.dy x y 0 + f.dx x y 1]

/-- They are the derivatives of the displacement. -/
theorem Spec.QuadField.deriv (f : QuadField ℝ) (x y : ℝ) (j : Fin 2) :
    HasDerivAt (fun t => f.val t y j) (f.dx x y j) x ∧ HasDerivAt (fun t => f.val x t j) (f.dy x y j) y := by
  constructor
  · have h1 := ((hasDerivAt_id x).const_mul (f.b j)).const_add (f.a j)
    have h2 := ((hasDerivAt_id x).mul (hasDerivAt_id x)).const_mul (f.p j)
    have h3 := (((hasDerivAt_id x).mul_const y).const_mul (f.e j))
    have h4 := (((h1.add_const (f.c j * y)).add h2).add h3).add_const (f.q j * y ^ 2)
    have hf : (fun t => f.val t y j) = fun t => (((fun x => f.a j + f.b j * id x + f.c j * y) + fun y => f.p j * ((id * id : ℝ → ℝ)) y) +
        fun z => f.e j * (id z * y)) t + f.q j * y ^ 2 := by
      funext t; simp only [QuadField.val, Pi.add_apply, Pi.mul_apply, id]; ring
    have hd : f.dx x y j = f.b j * 1 + f.p j * (1 * id x + id x * 1) + f.e j * (1 * y) := by simp [QuadField.dx]; ring
    rw [hf, hd]
    exact h4
  · have h1 := ((hasDerivAt_id y).const_mul (f.c j)).const_add (f.a j + f.b j * x)
    have h2 := ((hasDerivAt_id y).mul (hasDerivAt_id y)).const_mul (f.q j)
    have h3 := (((hasDerivAt_id y).const_mul x).const_mul (f.e j))
    have h4 := ((h1.add_const (f.p j * x ^ 2)).add h3).add h2
    have hf : (fun t => f.val x t j) = ((fun t => f.a j + f.b j * x + f.c j * id t + f.p j * x ^ 2) + fun y => f.e j * (x * id y)) +
        fun y => f.q j * (id * id : ℝ → ℝ) y := by
      funext t; simp only [QuadField.val, Pi.add_apply, Pi.mul_apply, id]; ring
    have hd : f.dy x y j = f.c j * 1 + f.e j * (x * 1) + f.q j * (1 * id y + id y * 1) := by simp [QuadField.dy]; ring
    rw [hf, hd]
    exact h4

theorem grad_unique {n : ℕ} {D : Matrix (Fin 2) (Fin n) K} {X : Matrix (Fin n) (Fin 2) K} (hd : (D * X).det ≠ 0) {w : Fin n → K}
    {g : Fin 2 → K} (h : D.mulVec w = (D * X).mulVec g) : (grad D X).mulVec w = g := by
  unfold grad
  rw [← mulVec_mulVec, h, smul_mulVec, mulVec_mulVec, adjugate_mul, smul_mulVec, one_mulVec, smul_smul, inv_mul_cancel₀ hd, one_smul]

/-- Nodes of the triangle on which the shape functions are defined. -/
def Spec.tri6Ref : Fin 6 → K × K := ![(0, 0), (1, 0), (0, 1), (1 / 2, 0), (1 / 2, 1 / 2), (0, 1 / 2)]

theorem tri6_quadratic (f : QuadField K) (o : Fin 2 → K) (A : Matrix (Fin 2) (Fin 2) K) {X : Matrix (Fin 6) (Fin 2) K}
    (hX : ∀ a i, X a i = o i + A i 0 * (tri6Ref a : K × K).1 + A i 1 * (tri6Ref a : K × K).2) {u : Fin 6 × Fin 2 → K}
    (hu : ∀ a j, u (a, j) = f.val (X a 0) (X a 1) j) (r s : K) (hd : ((shapeTri6 r s).2 * X).det ≠ 0) :
    (bMat2 (grad (shapeTri6 r s).2 X)).mulVec u =
      f.strain (o 0 + A 0 0 * r + A 0 1 * s) (o 1 + A 1 0 * r + A 1 1 * s) := by
  have key : ∀ j, (grad (shapeTri6 r s).2 X).mulVec (fun a => u (a, j)) =
      ![f.dx (o 0 + A 0 0 * r + A 0 1 * s) (o 1 + A 1 0 * r + A 1 1 * s) j,
        f.dy (o 0 + A 0 0 * r + A 0 1 * s) (o 1 + A 1 0 * r + A 1 1 * s) j] := by
    intro j
    refine grad_unique hd ?_
    simp only [hu]
    funext k
    revert k
    rw [Fin.forall_fin_two]
    constructor <;>
    · simp only [mulVec, dotProduct, Matrix.mul_apply, Fin.sum_univ_succ, Fin.sum_univ_zero, hX]
      simp [shapeTri6, tri6Ref, QuadField.val, QuadField.dx, QuadField.dy]
      ring
  rw [bMat2_mulVec]
  have k0 := key 0
  have k1 := key 1
  have a0 := congrFun k0 0
  have a1 := congrFun k0 1
  have b0 := congrFun k1 0
  have b1 := congrFun k1 1
  simp only [mulVec, dotProduct, cons_val_zero, cons_val_one] at a0 a1 b0 b1
  rw [a0, a1, b0, b1]
  rfl

/-- C146.  Row `k < 6` of the strains of a quadratic triangle with straight sides and a quadratic field is the strain of the field
at the image of the integration point `k`. -/
theorem C146_tri6 (f : QuadField K) (o : Fin 2 → K) (A : Matrix (Fin 2) (Fin 2) K) {X : Matrix (Fin 6) (Fin 2) K}
    (hX : ∀ a i, X a i = o i + A i 0 * (tri6Ref a : K × K).1 + A i 1 * (tri6Ref a : K × K).2) {u : Fin 6 × Fin 2 → K}
    (hu : ∀ a j, u (a, j) = f.val (X a 0) (X a 1) j) {eps xl} (h : strEl6 X u = .ok (eps, xl)) {k : ℕ} {p : ℚ × ℚ}
    (hk : ptsTri3[k]? = some p) :
    eps[k]? = some (f.strain (o 0 + A 0 0 * (p.1 : K) + A 0 1 * (p.2 : K)) (o 1 + A 1 0 * (p.1 : K) + A 1 1 * (p.2 : K))) := by
  obtain ⟨h1, h2, -⟩ := StrainRoutine.el6.ok.1 h
  have hp : p ∈ ptsTri3 := List.mem_of_getElem? hk
  have hd := h1 p hp
  have hl : k < ptsTri3.length := (List.getElem?_eq_some_iff.1 hk).1
  rw [h2, List.getElem?_append_left (by simpa using hl), List.getElem?_map, hk, Option.map_some,
    tri6_quadratic f o A hX hu _ _ (by
      have : (0 : K) < jdet (shapeTri6 (p.1 : K) (p.2 : K)) X := lt_trans (by norm_num) hd
      exact this.ne')]

/-- Square of the distance. -/
def Spec.sqDist (p q : ℚ × ℚ) : ℚ := (p.1 - q.1) ^ 2 + (p.2 - q.2) ^ 2

/-- C146.  The point whose strain a node of a quadratic triangle gets is nearer to it than to the other nodes. -/
theorem C146_tri6_nearest : ∀ (a : Fin 6) (p : ℚ × ℚ), ptsTri3[(a : ℕ)]? = some p → ∀ b : Fin 6, b ≠ a →
    sqDist p (tri6Ref a) < sqDist p (tri6Ref b) := by
  have : ∀ a : Fin 6, ∀ p ∈ ptsTri3[(a : ℕ)]?, ∀ b : Fin 6, b ≠ a → sqDist p (tri6Ref a) < sqDist p (tri6Ref b) := by
    decide +kernel
  exact fun a p h => this a p h

/-- C146.  The points of a quadrilateral come row by row along `s` while the nodes go round: the second point is nearest to the
fourth node, the third to the second and the fourth to the third. -/
theorem C146_quad4_nearest : ∃ pts wts, gaussNd 2 = .ok (pts, wts) ∧ ∀ k : Fin 4, ∀ b : Fin 4,
    b ≠ (![0, 3, 1, 2] : Fin 4 → Fin 4) k →
    sqDist ((pts.getD k []).getD 0 0, (pts.getD k []).getD 1 0) ((![(-1, -1), (1, -1), (1, 1), (-1, 1)] : Fin 4 → ℚ × ℚ) (![0, 3, 1, 2] k)) <
      sqDist ((pts.getD k []).getD 0 0, (pts.getD k []).getD 1 0) ((![(-1, -1), (1, -1), (1, 1), (-1, 1)] : Fin 4 → ℚ × ℚ) b) :=
  ⟨_, _, rfl, by decide +kernel⟩

/-! ## Cases -/

/-- A plate of two by two cells. -/
def nodalPlate : Gui.Data ℚ := tensionPlate 4 2 10 (1 / 4) 1 2 2
/-- A plate one cell high. -/
def nodalStrip : Gui.Data ℚ := tensionPlate 4 2 10 (1 / 4) 1 2 1
/-- The elongation is the height. -/
def nodalField : Bilinear ℚ := ⟨![0, 1], ![0, 2], ![0, 3], ![1, 5]⟩
/-- The field at the nodes. -/
def nodalTable (nodes : Table ℚ) : Table ℚ :=
  nodes.map fun r => [nodalField.val (r.getD 1 0) (r.getD 2 0) 0, nodalField.val (r.getD 1 0) (r.getD 2 0) 1]

/-- The hypotheses of the theorems on grids hold, and the strains vary over the plate. -/
example : GridModel nodalPlate 4 2 2 2 10 (1 / 4) [] ∧ HoldsField nodalField nodalPlate.nodes (nodalTable nodalPlate.nodes) ∧
    (∃ Es Ss, Post.strainNodes nodalPlate.nodes nodalPlate.elements nodalPlate.mats (nodalTable nodalPlate.nodes) = .ok (Es, Ss)) ∧
    nodalField.strain 0 0 ≠ nodalField.strain 1 1 := by
  refine ⟨plate_grid 4 2 10 (1 / 4) 1 2 2, by unfold HoldsField; decide +kernel, ?_, by decide +kernel⟩
  have : (match Post.strainNodes nodalPlate.nodes nodalPlate.elements nodalPlate.mats (nodalTable nodalPlate.nodes) with
    | .ok _ => true | .error _ => false) = true := by decide +kernel
  revert this
  cases Post.strainNodes nodalPlate.nodes nodalPlate.elements nodalPlate.mats (nodalTable nodalPlate.nodes) with
  | ok p => exact fun _ => ⟨p.1, p.2, rfl⟩
  | error e => exact fun h => absurd h (by simp)

/-- On the strip the lower right corner, where the elongation is `-1`, is reported with an elongation above `0.5`. -/
example : GridModel nodalStrip 4 2 2 1 10 (1 / 4) [] ∧ HoldsField nodalField nodalStrip.nodes (nodalTable nodalStrip.nodes) ∧
    nodalField.b 0 = 0 ∧ nodalField.strain 2 (-1) 0 = -1 ∧
    (match Post.strainNodes nodalStrip.nodes nodalStrip.elements nodalStrip.mats (nodalTable nodalStrip.nodes) with
      | .ok (Es, _) => (Es ⟨2, by decide⟩ 0).any fun v => decide (1 / 2 < v) | .error _ => false) = true := by
  refine ⟨plate_grid 4 2 10 (1 / 4) 1 2 1, by unfold HoldsField; decide +kernel, by decide +kernel, by decide +kernel, by decide +kernel⟩

/-- A straight sided triangle with a quadratic field. -/
example : ∃ (f : QuadField ℚ) (o : Fin 2 → ℚ) (A : Matrix (Fin 2) (Fin 2) ℚ) (X : Matrix (Fin 6) (Fin 2) ℚ) (u : Fin 6 × Fin 2 → ℚ),
    (∀ a i, X a i = o i + A i 0 * (tri6Ref a : ℚ × ℚ).1 + A i 1 * (tri6Ref a : ℚ × ℚ).2) ∧
    (∀ a j, u (a, j) = f.val (X a 0) (X a 1) j) ∧ (∃ eps xl, strEl6 X u = .ok (eps, xl)) ∧ f.strain 0 0 ≠ f.strain 1 1 := by
  refine ⟨⟨![0, 1], ![0, 2], ![0, 3], ![1, 5], ![1, 1], ![2, 0]⟩, ![1, 1], !![2, 0; 0, 3],
    fun a i => (![1, 1] : Fin 2 → ℚ) i + (!![2, 0; 0, 3] : Matrix (Fin 2) (Fin 2) ℚ) i 0 * (tri6Ref a : ℚ × ℚ).1 +
      (!![2, 0; 0, 3] : Matrix (Fin 2) (Fin 2) ℚ) i 1 * (tri6Ref a : ℚ × ℚ).2,
    fun t => (⟨![0, 1], ![0, 2], ![0, 3], ![1, 5], ![1, 1], ![2, 0]⟩ : QuadField ℚ).val (1 + 2 * (tri6Ref t.1 : ℚ × ℚ).1 + 0 * (tri6Ref t.1 : ℚ × ℚ).2)
      (1 + 0 * (tri6Ref t.1 : ℚ × ℚ).1 + 3 * (tri6Ref t.1 : ℚ × ℚ).2) t.2, fun a i => rfl,
    fun a j => rfl, ?_, by decide +kernel⟩
  refine ⟨_, _, StrainRoutine.el6.ok.2 ⟨by decide +kernel, rfl, rfl⟩⟩

end
end SolidsPy
