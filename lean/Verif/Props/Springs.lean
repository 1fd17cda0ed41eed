import Verif.Props.Bars
import Verif.Props.Assembly
import Mathlib.Analysis.Real.Sqrt

/-! # C52 - C55: springs, extra coordinate columns, axial stresses -/

set_option linter.unusedSectionVars false
set_option linter.unusedSimpArgs false
set_option linter.unreachableTactic false
set_option linter.unusedTactic false

namespace SolidsPy
open Spec Fem Uel Matrix Assem

/-- The square root of the reals. -/
theorem sqrtFn_real : SqrtFn Real.sqrt := fun x hx => ⟨Real.sqrt_nonneg x, Real.mul_self_sqrt hx⟩

/-- A bar of length five. -/
noncomputable def bar345 : Matrix (Fin 2) (Fin 2) ℝ := !![0, 0; 3, 4]

theorem bar345_length : IsLength bar345 5 := by
  refine ⟨by norm_num, ?_⟩
  simp [bar345]
  norm_num

/-- The bar of length five, stretched by one fifth of its displacement components. -/
example : ∃ k m, Returns (truss2D Real.sqrt) bar345 [10, 2] k m ∧
    k.mulVec (fun p => if p = (1, 0) then 1 else 0) = pull bar345 5 (12 / 5) := by
  obtain ⟨k, m, h⟩ := (C51_accepts_iff sqrtFn_real bar345 [10, 2]).2
    ⟨fun h => by simpa [bar345] using congrFun h 0, le_rfl⟩
  refine ⟨k, m, h, ?_⟩
  rw [C51_force sqrtFn_real bar345_length h]
  congr 1
  simp [elongation, bar345]
  norm_num

section
variable {K : Type} [Field K] [LinearOrder K] [IsStrictOrderedRing K] {d n : ℕ}

theorem spring_block (X : Matrix (Fin 2) (Fin 2) K) (L s : K) :
    ((barQ ((X 1 0 - X 0 0) / L) ((X 1 1 - X 0 1) / L)).transpose *
      (!![s * 1, s * (-1); s * (-1), s * 1] : Matrix (Fin 2) (Fin 2) K) *
      barQ ((X 1 0 - X 0 0) / L) ((X 1 1 - X 0 1) / L)).submatrix
      (finProdFinEquiv : Fin 2 × Fin 2 ≃ Fin (2 * 2)) finProdFinEquiv = barK s (outward X L) := by
  rw [← trussStiff_block]
  unfold trussStiff
  congr 3
  ext i j
  fin_cases i <;> fin_cases j <;> simp

theorem spring_ok {sq : K → K} (hs : SqrtFn sq) {X : Matrix (Fin 2) (Fin 2) K} {L : K}
    (hL : IsLength X L) (s : K) : spring sq (matRows X) [s] =
      .ok (NdArr.mat 4 4 ((barQ ((X 1 0 - X 0 0) / L) ((X 1 1 - X 0 1) / L)).transpose *
        (!![s * 1, s * (-1); s * (-1), s * 1] : Matrix (Fin 2) (Fin 2) K) *
        barQ ((X 1 0 - X 0 0) / L) ((X 1 1 - X 0 1) / L)), NdArr.vec 4 fun _ => 0) := by
  unfold spring
  rw [barGeom_length hs hL]
  rfl

theorem spring_holds {sq : K → K} (hs : SqrtFn sq) {X : Matrix (Fin 2) (Fin 2) K} {L : K}
    (hL : IsLength X L) {s : K} {A B k} (h : spring sq (matRows X) [s] = .ok (A, B)) :
    (Holds A k ↔ k = barK s (outward X L)) ∧ B = NdArr.vec 4 fun _ => 0 := by
  rw [spring_ok hs hL, Except.ok.injEq, Prod.mk.injEq] at h
  obtain ⟨rfl, rfl⟩ := h
  rw [← spring_block]
  exact ⟨holds_mat (n := 2) (d := 2), rfl⟩

/-- C52.  Swapping the nodes of a spring swaps the blocks of its stiffness. -/
theorem C52_spring {sq : K → K} (hs : SqrtFn sq) {X : Matrix (Fin 2) (Fin 2) K} {L : K}
    (hL : IsLength X L) {s : K} {A B k} (h : spring sq (matRows X) [s] = .ok (A, B)) (hk : Holds A k) :
    ∃ A', spring sq (matRows fun a => X (other a)) [s] = .ok (A', B) ∧
      Holds A' (fun p q : Fin 2 × Fin 2 => k (other p.1, p.2) (other q.1, q.2)) := by
  have hL' : IsLength (fun a => X (other a)) L := by
    refine ⟨hL.1, ?_⟩
    rw [hL.2]
    simp [other]
    ring
  have hB := (spring_holds hs hL (k := k) h).2
  rw [(spring_holds hs hL h).1] at hk
  refine ⟨_, by rw [hB]; exact spring_ok hs hL' s, ?_⟩
  refine (spring_holds hs hL' (spring_ok hs hL' s)).1.2 ?_
  rw [hk]
  funext ⟨a, i⟩ ⟨b, j⟩
  fin_cases a <;> fin_cases b <;> simp only [barK, outward, pull, other, Matrix.of_apply] <;> simp <;>
    first | done | (left; ring1)

/-! ## C55 -/

/-- C55.  A spring pulls its ends with its stiffness times the elongation. -/
theorem C55_law {sq : K → K} (hs : SqrtFn sq) {X : Matrix (Fin 2) (Fin 2) K} {L : K}
    (hL : IsLength X L) (s : K) : ∃ A B, spring sq (matRows X) [s] = .ok (A, B) ∧
      ∃ k, Holds A k ∧ ∀ u, k.mulVec u = pull X L (s * elongation X L u) := by
  refine ⟨_, _, spring_ok hs hL s, barK s (outward X L), (spring_holds hs hL (spring_ok hs hL s)).1.2 rfl, ?_⟩
  intro u
  funext p
  rw [barK_mulVec, elongation_eq]
  obtain ⟨a, i⟩ := p
  fin_cases a <;> simp only [outward, pull] <;> ring

/-- With two values in the material row the stiffness is not symmetric. -/
theorem C55_two_values_asymmetric {sq : K → K} (hs : SqrtFn sq) {X : Matrix (Fin 2) (Fin 2) K} {L : K}
    (hL : IsLength X L) {s t : K} (hst : s ≠ t) {A B} (h : spring sq (matRows X) [s, t] = .ok (A, B))
    {k : Matrix (Fin 2 × Fin 2) (Fin 2 × Fin 2) K} (hk : Holds A k) : ¬ k.IsSymm := by
  unfold spring at h
  rw [barGeom_length hs hL] at h
  have h' : (NdArr.mat 4 4 ((barQ ((X 1 0 - X 0 0) / L) ((X 1 1 - X 0 1) / L)).transpose *
        (!![s * 1, t * (-1); s * (-1), t * 1] : Matrix (Fin 2) (Fin 2) K) *
        barQ ((X 1 0 - X 0 0) / L) ((X 1 1 - X 0 1) / L)), NdArr.vec 4 fun _ => 0) = (A, B) :=
    Except.ok.inj h
  rw [Prod.mk.injEq] at h'
  obtain ⟨rfl, rfl⟩ := h'
  rw [holds_mat (n := 2) (d := 2)] at hk
  intro hsym
  have e : ∀ i : Fin 2, k (0, i) (1, i) = -(t * ((X 1 i - X 0 i) / L) ^ 2) ∧
      k (1, i) (0, i) = -(s * ((X 1 i - X 0 i) / L) ^ 2) := by
    intro i
    rw [hk]
    simp only [Matrix.submatrix_apply]
    rw [Matrix.mul_apply, Fin.sum_univ_two, Matrix.mul_apply,
      Matrix.mul_apply, Fin.sum_univ_two, Fin.sum_univ_two, Matrix.mul_apply, Fin.sum_univ_two, Matrix.mul_apply,
      Matrix.mul_apply, Fin.sum_univ_two, Fin.sum_univ_two]
    fin_cases i <;> simp [barQ, finProdFinEquiv] <;> constructor <;> ring
  have hz : ∀ i : Fin 2, X 1 i - X 0 i = 0 := by
    intro i
    have h1 : k (1, i) (0, i) = k (0, i) (1, i) := congrFun₂ hsym (0, i) (1, i)
    rw [(e i).1, (e i).2] at h1
    have h2 : (t - s) * ((X 1 i - X 0 i) / L) ^ 2 = 0 := by linear_combination h1
    rw [mul_eq_zero] at h2
    rcases h2 with h2 | h2
    · exact absurd (sub_eq_zero.1 h2).symm hst
    · have := pow_eq_zero_iff (two_ne_zero) |>.1 h2
      rw [div_eq_zero_iff] at this
      exact this.resolve_right hL.1.ne'
  have := hL.2
  rw [hz 0, hz 1] at this
  nlinarith [hL.1]

end

section
variable {K : Type} [Field K] [LinearOrder K] [IsStrictOrderedRing K] {d n : ℕ}

theorem spring_shape {sq : K → K} {coord : Table K} {p : List K} {A B}
    (h : spring sq coord p = .ok (A, B)) : ∃ M, A = NdArr.mat 4 4 M ∧ B = NdArr.vec 4 fun _ => 0 := by
  unfold spring at h
  obtain ⟨g, -, h⟩ := bind_ok.1 h
  obtain ⟨S, -, h⟩ := bind_ok.1 h
  have h := pure_ok.1 h
  rw [Prod.mk.injEq] at h
  exact ⟨_, h.1.symm, h.2.symm⟩

/-- The element row has a free degree of freedom among its first four. -/
def HasFree (op : List ℤ) : Prop := ∃ r < 4, ∃ g, op[r]? = some g ∧ g ≠ -1

theorem retriever_spring {sq : K → K} {elements : List (List ℤ)} {mats nodes : Table K} {e : ℕ}
    {el : List ℤ} (he : elements[e]? = some el) (hty : el[1]? = some 5) {loc}
    (h : retriever (eleFun sq) elements mats nodes e none = .ok loc) :
    ∃ M, loc = (NdArr.mat 4 4 M, NdArr.vec 4 fun _ => 0) := by
  unfold retriever at h
  rw [pyGet_nat.2 he, ok_bind, pyGet_one.2 hty, ok_bind] at h
  obtain ⟨mi, -, h⟩ := bind_ok.1 h
  obtain ⟨params, -, h⟩ := bind_ok.1 h
  obtain ⟨rows, -, h⟩ := bind_ok.1 h
  obtain ⟨M, h1, h2⟩ := spring_shape (A := loc.1) (B := loc.2) (p := params) (sq := sq) h
  exact ⟨M, Prod.ext h1 h2⟩

/-- C55.  No mesh containing a spring with a free degree of freedom is assembled. -/
theorem C55_not_assembled {sq : K → K} {elements : List (List ℤ)} {mats nodes : Table K} {neq : ℕ}
    {assemOp : List (List ℤ)} {sparse : Bool} {e : ℕ} {el op : List ℤ} (he : elements[e]? = some el)
    (hty : el[1]? = some 5) (hop : assemOp[e]? = some op) (hfree : HasFree op) (r) :
    assembler (eleFun sq) elements mats nodes neq assemOp sparse none ≠ .ok r := by
  have key : ∀ In : ℤ → Prop, ¬ StepOk In (eleFun sq) elements mats nodes assemOp none e := by
    rintro In ⟨loc, op', h1, h2, h3⟩
    rw [hop, Option.some.injEq] at h2
    subst h2
    obtain ⟨M, rfl⟩ := retriever_spring he hty h1
    obtain ⟨r, hr, g, hg, hne⟩ := hfree
    obtain ⟨gr, hgr, hrow⟩ := h3 r (List.mem_range.2 hr)
    rw [hg, Option.some.injEq] at hgr
    subst hgr
    obtain ⟨gc, hgc, hcell⟩ := hrow hne r (List.mem_range.2 hr)
    rw [hg, Option.some.injEq] at hgc
    subst hgc
    exact (hcell hne).2.2.2
  have hlt : e < elements.length := by
    by_contra hc
    rw [List.getElem?_eq_none (by omega)] at he
    simp at he
  intro h
  unfold assembler at h
  split at h
  · obtain ⟨err, he'⟩ := sparseAssem_spec (neq := neq).2 fun hall => key _ (hall e hlt)
    rw [he'] at h
    simp at h
  · obtain ⟨err, he'⟩ := denseAssem_spec (neq := neq).2 fun hall => key _ (hall e hlt)
    rw [he'] at h
    simp at h

theorem pyFin_ok_or (n : ℕ) (i : ℤ) : (∃ x, pyFin n i = .ok x) ∨ pyFin n i = .error .indexError := by
  unfold pyFin
  split
  · exact Or.inl ⟨_, rfl⟩
  · split
    · exact Or.inl ⟨_, rfl⟩
    · exact Or.inr rfl

theorem pyGet_ok_or {α : Type} (l : List α) (i : ℤ) : (∃ x, pyGet l i = .ok x) ∨ pyGet l i = .error .indexError := by
  unfold pyGet
  rcases pyFin_ok_or l.length i with ⟨k, hk⟩ | hk
  · rw [hk]
    exact Or.inl ⟨_, rfl⟩
  · rw [hk]
    exact Or.inr rfl

theorem foldlM_error_of {σ α : Type} {step : σ → α → Py σ} {e : PyErr} {acc : σ} {l : List α}
    (h : ∀ x ∈ l, step acc x = .ok acc ∨ step acc x = .error e) (hx : ∃ x ∈ l, step acc x = .error e) :
    l.foldlM step acc = .error e := by
  induction l with
  | nil => simp at hx
  | cons a l ih =>
    rw [List.foldlM_cons]
    rcases h a (by simp) with h1 | h1
    · rw [h1, ok_bind]
      apply ih (fun x hx => h x (by simp [hx]))
      obtain ⟨x, hm, hx⟩ := hx
      rcases List.mem_cons.1 hm with rfl | hm
      · rw [h1] at hx
        simp at hx
      · exact ⟨x, hm, hx⟩
    · rw [h1, error_bind]

theorem foldlM_same_or {σ α : Type} {step : σ → α → Py σ} {e : PyErr} {acc : σ} {l : List α}
    (h : ∀ x ∈ l, step acc x = .ok acc ∨ step acc x = .error e) :
    l.foldlM step acc = .ok acc ∨ l.foldlM step acc = .error e := by
  by_cases hx : ∃ x ∈ l, step acc x = .error e
  · exact Or.inr (foldlM_error_of h hx)
  · left
    have h' : ∀ x ∈ l, step acc x = .ok acc := fun x hm =>
      (h x hm).resolve_right fun hc => hx ⟨x, hm, hc⟩
    clear h hx
    induction l with
    | nil => rfl
    | cons a l ih =>
      rw [List.foldlM_cons, h' a (by simp), ok_bind]
      exact ih fun x hm => h' x (by simp [hm])

theorem bind_error {α β : Type} {x : Py α} {f : α → Py β} {e : PyErr}
    (h : (∃ a, x = .ok a) ∨ x = .error e) (hf : ∀ a, x = .ok a → f a = .error e) :
    (x >>= f) = .error e := by
  rcases h with ⟨a, rfl⟩ | rfl
  · exact hf a rfl
  · rfl

theorem mat_get2_or (M : Matrix (Fin 4) (Fin 4) K) (r c : ℕ) :
    (∃ x, (NdArr.mat 4 4 M).get2 r c = .ok x) ∨ (NdArr.mat 4 4 M).get2 r c = .error .indexError := by
  unfold NdArr.get2
  dsimp only
  split
  · exact Or.inl ⟨_, rfl⟩
  · exact Or.inr rfl

theorem addAt_ok_or {neq : ℕ} (M : Matrix (Fin neq) (Fin neq) K) (i j : ℤ) (x : K) :
    (∃ y, addAt M i j x = .ok y) ∨ addAt M i j x = .error .indexError := by
  unfold addAt
  rcases pyFin_ok_or neq i with ⟨a, ha⟩ | ha
  · rcases pyFin_ok_or neq j with ⟨b, hb⟩ | hb
    · left
      rw [ha, ok_bind, hb, ok_bind]
      exact ⟨_, rfl⟩
    · right
      rw [ha, ok_bind, hb, error_bind]
  · right
    rw [ha, error_bind]

theorem denseCell_vec {neq : ℕ} (dme : List ℤ) (M : Matrix (Fin 4) (Fin 4) K) (row : ℕ) (gr : ℤ)
    (acc : Assem.Acc K neq) (col : ℕ) :
    (denseCell dme (.mat 4 4 M) (.vec 4 fun _ => 0) row gr acc col = .ok acc ∨
      denseCell dme (.mat 4 4 M) (.vec 4 fun _ => 0) row gr acc col = .error .indexError) ∧
    ∀ g, dme[col]? = some g → g ≠ -1 →
      denseCell dme (.mat 4 4 M) (.vec 4 fun _ => 0) row gr acc col = .error .indexError := by
  have key : ∀ g : ℤ, g ≠ -1 → (do
      let kx ← (NdArr.mat 4 4 M).get2 row col
      let k' ← addAt acc.1 gr g kx
      let mx ← (NdArr.vec 4 fun _ => (0 : K)).get2 row col
      let m' ← addAt acc.2 gr g mx
      pure (k', m') : Py (Assem.Acc K neq)) = .error .indexError := by
    intro g _
    refine bind_error (mat_get2_or M row col) fun kx _ => bind_error (addAt_ok_or _ _ _ _) fun k' _ => ?_
    rfl
  unfold denseCell
  constructor
  · rcases pyGet_ok_or dme col with ⟨g, hg⟩ | hg
    · rw [hg, ok_bind]
      split
      · next hne => exact Or.inr (key g hne)
      · exact Or.inl rfl
    · right
      rw [hg, error_bind]
  · intro g hg hne
    rw [pyGet_nat.2 hg, ok_bind, if_pos hne]
    exact key g hne

theorem sparseCell_vec (dme : List ℤ) (M : Matrix (Fin 4) (Fin 4) K) (row : ℕ) (gr : ℤ)
    (acc : List (Triplet K)) (col : ℕ) :
    (sparseCell dme (.mat 4 4 M) (.vec 4 fun _ => 0) row gr acc col = .ok acc ∨
      sparseCell dme (.mat 4 4 M) (.vec 4 fun _ => 0) row gr acc col = .error .indexError) ∧
    ∀ g, dme[col]? = some g → g ≠ -1 →
      sparseCell dme (.mat 4 4 M) (.vec 4 fun _ => 0) row gr acc col = .error .indexError := by
  have key : ∀ g : ℤ, g ≠ -1 → (do
      let kx ← (NdArr.mat 4 4 M).get2 row col
      let mx ← (NdArr.vec 4 fun _ => (0 : K)).get2 row col
      pure (acc ++ [⟨gr, g, kx, mx⟩]) : Py (List (Triplet K))) = .error .indexError := by
    intro g _
    refine bind_error (mat_get2_or M row col) fun kx _ => ?_
    rfl
  unfold sparseCell
  constructor
  · rcases pyGet_ok_or dme col with ⟨g, hg⟩ | hg
    · rw [hg, ok_bind]
      split
      · next hne => exact Or.inr (key g hne)
      · exact Or.inl rfl
    · right
      rw [hg, error_bind]
  · intro g hg hne
    rw [pyGet_nat.2 hg, ok_bind, if_pos hne]
    exact key g hne

/-- Two nested loops whose innermost step keeps the state or fails, and fails at a free pair. -/
theorem nested_error {σ : Type} {cell : ℕ → ℤ → σ → ℕ → Py σ} {dme : List ℤ} {acc : σ}
    (h1 : ∀ row gr col, cell row gr acc col = .ok acc ∨ cell row gr acc col = .error .indexError)
    (h2 : ∀ row gr col g, dme[col]? = some g → g ≠ -1 → cell row gr acc col = .error .indexError)
    {r : ℕ} (hr : r < 4) {g : ℤ} (hg : dme[r]? = some g) (hne : g ≠ -1) :
    (List.range 4).foldlM (fun acc (row : ℕ) => (do
      let gr ← pyGet dme row
      if gr ≠ -1 then (List.range 4).foldlM (cell row gr) acc else pure acc : Py σ)) acc =
      .error .indexError := by
  refine foldlM_error_of (fun row _ => ?_) ⟨r, List.mem_range.2 hr, ?_⟩
  · rcases pyGet_ok_or dme row with ⟨gr, hgr⟩ | hgr
    · rw [hgr, ok_bind]
      split
      · exact foldlM_same_or fun col _ => h1 row gr col
      · exact Or.inl rfl
    · right
      rw [hgr, error_bind]
  · rw [pyGet_nat.2 hg, ok_bind, if_pos hne]
    exact foldlM_error_of (fun col _ => h1 r g col) ⟨r, List.mem_range.2 hr, h2 r g r g hg hne⟩

theorem take_free {op : List ℤ} (h : HasFree op) :
    ∃ r < 4, ∃ g, (op.take 4)[r]? = some g ∧ g ≠ -1 := by
  obtain ⟨r, hr, g, hg, hne⟩ := h
  exact ⟨r, hr, g, by rw [List.getElem?_take, if_pos hr, hg], hne⟩

theorem denseElem_spring {neq : ℕ} {op : List ℤ} (h : HasFree op) (M : Matrix (Fin 4) (Fin 4) K)
    (acc : Assem.Acc K neq) : denseElem op (.mat 4 4 M) (.vec 4 fun _ => 0) acc = .error .indexError := by
  obtain ⟨r, hr, g, hg, hne⟩ := take_free h
  exact nested_error (fun row gr col => (denseCell_vec _ M row gr acc col).1)
    (fun row gr col => (denseCell_vec _ M row gr acc col).2) hr hg hne

theorem sparseElem_spring {op : List ℤ} (h : HasFree op) (M : Matrix (Fin 4) (Fin 4) K)
    (acc : List (Triplet K)) : sparseElem op (.mat 4 4 M) (.vec 4 fun _ => 0) acc = .error .indexError := by
  obtain ⟨r, hr, g, hg, hne⟩ := take_free h
  exact nested_error (fun row gr col => (sparseCell_vec _ M row gr acc col).1)
    (fun row gr col => (sparseCell_vec _ M row gr acc col).2) hr hg hne

theorem foldlM_congr {σ α : Type} {f g : σ → α → Py σ} {l : List α} (h : ∀ a, ∀ x ∈ l, f a x = g a x)
    (acc : σ) : l.foldlM f acc = l.foldlM g acc := by
  induction l generalizing acc with
  | nil => rfl
  | cons x l ih =>
    rw [List.foldlM_cons, List.foldlM_cons, h acc x (by simp)]
    congr 1
    funext b
    exact ih (fun a y hy => h a y (by simp [hy])) b

theorem retriever_take {eleFun : ℤ → Py (Uel K)} {elements : List (List ℤ)} {mats nodes : Table K}
    {e x : ℕ} (hx : x < e) (uel : Option (Uel K)) :
    retriever eleFun (elements.take e) mats nodes x uel = retriever eleFun elements mats nodes x uel := by
  have : pyGet (elements.take e) (x : ℤ) = pyGet elements (x : ℤ) := by
    rcases hl : elements[x]? with _ | el
    · have h1 : pyGet elements (x : ℤ) = .error .indexError := by
        rcases pyGet_ok_or elements (x : ℤ) with ⟨y, hy⟩ | hy
        · rw [pyGet_nat.1 hy] at hl
          simp at hl
        · exact hy
      have h2 : pyGet (elements.take e) (x : ℤ) = .error .indexError := by
        rcases pyGet_ok_or (elements.take e) (x : ℤ) with ⟨y, hy⟩ | hy
        · have := pyGet_nat.1 hy
          rw [List.getElem?_take, if_pos hx, hl] at this
          simp at this
        · exact hy
      rw [h1, h2]
    · rw [pyGet_nat.2 hl, pyGet_nat.2 (by rw [List.getElem?_take, if_pos hx, hl])]
  unfold retriever
  rw [this]

/-- An element loop that reaches a failing element after handling the ones before it. -/
theorem loop_error {σ : Type} {eleFun : ℤ → Py (Uel K)} {elements : List (List ℤ)} {mats nodes : Table K}
    {assemOp : List (List ℤ)} {uel : Option (Uel K)} {elem : List ℤ → NdArr K → NdArr K → σ → Py σ}
    {e : ℕ} (he : e < elements.length) {acc0 acc : σ} {err : PyErr}
    (hpre : (List.range (elements.take e).length).foldlM (fun acc ele => (do
      let (kloc, mloc) ← retriever eleFun (elements.take e) mats nodes ele uel
      let op ← pyGet assemOp ele
      elem op kloc mloc acc : Py σ)) acc0 = .ok acc)
    (hstep : (do
      let (kloc, mloc) ← retriever eleFun elements mats nodes e uel
      let op ← pyGet assemOp e
      elem op kloc mloc acc : Py σ) = .error err) :
    (List.range elements.length).foldlM (fun acc ele => (do
      let (kloc, mloc) ← retriever eleFun elements mats nodes ele uel
      let op ← pyGet assemOp ele
      elem op kloc mloc acc : Py σ)) acc0 = .error err := by
  have hr : List.range elements.length =
      List.range e ++ (e :: (List.range (elements.length - e - 1)).map (e + 1 + ·)) := by
    have h1 : elements.length = e + 1 + (elements.length - e - 1) := by omega
    conv_lhs => rw [h1, List.range_add, List.range_succ]
    simp
  rw [List.length_take, min_eq_left he.le] at hpre
  rw [hr, List.foldlM_append]
  rw [foldlM_congr (g := fun acc ele => (do
      let (kloc, mloc) ← retriever eleFun (elements.take e) mats nodes ele uel
      let op ← pyGet assemOp ele
      elem op kloc mloc acc : Py σ)) (fun a x hx => by
        rw [retriever_take (List.mem_range.1 hx)]), hpre, ok_bind, List.foldlM_cons, hstep, error_bind]

/-- C55.  If the elements listed before a spring assemble and the spring itself is a valid one with a free
degree of freedom, the assembly raises `IndexError`, dense or sparse. -/
theorem C55_index_error {sq : K → K} {elements : List (List ℤ)} {mats nodes : Table K} {neq : ℕ}
    {assemOp : List (List ℤ)} {sparse : Bool} {e : ℕ} {el op : List ℤ} (he : elements[e]? = some el)
    (hty : el[1]? = some 5) (hop : assemOp[e]? = some op) (hfree : HasFree op)
    (hspring : ∃ loc, retriever (eleFun sq) elements mats nodes e none = .ok loc)
    (hpre : ∃ r, assembler (eleFun sq) (elements.take e) mats nodes neq assemOp sparse none = .ok r) :
    assembler (eleFun sq) elements mats nodes neq assemOp sparse none = .error .indexError := by
  have hlt : e < elements.length := (List.getElem?_eq_some_iff.1 he).1
  obtain ⟨loc, hloc⟩ := hspring
  obtain ⟨M, rfl⟩ := retriever_spring he hty hloc
  obtain ⟨r, hr⟩ := hpre
  unfold assembler at hr ⊢
  cases sparse with
  | true =>
    rw [if_pos rfl] at hr ⊢
    unfold sparseAssem at hr ⊢
    obtain ⟨ts, hts, -⟩ := bind_ok.1 hr
    rw [loop_error hlt hts (by
      rw [hloc, ok_bind]
      dsimp only
      rw [pyGet_nat.2 hop, ok_bind]
      exact sparseElem_spring hfree M ts), error_bind]
  | false =>
    rw [if_neg (by simp)] at hr ⊢
    unfold denseAssem at hr ⊢
    exact loop_error hlt hr (by
      rw [hloc, ok_bind]
      dsimp only
      rw [pyGet_nat.2 hop, ok_bind]
      exact denseElem_spring hfree M r)

/-- A single spring along the bar of length five, with one end free. -/
example (sparse : Bool) : assembler (eleFun Real.sqrt) [[0, 5, 0, 0, 1]] [[7]] [[0, 0, 0], [1, 3, 4]] 2
    [[-1, -1, 0, 1]] sparse none = .error .indexError := by
  refine C55_index_error (e := 0) rfl rfl rfl ⟨2, by norm_num, 0, rfl, by norm_num⟩ ?_ ?_
  · have h := spring_ok sqrtFn_real bar345_length 7
    rw [matRows_two] at h
    refine ⟨_, Eq.trans ?_ h⟩
    simp [bar345]
    rfl
  · cases sparse <;> exact ⟨_, rfl⟩

/-! ## C53 -/

theorem trussStiff_entries (nx ny s : K) : trussStiff nx ny s =
    !![s*nx*nx, s*nx*ny, -(s*nx*nx), -(s*nx*ny); s*nx*ny, s*ny*ny, -(s*nx*ny), -(s*ny*ny);
       -(s*nx*nx), -(s*nx*ny), s*nx*nx, s*nx*ny; -(s*nx*ny), -(s*ny*ny), s*nx*ny, s*ny*ny] := by
  unfold trussStiff
  ext i j
  rw [Matrix.mul_apply, Fin.sum_univ_two, Matrix.mul_apply, Fin.sum_univ_two, Matrix.mul_apply, Fin.sum_univ_two]
  fin_cases i <;> fin_cases j <;> simp [barQ] <;> first | done | ring1 | (left; ring1)

theorem stress_one {sq : K → K} (hs : SqrtFn sq) {nodes mats disp : Table K} {elements : List (List ℤ)}
    {e : ℕ} {X : Matrix (Fin 2) (Fin 2) K} {E A L : K} {u} (hm : BarMember nodes elements mats disp e X E A u)
    (hL : IsLength X L) : ∃ el, elements[e]? = some el ∧
      Post.stressTruss1 sq nodes mats disp el = pyDiv (A * E * elongation X L u) (L * A) := by
  obtain ⟨el, mi, nd, id, cols, more, h1, h2, h3, h4, h5, h6⟩ := hm
  refine ⟨el, h1, ?_⟩
  have g2 : pyGet el 2 = .ok (mi : ℤ) := pyGet_two.2 h2
  have g3 : pyGet el 3 = .ok (nd 0 : ℤ) := (pyGet_nat (n := 3)).2 h3
  have g4 : pyGet el 4 = .ok (nd 1 : ℤ) := (pyGet_nat (n := 4)).2 h4
  have hn : Uel.norm sq [X 1 0 - X 0 0, X 1 1 - X 0 1] = L := by
    unfold Uel.norm
    apply sqrt_unique hs hL.1.le
    rw [hL.2]
    simp
    ring
  have ht := truss_ok hs hL E A more
  rw [matRows_two] at ht
  unfold Post.stressTruss1
  rw [g3, ok_bind, g4, ok_bind, pyGet_nat.2 (h6 0).1, ok_bind, pyGet_nat.2 (h6 1).1, ok_bind, g2, ok_bind,
    pyGet_nat.2 h5, ok_bind]
  simp only [List.drop_succ_cons, List.drop_zero, List.take_succ_cons, List.take_zero]
  rw [ht, ok_bind]
  dsimp only
  rw [pyGet_nat.2 (h6 0).2, ok_bind, pyGet_nat.2 (h6 1).2, ok_bind]
  simp only [List.zipWith_cons_cons, List.zipWith_nil_left, hn]
  unfold Post.ndDot
  simp only [List.cons_append, List.nil_append, List.length_cons, List.length_nil]
  rw [if_pos trivial, ok_bind]
  unfold Post.listDot
  rw [if_pos (by simp), ok_bind]
  have hA : pyGet (E :: A :: more) 1 = .ok A := pyGet_one.2 rfl
  rw [hA, ok_bind]
  congr 1
  rw [trussStiff_entries]
  simp [List.ofFn_succ, Fin.sum_univ_four, elongation]
  have := hL.2
  have hne := hL.1.ne'
  field_simp
  linear_combination (-(A * E * ((X 1 0 - X 0 0) * (u (1, 0) - u (0, 0)) + (X 1 1 - X 0 1) * (u (1, 1) - u (0, 1))))) * this

/-- C53.  The stress of a member is Young's modulus times its elongation over its length; the area does
not enter. -/
theorem C53_stress {sq : K → K} (hs : SqrtFn sq) {nodes mats disp : Table K} {elements : List (List ℤ)}
    {σ : List K} (h : Post.stressTruss sq nodes elements mats disp = .ok σ)
    {e : ℕ} {X : Matrix (Fin 2) (Fin 2) K} {E A L : K} {u} (hm : BarMember nodes elements mats disp e X E A u)
    (hL : IsLength X L) : σ[e]? = some (E * elongation X L u / L) := by
  obtain ⟨el, he, h1⟩ := stress_one hs hm hL
  obtain ⟨x, hx, hx'⟩ := mapM_getElem? h he
  rw [hx, Option.some.injEq]
  rw [h1] at hx'
  unfold pyDiv at hx'
  split at hx'
  · simp at hx'
  · rename_i hne
    have hA := right_ne_zero_of_mul hne
    have hL' := hL.1.ne'
    rw [← Except.ok.inj hx']
    field_simp

/-- C53.  The stress does not depend on the area of the member nor on which of its nodes is listed
first. -/
theorem C53_area_and_order {sq : K → K} (hs : SqrtFn sq) {nodes mats mats' disp : Table K}
    {elements elements' : List (List ℤ)} {σ σ' : List K}
    (h : Post.stressTruss sq nodes elements mats disp = .ok σ)
    (h' : Post.stressTruss sq nodes elements' mats' disp = .ok σ')
    {e : ℕ} {X : Matrix (Fin 2) (Fin 2) K} {E A A' : K} {u}
    (hm : BarMember nodes elements mats disp e X E A u)
    (hm' : BarMember nodes elements' mats' disp e (fun a => X (other a)) E A' (fun p => u (other p.1, p.2)))
    (hX : X 0 ≠ X 1) : σ[e]? = σ'[e]? := by
  obtain ⟨L, hL⟩ := exists_length hs hX
  have hL' : IsLength (fun a => X (other a)) L := by
    refine ⟨hL.1, ?_⟩
    rw [hL.2]
    simp [other]
    ring
  rw [C53_stress hs h hm hL, C53_stress hs h' hm' hL']
  have : elongation (fun a => X (other a)) L (fun p => u (other p.1, p.2)) = elongation X L u := by
    simp only [elongation, other, Matrix.cons_val_zero, Matrix.cons_val_one]
    congr 1
    ring
  rw [this]

/-- The stresses exist exactly when no member has zero length or zero area. -/
theorem C53_returns_iff {sq : K → K} (hs : SqrtFn sq) {nodes mats disp : Table K}
    {elements : List (List ℤ)} {X : ℕ → Matrix (Fin 2) (Fin 2) K} {E A : ℕ → K}
    {u : ℕ → Fin 2 × Fin 2 → K}
    (hm : ∀ e < elements.length, BarMember nodes elements mats disp e (X e) (E e) (A e) (u e)) :
    (∃ σ, Post.stressTruss sq nodes elements mats disp = .ok σ) ↔
      ∀ e < elements.length, X e 0 ≠ X e 1 ∧ A e ≠ 0 := by
  unfold Post.stressTruss
  rw [mapM_exists]
  constructor
  · intro h e he
    have hlen : X e 0 ≠ X e 1 := by
      intro h0
      obtain ⟨el, mi, nd, id, cols, more, h1, h2, h3, h4, h5, h6⟩ := hm e he
      obtain ⟨b, hb⟩ := h el (List.mem_of_getElem? h1)
      have g2 : pyGet el 2 = .ok (mi : ℤ) := pyGet_two.2 h2
      have g3 : pyGet el 3 = .ok (nd 0 : ℤ) := (pyGet_nat (n := 3)).2 h3
      have g4 : pyGet el 4 = .ok (nd 1 : ℤ) := (pyGet_nat (n := 4)).2 h4
      have hz := barGeom_zero hs h0
      rw [matRows_two] at hz
      unfold Post.stressTruss1 truss2D at hb
      rw [g3, ok_bind, g4, ok_bind, pyGet_nat.2 (h6 0).1, ok_bind, pyGet_nat.2 (h6 1).1, ok_bind, g2, ok_bind,
        pyGet_nat.2 h5, ok_bind] at hb
      simp only [List.drop_succ_cons, List.drop_zero, List.take_succ_cons, List.take_zero] at hb
      rw [hz, error_bind, error_bind] at hb
      simp at hb
    obtain ⟨L, hL⟩ := exists_length hs hlen
    obtain ⟨el, h1, h2⟩ := stress_one hs (hm e he) hL
    obtain ⟨b, hb⟩ := h el (List.mem_of_getElem? h1)
    rw [h2] at hb
    refine ⟨hlen, fun hA => ?_⟩
    rw [hA, mul_zero] at hb
    simp [pyDiv] at hb
  · intro h el hel
    obtain ⟨e, he, rfl⟩ := List.mem_iff_getElem.1 hel
    obtain ⟨L, hL⟩ := exists_length hs (h e he).1
    obtain ⟨el', h1, h2⟩ := stress_one hs (hm e he) hL
    rw [List.getElem?_eq_getElem he, Option.some.injEq] at h1
    rw [h1, h2]
    unfold pyDiv
    rw [if_neg (mul_ne_zero hL.1.ne' (h e he).2)]
    exact ⟨_, rfl⟩

/-- The bar of length five, its free end moved by one along the first axis. -/
example : Post.stressTruss Real.sqrt [[0, 0, 0], [1, 3, 4]] [[0, 6, 0, 0, 1]] [[10, 2]] [[0, 0], [1, 0]] =
    .ok [6 / 5] := by
  have hm : ∀ e < 1, BarMember [[0, 0, 0], [1, 3, 4]] [[0, 6, 0, 0, 1]] [[10, 2]] [[0, 0], [1, 0]] e bar345
      10 2 (fun p => if p = (1, 0) then 1 else 0) := by
    intro e he
    obtain rfl : e = 0 := by omega
    refine ⟨_, 0, ![0, 1], ![0, 1], fun _ => [], [], rfl, rfl, rfl, rfl, rfl, ?_⟩
    intro a
    fin_cases a <;> simp [bar345]
  obtain ⟨σ, hσ⟩ := (C53_returns_iff sqrtFn_real (elements := [[0, 6, 0, 0, 1]])
    (X := fun _ => bar345) (E := fun _ => 10) (A := fun _ => 2)
    (u := fun _ p => if p = (1, 0) then 1 else 0) hm).2 fun e _ =>
    ⟨fun h => by simpa [bar345] using congrFun h 0, by norm_num⟩
  have h1 := C53_stress sqrtFn_real hσ (hm 0 (by norm_num)) bar345_length
  have h2 := mapM_length hσ
  rw [hσ]
  match σ, h2 with
  | [x], _ =>
    simp [elongation, bar345] at h1
    rw [h1]
    norm_num

/-! ## C54 -/

theorem sum_sq_nonneg (l : List K) : 0 ≤ (l.map fun x => x * x).sum := by
  induction l with
  | nil => simp
  | cons a l ih =>
    simp only [List.map_cons, List.sum_cons]
    nlinarith [mul_self_nonneg a]

theorem sum_sq_eq_zero {l : List K} : (l.map fun x => x * x).sum = 0 ↔ ∀ x ∈ l, x = 0 := by
  induction l with
  | nil => simp
  | cons a l ih =>
    simp only [List.map_cons, List.sum_cons, List.mem_cons, forall_eq_or_imp]
    rw [← ih]
    have h1 := mul_self_nonneg a
    have h2 := sum_sq_nonneg l
    constructor
    · intro h
      have h3 : a * a = 0 := by linarith
      exact ⟨mul_self_eq_zero.1 h3, by linarith⟩
    · rintro ⟨rfl, h⟩
      rw [h]
      simp

theorem zipWith_sub_zero {f g : List K} (hlen : f.length = g.length) :
    (∀ x ∈ List.zipWith (· - ·) g f, x = 0) ↔ f = g := by
  induction f generalizing g with
  | nil =>
    cases g with
    | nil => simp
    | cons b g => simp at hlen
  | cons a f ih =>
    cases g with
    | nil => simp at hlen
    | cons b g =>
      simp only [List.zipWith_cons_cons, List.mem_cons, forall_eq_or_imp, List.cons.injEq]
      rw [ih (by simpa using hlen), sub_eq_zero]
      exact and_congr_left fun _ => eq_comm

/-- `L` is the length the truss routine computes when the rows carry further columns. -/
def IsLengthWith (X : Matrix (Fin 2) (Fin 2) K) (f g : List K) (L : K) : Prop :=
  0 < L ∧ L * L = (X 1 0 - X 0 0) ^ 2 + (X 1 1 - X 0 1) ^ 2 +
    ((List.zipWith (· - ·) g f).map fun x => x * x).sum

theorem truss_flags {sq : K → K} (hs : SqrtFn sq) {X : Matrix (Fin 2) (Fin 2) K} {f g : List K} {L : K}
    (hL : IsLengthWith X f g L) {E A : K} {rest : List K} {k m} :
    Gives (truss2D sq) [X 0 0 :: X 0 1 :: f, X 1 0 :: X 1 1 :: g] (E :: A :: rest) k m ↔
      k = barK (A * E / L) (outward X L) ∧ m = barM (A * L * density rest) := by
  have hg : barGeom sq [X 0 0 :: X 0 1 :: f, X 1 0 :: X 1 1 :: g] =
      .ok ((X 1 0 - X 0 0) / L, (X 1 1 - X 0 1) / L, L) := by
    rw [barGeom_rows]
    have h : sq ((X 1 0 - X 0 0) * (X 1 0 - X 0 0) + ((X 1 1 - X 0 1) * (X 1 1 - X 0 1) +
        ((List.zipWith (· - ·) g f).map fun x => x * x).sum)) = L :=
      sqrt_unique hs hL.1.le (by rw [hL.2]; ring)
    simp only [h]
    rw [if_neg hL.1.ne']
  have ht : truss2D sq [X 0 0 :: X 0 1 :: f, X 1 0 :: X 1 1 :: g] (E :: A :: rest) =
      .ok (NdArr.mat 4 4 (trussStiff ((X 1 0 - X 0 0) / L) ((X 1 1 - X 0 1) / L) (A * E / L)),
        NdArr.mat 4 4 (trussMass (A * L * density rest))) := by
    unfold truss2D
    rw [hg]
    dsimp only [bind, Except.bind]
    have h1 : (E :: A :: rest).take 2 = [E, A] := rfl
    rw [h1]
    dsimp only
    have h2 := densOf_eq E A rest
    unfold densOf at h2
    simp only [pyDiv, if_neg hL.1.ne']
    split at h2
    · rename_i hl
      rw [if_pos hl, ← Except.ok.inj h2, lit_one]
      rfl
    · rename_i hl
      rw [if_neg hl, h2]
      rfl
  unfold Gives
  rw [ht, ← trussStiff_block, ← trussMass_block]
  constructor
  · rintro ⟨A', B', h, h1, h2⟩
    rw [Except.ok.injEq, Prod.mk.injEq] at h
    obtain ⟨rfl, rfl⟩ := h
    exact ⟨(holds_mat (n := 2) (d := 2)).1 h1, (holds_mat (n := 2) (d := 2)).1 h2⟩
  · rintro ⟨rfl, rfl⟩
    exact ⟨_, _, rfl, (holds_mat (n := 2) (d := 2)).2 rfl, (holds_mat (n := 2) (d := 2)).2 rfl⟩

/-- C54.  With further columns (such as boundary flags) left in the node rows, the truss routine works
with a length that includes them ... -/
theorem C54_truss_length {sq : K → K} (hs : SqrtFn sq) {X : Matrix (Fin 2) (Fin 2) K} (hX : X 0 ≠ X 1)
    (f g : List K) {E A : K} {rest : List K} :
    ∃ L, 0 < L ∧ L * L = (X 1 0 - X 0 0) ^ 2 + (X 1 1 - X 0 1) ^ 2 +
        ((List.zipWith (· - ·) g f).map fun x => x * x).sum ∧
      ∃ k m, Gives (truss2D sq) [X 0 0 :: X 0 1 :: f, X 1 0 :: X 1 1 :: g] (E :: A :: rest) k m ∧
        (∀ u, k.mulVec u = pull X L (A * E / L * elongation X L u)) ∧
        ∀ i, ∑ a, ∑ b, m (a, i) (b, i) = A * L * density rest := by
  obtain ⟨L0, hL0⟩ := exists_length hs hX
  have hpos : 0 < (X 1 0 - X 0 0) ^ 2 + (X 1 1 - X 0 1) ^ 2 +
      ((List.zipWith (· - ·) g f).map fun x => x * x).sum := by
    have h1 := mul_pos hL0.1 hL0.1
    rw [hL0.2] at h1
    linarith [sum_sq_nonneg (List.zipWith (· - ·) g f)]
  have hL : IsLengthWith X f g (sq ((X 1 0 - X 0 0) ^ 2 + (X 1 1 - X 0 1) ^ 2 +
      ((List.zipWith (· - ·) g f).map fun x => x * x).sum)) := ⟨sqrt_pos hs hpos, (hs _ hpos.le).2⟩
  refine ⟨_, hL.1, hL.2, _, _, (truss_flags hs hL).2 ⟨rfl, rfl⟩, ?_, ?_⟩
  · intro u
    funext p
    rw [barK_mulVec, elongation_eq]
    obtain ⟨a, i⟩ := p
    fin_cases a <;> simp only [outward, pull] <;> ring
  · intro i
    fin_cases i <;> simp [Fin.sum_univ_two, barM] <;> ring

/-- ... and its matrices are the right ones exactly when both nodes carry the same flags. -/
theorem C54_exact_iff {sq : K → K} (hs : SqrtFn sq) {X : Matrix (Fin 2) (Fin 2) K} (hX : X 0 ≠ X 1)
    {f g : List K} (hlen : f.length = g.length) {E A : K} {rest : List K} (hEA : E * A ≠ 0) {k m k' m'}
    (h : Returns (truss2D sq) X (E :: A :: rest) k m)
    (h' : Gives (truss2D sq) [X 0 0 :: X 0 1 :: f, X 1 0 :: X 1 1 :: g] (E :: A :: rest) k' m') :
    (k' = k ↔ f = g) ∧ (k' = k → m' = m) := by
  obtain ⟨L, hL⟩ := exists_length hs hX
  have hs0 := sum_sq_nonneg (List.zipWith (· - ·) g f)
  have hpos : 0 < (X 1 0 - X 0 0) ^ 2 + (X 1 1 - X 0 1) ^ 2 +
      ((List.zipWith (· - ·) g f).map fun x => x * x).sum := by
    have h1 := mul_pos hL.1 hL.1
    rw [hL.2] at h1
    linarith
  have hM : IsLengthWith X f g (sq ((X 1 0 - X 0 0) ^ 2 + (X 1 1 - X 0 1) ^ 2 +
      ((List.zipWith (· - ·) g f).map fun x => x * x).sum)) := ⟨sqrt_pos hs hpos, (hs _ hpos.le).2⟩
  generalize sq ((X 1 0 - X 0 0) ^ 2 + (X 1 1 - X 0 1) ^ 2 +
      ((List.zipWith (· - ·) g f).map fun x => x * x).sum) = M at hM
  rw [truss_returns hs hL] at h
  rw [truss_flags hs hM] at h'
  obtain ⟨rfl, rfl⟩ := h
  obtain ⟨rfl, rfl⟩ := h'
  have h0 := hL.1.ne'
  have h1 := hM.1.ne'
  have hEA' : A * E ≠ 0 := by rwa [mul_comm]
  have key : barK (A * E / M) (outward X M) = barK (A * E / L) (outward X L) → M = L := by
    intro h
    have e0 := congrFun₂ h (1, 0) (1, 0)
    have e1 := congrFun₂ h (1, 1) (1, 1)
    simp only [barK, outward, pull, Matrix.of_apply] at e0 e1
    have h2 : A * E * (L * L) * (L * L * L) = A * E * (L * L) * (M * M * M) := by
      have h3 : A * E * ((X 1 0 - X 0 0) ^ 2 + (X 1 1 - X 0 1) ^ 2) / (M * M * M) =
          A * E * ((X 1 0 - X 0 0) ^ 2 + (X 1 1 - X 0 1) ^ 2) / (L * L * L) := by
        linear_combination e0 + e1
      rw [← hL.2, div_eq_div_iff (by positivity) (by positivity)] at h3
      exact h3
    have h3 := mul_left_cancel₀ (mul_ne_zero hEA' (mul_ne_zero h0 h0)) h2
    nlinarith [hL.1, hM.1, mul_pos hL.1 hL.1, mul_pos hM.1 hM.1, mul_pos hL.1 hM.1, sq_nonneg (L - M)]
  have hLM : M = L ↔ f = g := by
    rw [← zipWith_sub_zero hlen, ← sum_sq_eq_zero]
    constructor
    · rintro rfl
      have := hM.2
      rw [hL.2] at this
      linarith
    · intro hz
      have := hM.2
      rw [hz, add_zero, ← hL.2] at this
      nlinarith [hL.1, hM.1]
  constructor
  · constructor
    · exact fun h => hLM.1 (key h)
    · intro h
      rw [hLM.2 h]
  · intro h
    rw [key h]

/-- C54.  A plane continuum element whose node rows do not hold exactly two coordinates is never
assembled. -/
theorem C54_continuum_raises {sq : K → K} {elements : List (List ℤ)} {mats nodes : Table K} {neq : ℕ}
    {assemOp : List (List ℤ)} {sparse : Bool} {e : ℕ} {el : List ℤ} (he : elements[e]? = some el)
    (hty : el[1]? = some 1 ∨ el[1]? = some 2 ∨ el[1]? = some 3 ∨ el[1]? = some 4)
    {nd : ℤ} (hnd : nd ∈ el.drop 3) {row : List K} (hrow : pyGet nodes nd = .ok row) (hcols : row.length ≠ 3)
    (r) : assembler (eleFun sq) elements mats nodes neq assemOp sparse none ≠ .ok r := by
  have main : ∀ (n : ℕ) (f : Uel K), PlaneElement n f → ∀ params rows loc,
      pyGetMany nodes (el.drop 3) = .ok rows → f (rows.map (List.drop 1)) params ≠ .ok loc := by
    intro n f hf params rows loc hrows hc
    obtain ⟨R, st, hR, -⟩ := plane_rep hf
    obtain ⟨X, hX⟩ := hR.coord _ _ _ hc
    obtain ⟨i, hi⟩ := List.mem_iff_getElem?.1 hnd
    obtain ⟨b, hb, hb'⟩ := mapM_getElem? hrows hi
    rw [hrow, Except.ok.injEq] at hb'
    subst hb'
    have hmem : row.drop 1 ∈ matRows X := by
      rw [← hX]
      exact List.mem_map_of_mem (List.mem_of_getElem? hb)
    have hl : (row.drop 1).length = 2 := by
      unfold matRows at hmem
      obtain ⟨a, ha⟩ := List.mem_ofFn.1 hmem
      rw [← ha, List.length_ofFn]
    rw [List.length_drop] at hl
    omega
  have key : ∀ In : ℤ → Prop, ¬ StepOk In (eleFun sq) elements mats nodes assemOp none e := by
    rintro In ⟨loc, op', h, -, -⟩
    unfold retriever at h
    rw [pyGet_nat.2 he, ok_bind] at h
    rcases hty with hty | hty | hty | hty <;> rw [pyGet_one.2 hty, ok_bind] at h <;>
      obtain ⟨mi, -, h⟩ := bind_ok.1 h <;> obtain ⟨params, -, h⟩ := bind_ok.1 h <;>
      obtain ⟨rows, hrows, h⟩ := bind_ok.1 h
    · exact main 4 elastQuad4 .quad4 params rows loc hrows h
    · exact main 6 elastTri6 .tri6 params rows loc hrows h
    · exact main 3 elastTri3 .tri3 params rows loc hrows h
    · exact main 9 elastQuad9 .quad9 params rows loc hrows h
  have hlt : e < elements.length := (List.getElem?_eq_some_iff.1 he).1
  intro h
  unfold assembler at h
  split at h
  · obtain ⟨err, he'⟩ := sparseAssem_spec (neq := neq).2 fun hall => key _ (hall e hlt)
    rw [he'] at h
    simp at h
  · obtain ⟨err, he'⟩ := denseAssem_spec (neq := neq).2 fun hall => key _ (hall e hlt)
    rw [he'] at h
    simp at h

/-- The bar of length five with one end fixed: the flags make the computed stiffness wrong. -/
example : ∃ k m k' m', Returns (truss2D Real.sqrt) bar345 [10, 2] k m ∧
    Gives (truss2D Real.sqrt) [[0, 0, -1, -1], [3, 4, 0, 0]] [10, 2] k' m' ∧ k' ≠ k := by
  have hX : bar345 0 ≠ bar345 1 := fun h => by simpa [bar345] using congrFun h 0
  obtain ⟨k, m, h⟩ := (C51_accepts_iff sqrtFn_real bar345 [10, 2]).2 ⟨hX, le_rfl⟩
  obtain ⟨L, -, -, k', m', h', -⟩ := C54_truss_length sqrtFn_real hX [-1, -1] [0, 0] (E := 10) (A := 2) (rest := [])
  refine ⟨k, m, k', m', h, by simpa [bar345] using h', fun hk => ?_⟩
  have := (C54_exact_iff sqrtFn_real hX (f := [-1, -1]) (g := [0, 0]) rfl (by norm_num) h h').1.1 hk
  norm_num at this

end

end SolidsPy
