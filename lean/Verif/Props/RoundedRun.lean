import Verif.Props.Rounding
import Verif.Props.Sensitivity

/-! # C165: the assembled matrix and the displacements, with rounding -/

set_option linter.unusedSectionVars false

namespace SolidsPy
open Spec Assem

/-- Two loops over one list that keep their states related. -/
theorem foldlM_rel {α β γ : Type} (R : β → γ → Prop) {f : β → α → Py β} {g : γ → α → Py γ} {l : List α}
    (h : ∀ a ∈ l, ∀ x y x', R x y → f x a = .ok x' → ∃ y', g y a = .ok y' ∧ R x' y') {x : β} {y : γ} {x' : β} (hR : R x y)
    (hx : l.foldlM f x = .ok x') : ∃ y', l.foldlM g y = .ok y' ∧ R x' y' := by
  induction l generalizing x y with
  | nil =>
    simp only [List.foldlM_nil, pure_ok] at hx ⊢
    exact ⟨y, rfl, hx ▸ hR⟩
  | cons a l ih =>
    rw [List.foldlM_cons, bind_ok] at hx
    obtain ⟨x1, h1, hx⟩ := hx
    obtain ⟨y1, h2, r1⟩ := h a (by simp) x y x1 hR h1
    obtain ⟨y', h3, r⟩ := ih (fun a ha => h a (by simp [ha])) r1 hx
    exact ⟨y', by rw [List.foldlM_cons, h2, ok_bind, h3], r⟩

theorem foldlM_length {α β : Type} {f : List β → α → Py (List β)} {l : List α} {k : ℕ}
    (h : ∀ a ∈ l, ∀ x x', f x a = .ok x' → x'.length ≤ x.length + k) {x x' : List β} (hx : l.foldlM f x = .ok x') :
    x'.length ≤ x.length + k * l.length := by
  induction l generalizing x with
  | nil =>
    simp only [List.foldlM_nil, pure_ok] at hx
    simp [hx]
  | cons a l ih =>
    rw [List.foldlM_cons, bind_ok] at hx
    obtain ⟨x1, h1, hx⟩ := hx
    have := ih (fun a ha => h a (by simp [ha])) hx
    have := h a (by simp) x x1 h1
    rw [List.length_cons, Nat.mul_add]
    omega

theorem sum_filter_map {A σ : Type} [AddMonoid A] (l : List σ) (p : σ → Prop) [DecidablePred p] (f : σ → A) :
    ((l.filter fun t => decide (p t)).map f).sum = (l.map fun t => if p t then f t else 0).sum := by
  induction l with
  | nil => rfl
  | cons a l ih =>
    by_cases h : p a
    · simp [h, ih]
    · simp [h, ih]

section
variable {K : Type} [Field K] [LinearOrder K] [IsStrictOrderedRing K]

/-! ## The collected entries -/

/-- The same place, and the same stiffness up to the relative error `γ`. -/
def TriNear (γ : K) (t t' : Triplet K) : Prop := t'.row = t.row ∧ t'.col = t.col ∧ |t'.stiff - t.stiff| ≤ γ * |t.stiff|

theorem sparseElem_near {γ : K} {op : List ℤ} {kl ml kl' ml' : NdArr K} (hk : NearArr γ kl kl')
    (hm : ∀ r c x, ml.get2 r c = .ok x → ∃ y, ml'.get2 r c = .ok y) {acc acc' ts : List (Triplet K)}
    (hR : List.Forall₂ (TriNear γ) acc acc') (h : sparseElem op kl ml acc = .ok ts) :
    ∃ ts', sparseElem op kl' ml' acc' = .ok ts' ∧ List.Forall₂ (TriNear γ) ts ts' := by
  unfold sparseElem at h ⊢
  dsimp only at h ⊢
  rw [hk.1]
  refine foldlM_rel (List.Forall₂ (TriNear γ)) (fun r _ x y x' hxy hx => ?_) hR h
  unfold sparseRow at hx ⊢
  rw [bind_ok] at hx
  obtain ⟨gr, hgr, hx⟩ := hx
  rw [hgr, ok_bind]
  by_cases h1 : gr ≠ -1
  · rw [if_pos h1] at hx ⊢
    refine foldlM_rel (List.Forall₂ (TriNear γ)) (fun c _ x y x' hxy hx => ?_) hxy hx
    unfold sparseCell at hx ⊢
    rw [bind_ok] at hx
    obtain ⟨gc, hgc, hx⟩ := hx
    rw [hgc, ok_bind]
    by_cases h2 : gc ≠ -1
    · rw [if_pos h2] at hx ⊢
      simp only [bind_ok, pure_ok] at hx
      obtain ⟨kx, hkx, mx, hmx, rfl⟩ := hx
      obtain ⟨ky, hky, hnear⟩ := hk.2 r c kx hkx
      obtain ⟨my, hmy⟩ := hm r c mx hmx
      refine ⟨_, by rw [hky, ok_bind, hmy, ok_bind]; rfl, ?_⟩
      exact List.rel_append hxy (.cons ⟨rfl, rfl, hnear⟩ .nil)
    · rw [if_neg h2] at hx ⊢
      rw [pure_ok] at hx
      exact ⟨y, rfl, hx ▸ hxy⟩
  · rw [if_neg h1] at hx ⊢
    rw [pure_ok] at hx
    exact ⟨y, rfl, hx ▸ hxy⟩

theorem sparseElem_length {op : List ℤ} {kl ml : NdArr K} {acc ts : List (Triplet K)} (h : sparseElem op kl ml acc = .ok ts) :
    ts.length ≤ acc.length + kl.shape0 * kl.shape0 := by
  unfold sparseElem at h
  dsimp only at h
  have := foldlM_length (k := kl.shape0) (fun r _ x x' hx => ?_) h
  · rwa [List.length_range] at this
  · unfold sparseRow at hx
    rw [bind_ok] at hx
    obtain ⟨gr, _, hx⟩ := hx
    by_cases h1 : gr ≠ -1
    · rw [if_pos h1] at hx
      have := foldlM_length (k := 1) (fun c _ x x' hx => ?_) hx
      · rwa [List.length_range, one_mul] at this
      · unfold sparseCell at hx
        rw [bind_ok] at hx
        obtain ⟨gc, _, hx⟩ := hx
        by_cases h2 : gc ≠ -1
        · rw [if_pos h2] at hx
          simp only [bind_ok, pure_ok] at hx
          obtain ⟨_, _, _, _, rfl⟩ := hx
          simp
        · rw [if_neg h2, pure_ok] at hx
          simp [hx]
    · rw [if_neg h1, pure_ok] at hx
      simp [hx]

/-- The routines for the elements of a model, up to the relative error `γ`. -/
def RoutinesNear (γ : K) (els : List (List ℤ)) (ef ef' : ℤ → Py (Uel K)) : Prop :=
  ∀ el ∈ els, ∀ ty, el[1]? = some ty → ∀ f, ef ty = .ok f → ∃ f', ef' ty = .ok f' ∧ RoutineNear γ f f'

theorem retriever_near {γ : K} {ef ef' : ℤ → Py (Uel K)} {els : List (List ℤ)} {mats nodes : Table K}
    (hn : ∀ r ∈ nodes, r.length = 3) (hf : RoutinesNear γ els ef ef') {e : ℕ} {kl ml : NdArr K}
    (h : retriever ef els mats nodes e none = .ok (kl, ml)) :
    ∃ kl' ml', retriever ef' els mats nodes e none = .ok (kl', ml') ∧ NearArr γ kl kl' ∧
      ∀ r c x, ml.get2 r c = .ok x → ∃ y, ml'.get2 r c = .ok y := by
  unfold retriever at h ⊢
  simp only [bind_ok] at h
  obtain ⟨el, h1, ty, h2, mi, h3, params, h4, rows, h5, f, h6, h7⟩ := h
  obtain ⟨f', h6', hnear⟩ := hf el (pyGet_mem h1) ty (pyGet_one.1 h2) f h6
  have hw : ∀ r ∈ rows.map (List.drop 1), r.length = 2 := by
    intro r hr
    obtain ⟨q, hq, rfl⟩ := List.mem_map.1 hr
    have h5' := mapM_ok.1 h5
    obtain ⟨i, hi, rfl⟩ := List.mem_iff_getElem.1 hq
    have := h5'.get (i := i) (by rw [h5'.length_eq]; exact hi) hi
    have := hn _ (pyGet_mem this)
    rw [List.length_drop]
    simp only [List.get_eq_getElem] at this
    omega
  obtain ⟨kl', ml', h7', hk, hm⟩ := hnear _ params kl ml hw h7
  refine ⟨kl', ml', ?_, hk, hm⟩
  rw [h1, ok_bind, h2, ok_bind, h3, ok_bind, h4, ok_bind, h5, ok_bind]
  dsimp only
  rw [h6', ok_bind, h7']

/-! ## The assembled matrix -/

/-- The sizes of the entries collected at the place `i j`. -/
def placeSum (ts : List (Triplet K)) (i j : ℕ) : K :=
  ((ts.filter fun t => decide (t.row = (i : ℤ) ∧ t.col = (j : ℤ))).map fun t => |t.stiff|).sum

theorem placeSum_nonneg (ts : List (Triplet K)) (i j : ℕ) : 0 ≤ placeSum ts i j :=
  List.sum_nonneg (by
    intro x hx
    obtain ⟨t, -, rfl⟩ := List.mem_map.1 hx
    exact abs_nonneg _)

theorem abs_stiff_sum (F : List (Triplet K)) : |(F.map fun t => t.stiff).sum| ≤ (F.map fun t => |t.stiff|).sum := by
  induction F with
  | nil => simp
  | cons t F ih =>
    simp only [List.map_cons, List.sum_cons]
    exact (abs_add_le _ _).trans (by linarith)

theorem forall₂_filter {γ : K} {ts ts' : List (Triplet K)} (h : List.Forall₂ (TriNear γ) ts ts') (i j : ℕ) :
    List.Forall₂ (TriNear γ) (ts.filter fun t => decide (t.row = (i : ℤ) ∧ t.col = (j : ℤ)))
      (ts'.filter fun t => decide (t.row = (i : ℤ) ∧ t.col = (j : ℤ))) := by
  induction h with
  | nil => exact .nil
  | @cons t t' ts ts' ht _ ih =>
    rw [List.filter_cons, List.filter_cons, ht.1, ht.2.1]
    split
    · exact .cons ht ih
    · exact ih

theorem near_sums {γ : K} {ts ts' : List (Triplet K)} (h : List.Forall₂ (TriNear γ) ts ts') :
    |(ts'.map fun t => t.stiff).sum - (ts.map fun t => t.stiff).sum| ≤ γ * (ts.map fun t => |t.stiff|).sum ∧
    (ts'.map fun t => |t.stiff|).sum ≤ (1 + γ) * (ts.map fun t => |t.stiff|).sum := by
  induction h with
  | nil => simp
  | @cons t t' ts ts' ht _ ih =>
    simp only [List.map_cons, List.sum_cons]
    constructor
    · rw [show t'.stiff + (ts'.map fun t => t.stiff).sum - (t.stiff + (ts.map fun t => t.stiff).sum) =
        (t'.stiff - t.stiff) + ((ts'.map fun t => t.stiff).sum - (ts.map fun t => t.stiff).sum) by ring]
      refine (abs_add_le _ _).trans ?_
      linarith [ht.2.2, ih.1]
    · have h1 := abs_add_le t.stiff (t'.stiff - t.stiff)
      rw [add_sub_cancel] at h1
      linarith [ht.2.2, ih.2]

theorem place_near {u γ : K} (hu : 0 ≤ u) {ts ts' : List (Triplet K)} (h : List.Forall₂ (TriNear γ) ts ts') {N : ℕ}
    (hN : ts.length ≤ N) (i j : ℕ) {s : K}
    (hs : RoundedSum u ((ts'.filter fun t => decide (t.row = (i : ℤ) ∧ t.col = (j : ℤ))).map fun t => t.stiff) s) :
    |s - ((ts.filter fun t => decide (t.row = (i : ℤ) ∧ t.col = (j : ℤ))).map fun t => t.stiff).sum| ≤
      ((1 + u) ^ N * (1 + γ) - 1) * placeSum ts i j := by
  have hf := forall₂_filter h i j
  obtain ⟨n1, n2⟩ := near_sums hf
  have h1 := RoundedSum.near hu hs
  have hP := placeSum_nonneg ts i j
  unfold placeSum at hP ⊢
  set F := ts.filter fun t => decide (t.row = (i : ℤ) ∧ t.col = (j : ℤ)) with hF
  set F' := ts'.filter fun t => decide (t.row = (i : ℤ) ∧ t.col = (j : ℤ)) with hF'
  rw [List.map_map, List.length_map] at h1
  have e : ((fun x => |x|) ∘ fun t : Triplet K => t.stiff) = fun t => |t.stiff| := rfl
  rw [e] at h1
  have hl : F'.length ≤ N := by
    rw [← hf.length_eq]
    exact (List.length_filter_le _ _).trans hN
  have hp : (1 + u) ^ F'.length - 1 ≤ (1 + u) ^ N - 1 := sub_le_sub_right (pow_le_pow_right₀ (by linarith) hl) 1
  have hp0 : 0 ≤ (1 + u) ^ N - 1 := sub_nonneg.2 (one_le_pow₀ (by linarith))
  set P := (F.map fun t => |t.stiff|).sum with hPdef
  have hP' : 0 ≤ (F'.map fun t => |t.stiff|).sum := List.sum_nonneg (by
    intro x hx
    obtain ⟨t, -, rfl⟩ := List.mem_map.1 hx
    exact abs_nonneg _)
  have h2 : |s - (F'.map fun t => t.stiff).sum| ≤ ((1 + u) ^ N - 1) * ((1 + γ) * P) :=
    h1.trans ((mul_le_mul_of_nonneg_right hp hP').trans (mul_le_mul_of_nonneg_left n2 hp0))
  have h3 := abs_add_le (s - (F'.map fun t => t.stiff).sum) ((F'.map fun t => t.stiff).sum - (F.map fun t => t.stiff).sum)
  rw [sub_add_sub_cancel] at h3
  refine h3.trans ?_
  calc _ ≤ ((1 + u) ^ N - 1) * ((1 + γ) * P) + γ * P := add_le_add h2 n1
    _ = _ := by ring

/-- C165.  The sparse assembly with rounding: whenever the exact one returns, so does the rounding one, and every entry is off by at most
`(1 + u) ^ (N nels) (1 + γ) - 1` times a number `S i j` of the exact assembly (the sum of the sizes of the element entries that meet
there); `N` bounds the number of entries of an element. -/
theorem C165_assembly {ef : ℤ → Py (Uel K)} {els : List (List ℤ)} {mats nodes : Table K} {neq : ℕ} {op : List (List ℤ)}
    {Kg Mg : Matrix (Fin neq) (Fin neq) K} (hn : ∀ r ∈ nodes, r.length = 3)
    (h : sparseAssem ef els mats nodes neq op none = .ok (Kg, Mg)) {N : ℕ}
    (hN : ∀ e kl ml, retriever ef els mats nodes e none = .ok (kl, ml) → kl.shape0 * kl.shape0 ≤ N) :
    ∃ S : Fin neq → Fin neq → K, (∀ i j, |Kg i j| ≤ S i j) ∧
      ∀ (u γ : K) (sum : List K → K) (ef' : ℤ → Py (Uel K)), 0 ≤ u → 0 ≤ γ → (∀ xs, RoundedSum u xs (sum xs)) → RoutinesNear γ els ef ef' →
        ∃ Kg' Mg', Rounded.sparseAssem sum ef' els mats nodes neq op = .ok (Kg', Mg') ∧
          ∀ i j, |Kg' i j - Kg i j| ≤ ((1 + u) ^ (N * els.length) * (1 + γ) - 1) * S i j := by
  unfold sparseAssem at h
  rw [bind_ok] at h
  obtain ⟨ts, hts, h⟩ := h
  simp only [bind_ok, pure_ok, Prod.mk.injEq] at h
  obtain ⟨k, hk, m, hm, rfl, rfl⟩ := h
  have hlen : ts.length ≤ N * els.length := by
    have := foldlM_length (k := N) (fun e _ x x' hx => ?_) hts
    · simpa using this
    · simp only [bind_ok] at hx
      obtain ⟨⟨kl, ml⟩, hr, o, _, hx⟩ := hx
      exact (sparseElem_length hx).trans (Nat.add_le_add_left (hN e kl ml hr) _)
  have hin : ∀ t ∈ ts, InC neq t.row ∧ InC neq t.col := by
    by_contra hc
    rw [coo_error (by
      intro h'
      exact hc fun t ht => h' _ (List.mem_map.2 ⟨t, ht, rfl⟩))] at hk
    cases hk
  rw [coo_ok (by
    intro t ht
    obtain ⟨t', ht', rfl⟩ := List.mem_map.1 ht
    exact hin t' ht'), Except.ok.injEq] at hk
  have hkij : ∀ i j, k i j = ((ts.filter fun t => decide (t.row = ((i : ℕ) : ℤ) ∧ t.col = ((j : ℕ) : ℤ))).map fun t => t.stiff).sum := by
    intro i j
    rw [← hk, Matrix.of_apply, List.map_map, sum_filter_map]
    rfl
  refine ⟨fun i j => placeSum ts i j, fun i j => ?_, fun u γ sum ef' hu hγ hsum hf => ?_⟩
  · rw [hkij]
    unfold placeSum
    exact abs_stiff_sum _
  obtain ⟨ts', hts', hR⟩ := foldlM_rel (List.Forall₂ (TriNear γ)) (l := List.range els.length)
    (g := fun acc ele => do
      let (kloc, mloc) ← retriever ef' els mats nodes ele none
      let op ← pyGet op ele
      sparseElem op kloc mloc acc) (fun e _ x y x' hxy hx => by
    simp only [bind_ok] at hx
    obtain ⟨⟨kl, ml⟩, hr, o, ho, hx⟩ := hx
    obtain ⟨kl', ml', hr', hk', hm'⟩ := retriever_near hn hf hr
    obtain ⟨ts', h1, h2⟩ := sparseElem_near hk' hm' hxy hx
    exact ⟨ts', by rw [hr', ok_bind]; dsimp only; rw [ho, ok_bind, h1], h2⟩) .nil hts
  have hin' : ∀ t ∈ ts', InC neq t.row ∧ InC neq t.col := by
    intro t' ht'
    obtain ⟨i, hi, rfl⟩ := List.mem_iff_getElem.1 ht'
    have := hR.get (i := i) (by rw [hR.length_eq]; exact hi) hi
    simp only [List.get_eq_getElem] at this
    rw [this.1, this.2.1]
    exact hin _ (List.getElem_mem _)
  have hcoo : ∀ f : Triplet K → K, Rounded.cooMatrix sum neq neq (ts'.map fun t => (t.row, t.col, f t)) = .ok (Matrix.of fun i j =>
      sum ((ts'.filter fun t => decide (t.row = ((i : ℕ) : ℤ) ∧ t.col = ((j : ℕ) : ℤ))).map f)) := by
    intro f
    unfold Rounded.cooMatrix
    rw [if_pos]
    · congr 2
      funext i j
      rw [List.filter_map, List.map_map]
      rfl
    · rw [List.all_eq_true]
      intro t ht
      obtain ⟨t', ht', rfl⟩ := List.mem_map.1 ht
      have := hin' t' ht'
      unfold InC at this
      simp only [decide_eq_true_eq]
      omega
  refine ⟨Matrix.of fun i j => sum ((ts'.filter fun t => decide (t.row = ((i : ℕ) : ℤ) ∧ t.col = ((j : ℕ) : ℤ))).map fun t => t.stiff),
    Matrix.of fun i j => sum ((ts'.filter fun t => decide (t.row = ((i : ℕ) : ℤ) ∧ t.col = ((j : ℕ) : ℤ))).map fun t => t.mass),
    ?_, fun i j => ?_⟩
  · unfold Rounded.sparseAssem
    rw [hts', ok_bind, hcoo fun t => t.stiff, ok_bind, hcoo fun t => t.mass, ok_bind]
    rfl
  · rw [hkij]
    exact place_near hu hR hlen i j (hsum _)

/-! ## Changed systems -/

/-- A bound of the error made by changing the coefficients of a system by at most `δ`. -/
theorem changed_bound {n : ℕ} {A : Matrix (Fin n) (Fin n) K} [FloorRing K] (hA : A.det ≠ 0) :
    ∃ κ : K, 0 ≤ κ ∧ ∀ (δ : K) (E : Matrix (Fin n) (Fin n) K) (x x₀ : Fin n → K) (B : K), 0 ≤ δ → κ * δ < 1 →
      (∀ i j, |E i j| ≤ δ) → (A + E).mulVec x = A.mulVec x₀ → (∀ i, |x₀ i| ≤ B) →
      ∀ i, |x i - x₀ i| ≤ κ * δ / (1 - κ * δ) * B := by
  obtain ⟨κ, hκ, hb⟩ := perturbed_bound hA
  set S : K := ∑ k, ∑ l, |A k l| with hS
  have hS0 : 0 ≤ S := Finset.sum_nonneg fun _ _ => Finset.sum_nonneg fun _ _ => abs_nonneg _
  refine ⟨κ / S, div_nonneg hκ hS0, fun δ E x x₀ B hδ hlt hE hx hB i => ?_⟩
  have hS1 : S ≠ 0 := by
    intro h0
    apply hA
    have hz : ∀ a b, A a b = 0 := by
      intro a b
      have h1 := (Finset.sum_eq_zero_iff_of_nonneg (fun k _ => Finset.sum_nonneg fun _ _ => abs_nonneg _)).1 h0 a (Finset.mem_univ a)
      have h2 := (Finset.sum_eq_zero_iff_of_nonneg (fun _ _ => abs_nonneg _)).1 h1 b (Finset.mem_univ b)
      exact abs_eq_zero.1 h2
    exact Matrix.det_eq_zero_of_row_eq_zero i (hz i)
  have e : κ / S * δ = κ * (δ / S) := by ring
  rw [e] at hlt ⊢
  exact hb (δ / S) E x x₀ B (div_nonneg hδ hS0) hlt (fun a b => by rw [div_mul_cancel₀ _ hS1]; exact hE a b) hx hB i

/-! ## The displacements -/

section run
variable [FloorRing K] {sq : K → K} {d : Gui.Data K} {ms : List (Member K)}

theorem displacements_ok {sum : List K → K} {ef : ℤ → Py (Uel K)} {sp : Sol.Solver K} {tab : Table K}
    {op bc : List (List ℤ)} {neq : ℕ} {Kg Mg : Matrix (Fin neq) (Fin neq) K} {rhs x : Fin neq → K}
    (h1 : dme d.cons d.elements = .ok (op, bc, neq)) (h2 : Rounded.sparseAssem sum ef d.elements d.mats d.nodes neq op = .ok (Kg, Mg))
    (h3 : loadasem d.loads bc neq = .ok rhs) (h4 : sp neq Kg rhs = .ok x) (h5 : Post.completeDisp bc d.nodes.length x = .ok tab) :
    Rounded.displacements sum ef sp d = .ok tab := by
  unfold Rounded.displacements
  rw [h1, ok_bind]
  dsimp only
  rw [h2, ok_bind]
  dsimp only
  rw [h3, ok_bind, h4, ok_bind, h5]

/-- C165.  The whole run, for any element routines computed up to the relative error `γ`: for a stable model there is a number `κ` such
that with the unit `u` of the additions, the unit `η` of the solver and `θ = Γ + η (1 + Γ)`, `Γ = (1 + u) ^ (N nels) (1 + γ) - 1`, the
run returns as soon as `κ θ < 1`, and its displacements are off by at most `κ θ / (1 - κ θ)` times the largest exact one. -/
theorem C165_run (hp : PlaneModel d) (hwf : WellFormed d) (hms : Members sq d ms) (hst : Stable d.cons 2 ms) {N : ℕ}
    (hN : ∀ e kl ml, retriever (Uel.eleFun sq) d.elements d.mats d.nodes e none = .ok (kl, ml) → kl.shape0 * kl.shape0 ≤ N) :
    ∃ κ : K, 0 ≤ κ ∧ ∀ (u γ η Γ θ : K) (sum : List K → K) (ef : ℤ → Py (Uel K)) (sp : Sol.Solver K) (L : Table K) (V : ℕ → ℕ → K) (B : K),
      0 ≤ u → 0 ≤ γ → 0 ≤ η → Γ = (1 + u) ^ (N * d.elements.length) * (1 + γ) - 1 → θ = Γ + η * (1 + Γ) → κ * θ < 1 →
      (∀ xs, RoundedSum u xs (sum xs)) → RoutinesNear γ d.elements (Uel.eleFun sq) ef → BackwardStable η sp →
      (∀ l ∈ L, 3 ≤ l.length ∧ ∃ p, Names d.nodes.length l p) → Equilibrium d.cons 2 L ms V →
      (∀ p j, p < d.nodes.length → j < 2 → |V p j| ≤ B) →
      ∃ tab, Rounded.displacements sum ef sp { d with loads := L } = .ok tab ∧
        ∀ p j, p < d.nodes.length → j < 2 → |fieldOf tab p j - V p j| ≤ κ * θ / (1 - κ * θ) * B := by
  obtain ⟨op, bc, neq, Kg, Mg, h1, h2⟩ := plane_assembly hp hwf hms
  obtain ⟨ms', s⟩ := auto_setup h1 h2 hwf.codes hwf.width hwf.size
  obtain rfl := members_unique hms s.mem
  have hdet := det_ne_zero_of_stable s hst
  have h2' : sparseAssem (Uel.eleFun sq) d.elements d.mats d.nodes neq op none = .ok (Kg, Mg) := h2
  obtain ⟨S, hS, hass⟩ := C165_assembly hp.nodes h2' hN
  obtain ⟨κ, hκ, hb⟩ := changed_bound hdet
  set T : K := ∑ i, ∑ j, S i j with hT
  have hS0 : ∀ i j, 0 ≤ S i j := fun i j => (abs_nonneg _).trans (hS i j)
  have hT0 : 0 ≤ T := Finset.sum_nonneg fun _ _ => Finset.sum_nonneg fun _ _ => hS0 _ _
  have hST : ∀ i j, S i j ≤ T := fun i j =>
    (Finset.single_le_sum (f := fun j => S i j) (fun _ _ => hS0 _ _) (Finset.mem_univ j)).trans
      (Finset.single_le_sum (f := fun i => ∑ j, S i j) (fun _ _ => Finset.sum_nonneg fun _ _ => hS0 _ _) (Finset.mem_univ i))
  refine ⟨κ * T, mul_nonneg hκ hT0, fun u γ η Γ θ sum ef sp L V B hu hγ hη hΓ hθ hlt hsum hef hsp hL hV hB => ?_⟩
  obtain ⟨Kg', Mg', ha', hnear⟩ := hass u γ sum ef hu hγ hsum hef
  rw [← hΓ] at hnear
  have hΓ0 : 0 ≤ Γ := by
    have h1 : 1 ≤ (1 + u) ^ (N * d.elements.length) := one_le_pow₀ (by linarith)
    rw [hΓ]
    nlinarith
  have hθ0 : 0 ≤ θ := by rw [hθ]; positivity
  have hΓθ : Γ ≤ θ := by rw [hθ]; nlinarith [mul_nonneg hη (by linarith : 0 ≤ 1 + Γ)]
  have e1 : κ * T * θ = κ * (θ * T) := by ring
  rw [e1] at hlt ⊢
  have hΓT : ∀ i j, |(Kg' - Kg) i j| ≤ Γ * T := fun i j => (hnear i j).trans (mul_le_mul_of_nonneg_left (hST i j) hΓ0)
  -- the rounded matrix is not singular
  have hdet' : Kg'.det ≠ 0 := by
    intro h0
    obtain ⟨v, hv, hv0⟩ := Matrix.exists_mulVec_eq_zero_iff.2 h0
    apply hv
    funext i
    have := hb (θ * T) (Kg' - Kg) v 0 0 (mul_nonneg hθ0 hT0) hlt
      (fun a b => (hΓT a b).trans (mul_le_mul_of_nonneg_right hΓθ hT0)) (by rw [add_sub_cancel, hv0, Matrix.mulVec_zero])
      (fun i => by simp) i
    rw [mul_zero] at this
    simpa using this
  obtain ⟨rhs, h3⟩ := C13_load_success (loads := L) s.eq hwf.codes (by rw [hwf.size]; exact hL)
  obtain ⟨x, E, h4, hE1, hE2⟩ := hsp neq Kg' rhs hdet'
  obtain ⟨full, h6, _⟩ := C15_constrained_zero s.eq hwf.codes x
  have hc := completes_of_completeDisp h6
  rw [hwf.size] at h6
  refine ⟨full, displacements_ok (d := { d with loads := L }) h1 ha' h3 h4 h6, fun p j hp hj => ?_⟩
  obtain ⟨v, hv⟩ := exists_reduced s.eq s.valid hV.1
  have hsol := (equilibrium_iff s h3 hv).1 hV
  have hvB : ∀ i, |v i| ≤ B := by
    intro i
    obtain ⟨p, j, hf, hr⟩ := exists_free s.eq i.2
    have hi : DofEq bc neq p j i := ⟨i, by rw [(free_entry s.eq hf).1, hr], by omega, i.2, Or.inl rfl⟩
    rw [← (hv p (free_lt hf) j hf.1).1 i hi]
    exact hB p j (by rw [← hwf.size]; exact free_lt hf) hf.1
  have hsumK : ∑ k, ∑ l, |Kg' k l| ≤ (1 + Γ) * T := by
    rw [hT, Finset.mul_sum]
    refine Finset.sum_le_sum fun a _ => ?_
    rw [Finset.mul_sum]
    refine Finset.sum_le_sum fun b _ => ?_
    have h1 := abs_add_le (Kg a b) (Kg' a b - Kg a b)
    rw [add_sub_cancel] at h1
    linarith [hS a b, hnear a b]
  have hbound : ∀ a b, |(Kg' - Kg + E) a b| ≤ θ * T := by
    intro a b
    rw [Matrix.add_apply]
    refine (abs_add_le _ _).trans ?_
    have := (hE2 a b).trans (mul_le_mul_of_nonneg_left hsumK hη)
    calc _ ≤ Γ * T + η * ((1 + Γ) * T) := add_le_add (hΓT a b) this
      _ = θ * T := by rw [hθ]; ring
  have hfin := hb (θ * T) (Kg' - Kg + E) x v B (mul_nonneg hθ0 hT0) hlt hbound
    (by rw [← add_assoc, add_sub_cancel, hE1, hsol]) hvB
  have hB0 := (abs_nonneg _).trans (hB p j hp hj)
  rw [← hwf.size] at hp
  rcases free_or_fixed s.eq s.valid hp hj with ⟨_, i, hi, _⟩ | ⟨_, _, hno⟩
  · rw [(hc p hp j hj).1 i hi, (hv p hp j hj).1 i hi]
    exact hfin i
  · rw [(hc p hp j hj).2 hno, (hv p hp j hj).2 hno, sub_self, abs_zero]
    exact mul_nonneg (div_nonneg (mul_nonneg hκ (mul_nonneg hθ0 hT0)) (by linarith)) hB0

/-- C165.  Trusses: for a stable truss there is a number `κ` such that a run with rounding unit `u` in all its operations and a backward
stable solver with unit `η` returns displacements within `κ θ / (1 - κ θ)` times the largest exact one, where `θ = Γ + η (1 + Γ)` and
`Γ = (1 + u) ^ (16 nels) / (1 - u) ^ 31 - 1`, as soon as `κ θ < 1`. -/
theorem C165_truss (hs : SqrtFn sq) (hp : PlaneModel d) (hwf : WellFormed d) (hms : Members sq d ms) (hst : Stable d.cons 2 ms)
    (hbars : ∀ el ∈ d.elements, el[1]? = some 6) :
    ∃ κ : K, 0 ≤ κ ∧ ∀ (u η Γ θ : K) (ar : Rounded.Arith K) (others : ℤ → Py (Uel K)) (sp : Sol.Solver K) (L : Table K) (V : ℕ → ℕ → K) (B : K),
      0 ≤ u → u < 1 → 0 ≤ η → Γ = (1 + u) ^ (16 * d.elements.length) / (1 - u) ^ 31 - 1 → θ = Γ + η * (1 + Γ) → κ * θ < 1 →
      RoundsTo sq u ar → BackwardStable η sp →
      (∀ l ∈ L, 3 ≤ l.length ∧ ∃ p, Names d.nodes.length l p) → Equilibrium d.cons 2 L ms V →
      (∀ p j, p < d.nodes.length → j < 2 → |V p j| ≤ B) →
      ∃ tab, Rounded.displacements ar.sum (Rounded.eleFun ar others) sp { d with loads := L } = .ok tab ∧
        ∀ p j, p < d.nodes.length → j < 2 → |fieldOf tab p j - V p j| ≤ κ * θ / (1 - κ * θ) * B := by
  have hN : ∀ e kl ml, retriever (Uel.eleFun sq) d.elements d.mats d.nodes e none = .ok (kl, ml) → kl.shape0 * kl.shape0 ≤ 16 := by
    intro e kl ml h
    unfold retriever at h
    simp only [bind_ok] at h
    obtain ⟨el, h1, ty, h2, mi, h3, params, h4, rows, h5, f, h6, h7⟩ := h
    have ht := hbars el (pyGet_mem h1)
    rw [pyGet_one.1 h2, Option.some.injEq] at ht
    subst ht
    obtain rfl : Uel.truss2D sq = f := by simpa [Uel.eleFun] using h6
    obtain ⟨⟨M, rfl⟩, _⟩ := truss_mat h7
    exact le_of_eq rfl
  obtain ⟨κ, hκ, hrun⟩ := C165_run hp hwf hms hst hN
  refine ⟨κ, hκ, fun u η Γ θ ar others sp L V B hu hu1 hη hΓ hθ hlt har hsp hL hV hB => ?_⟩
  have hpow := pow_unit hu hu1 31
  refine hrun u (1 / (1 - u) ^ 31 - 1) η Γ θ ar.sum (Rounded.eleFun ar others) sp L V B hu ?_ hη ?_ hθ hlt har.sum ?_ hsp hL hV hB
  · rw [sub_nonneg, le_div_iff₀ hpow.1, one_mul]
    exact hpow.2
  · rw [hΓ]; ring
  · intro el hel ty hty f hf
    rw [hbars el hel, Option.some.injEq] at hty
    subst hty
    obtain rfl : Uel.truss2D sq = f := by simpa [Uel.eleFun] using hf
    exact ⟨_, by simp [Rounded.eleFun], C165_bar hu hu1 har hs⟩

theorem pow_le_linear {x : K} (h0 : 0 ≤ x) (h1 : x ≤ 1) (n : ℕ) : (1 + x) ^ n ≤ 1 + 2 ^ n * x := by
  suffices h : (1 + x) ^ n ≤ 1 + (2 ^ n - 1) * x by linarith
  induction n with
  | zero => simp
  | succ n ih =>
    have hp : (1 : K) ≤ 2 ^ n := one_le_pow₀ (by norm_num)
    have h2 := mul_le_mul_of_nonneg_right ih (by linarith : (0 : K) ≤ 1 + x)
    have h3 : 0 ≤ (2 ^ n - 1) * (x * (1 - x)) := mul_nonneg (by linarith) (mul_nonneg h0 (by linarith))
    rw [pow_succ, pow_succ]
    linarith

/-- C165.  To first order: for a stable truss there are numbers `C` and `u₀ > 0` such that with units of at most `u₀` the run returns and
its displacements are off by at most `C (u + η)` times the largest exact one.  So the results converge to the exact ones as the precision
grows. -/
theorem C165_first_order (hs : SqrtFn sq) (hp : PlaneModel d) (hwf : WellFormed d) (hms : Members sq d ms) (hst : Stable d.cons 2 ms)
    (hbars : ∀ el ∈ d.elements, el[1]? = some 6) :
    ∃ C u₀ : K, 0 ≤ C ∧ 0 < u₀ ∧ ∀ (u η : K) (ar : Rounded.Arith K) (others : ℤ → Py (Uel K)) (sp : Sol.Solver K) (L : Table K)
      (V : ℕ → ℕ → K) (B : K), 0 ≤ u → u ≤ u₀ → 0 ≤ η → η ≤ u₀ → RoundsTo sq u ar → BackwardStable η sp →
      (∀ l ∈ L, 3 ≤ l.length ∧ ∃ p, Names d.nodes.length l p) → Equilibrium d.cons 2 L ms V →
      (∀ p j, p < d.nodes.length → j < 2 → |V p j| ≤ B) →
      ∃ tab, Rounded.displacements ar.sum (Rounded.eleFun ar others) sp { d with loads := L } = .ok tab ∧
        ∀ p j, p < d.nodes.length → j < 2 → |fieldOf tab p j - V p j| ≤ C * (u + η) * B := by
  obtain ⟨κ, hκ, hrun⟩ := C165_truss hs hp hwf hms hst hbars
  set n := 16 * d.elements.length with hn
  set c : K := 2 ^ (n + 31) * 2 with hc
  have hc1 : 2 ≤ c := by
    have : (1 : K) ≤ 2 ^ (n + 31) := one_le_pow₀ (by norm_num)
    rw [hc]
    linarith
  have hden : 0 < 4 * (κ + 1) * (1 + c) := by positivity
  refine ⟨2 * κ * (1 + c), 1 / (4 * (κ + 1) * (1 + c)), by positivity, by positivity,
    fun u η ar others sp L V B hu hu1 hη hη1 har hsp hL hV hB => ?_⟩
  have hsmall : 1 / (4 * (κ + 1) * (1 + c)) ≤ 1 / 12 := by
    rw [div_le_div_iff₀ hden (by norm_num)]
    nlinarith
  have hu12 : u ≤ 1 / 12 := hu1.trans hsmall
  have hu' : 2 * u ≤ 1 := by linarith
  set Γ : K := (1 + u) ^ n / (1 - u) ^ 31 - 1 with hΓ
  have hpos : 0 < 1 - u := by linarith
  have hpow : (1 + u) ^ n / (1 - u) ^ 31 ≤ (1 + 2 * u) ^ (n + 31) := by
    rw [pow_add, div_le_iff₀ (pow_pos hpos 31), mul_assoc, ← mul_pow]
    have h1 : (1 + u) ^ n ≤ (1 + 2 * u) ^ n := pow_le_pow_left₀ (by linarith) (by linarith) n
    have h2 : 1 ≤ ((1 + 2 * u) * (1 - u)) ^ 31 := one_le_pow₀ (by nlinarith)
    have h3 : 0 ≤ (1 + 2 * u) ^ n := by positivity
    nlinarith
  have hΓc : Γ ≤ c * u := by
    have := pow_le_linear (by linarith : 0 ≤ 2 * u) hu' (n + 31)
    rw [hΓ, hc]
    linarith
  have hΓ0 : 0 ≤ Γ := by
    rw [hΓ, sub_nonneg, le_div_iff₀ (pow_pos hpos 31), one_mul]
    exact (pow_le_one₀ hpos.le (by linarith)).trans (one_le_pow₀ (by linarith))
  set θ : K := Γ + η * (1 + Γ) with hθ
  have hθc : θ ≤ (1 + c) * (u + η) := by
    have h1 : η * Γ ≤ η * (c * u) := mul_le_mul_of_nonneg_left hΓc hη
    have h2 : η * (c * u) ≤ η * c := by
      have : c * u ≤ c := by nlinarith
      exact mul_le_mul_of_nonneg_left this hη
    rw [hθ]
    nlinarith
  have hθ0 : 0 ≤ θ := by rw [hθ]; positivity
  have hκθ : κ * θ ≤ 1 / 2 := by
    have h1 : u + η ≤ 2 * (1 / (4 * (κ + 1) * (1 + c))) := by linarith
    have h2 : (1 + c) * (u + η) ≤ (1 + c) * (2 * (1 / (4 * (κ + 1) * (1 + c)))) := mul_le_mul_of_nonneg_left h1 (by linarith)
    have h3 : (1 + c) * (2 * (1 / (4 * (κ + 1) * (1 + c)))) = 1 / (2 * (κ + 1)) := by
      have : κ + 1 ≠ 0 := by linarith
      have : 1 + c ≠ 0 := by linarith
      field_simp
      norm_num
    have h4 : κ * θ ≤ κ * (1 / (2 * (κ + 1))) := mul_le_mul_of_nonneg_left (hθc.trans (h2.trans h3.le)) hκ
    refine h4.trans ?_
    rw [mul_one_div, div_le_div_iff₀ (by linarith) (by norm_num)]
    linarith
  obtain ⟨tab, h1, h2⟩ := hrun u η Γ θ ar others sp L V B hu (by linarith) hη hΓ hθ (by linarith) har hsp hL hV hB
  refine ⟨tab, h1, fun p j hp hj => (h2 p j hp hj).trans ?_⟩
  have hB0 := (abs_nonneg _).trans (hB p j hp hj)
  refine mul_le_mul_of_nonneg_right ?_ hB0
  rw [div_le_iff₀ (by linarith)]
  have h5 : κ * θ ≤ κ * ((1 + c) * (u + η)) := mul_le_mul_of_nonneg_left hθc hκ
  have h6 : 0 ≤ κ * ((1 + c) * (u + η)) := mul_nonneg hκ (by positivity)
  nlinarith

/-! ## No rounding -/

omit [FloorRing K] in
/-- The sum of the library without rounding. -/
theorem roundedSum_exact (xs : List K) : RoundedSum 0 xs xs.sum := by
  induction xs with
  | nil => exact .nil
  | cons x xs ih =>
    rcases xs with _ | ⟨y, ys⟩
    · simpa using RoundedSum.single (u := (0 : K)) x
    · exact .node (xs := [x]) (by simp) (by simp) (.single x) ih (by simp)

omit [FloorRing K] in
/-- C165.  Exact operations are operations of unit zero. -/
theorem C165_unit_zero (sq : K → K) : RoundsTo sq 0 (Rounded.Arith.exact sq) :=
  ⟨fun a b => by simp [Rounded.Arith.exact], fun a b => by simp [Rounded.Arith.exact], fun a b _ => by simp [Rounded.Arith.exact],
    fun a _ => by simp [Rounded.Arith.exact], roundedSum_exact⟩

omit [FloorRing K] in
/-- C165.  With exact operations the rounding bar is the bar of the exact model. -/
theorem C165_bar_exact (sq : K → K) : Rounded.truss2D (Rounded.Arith.exact sq) = Uel.truss2D sq := by
  funext coord params
  have hm : ∀ {l m n : ℕ} (A : Matrix (Fin l) (Fin m) K) (B : Matrix (Fin m) (Fin n) K),
      Rounded.matmul (Rounded.Arith.exact sq) A B = A * B := by
    intro l m n A B
    ext i j
    rw [Matrix.mul_apply, ← List.sum_ofFn, List.ofFn_eq_map]
    rfl
  have hg : Rounded.barGeom (Rounded.Arith.exact sq) coord = Uel.barGeom sq coord := by
    unfold Rounded.barGeom Uel.barGeom Uel.barVec
    simp only [bind_assoc, pure_bind]
    rfl
  have hk : ∀ nx ny s, Rounded.trussStiff (Rounded.Arith.exact sq) nx ny s = Uel.trussStiff nx ny s := by
    intro nx ny s
    unfold Rounded.trussStiff Uel.trussStiff
    dsimp only
    rw [hm, hm]
    rfl
  have hmass : ∀ m, Rounded.trussMass (Rounded.Arith.exact sq) m = Uel.trussMass m := fun m => rfl
  unfold Rounded.truss2D Uel.truss2D
  rw [hg]
  simp only [hk, hmass]
  rfl

/-- C165.  Without rounding the run is the one of the exact model. -/
theorem C165_run_exact {sp de : Sol.Solver K} {plot : Bool} {res : Gui.Result K} (h : Gui.solidsAuto sq sp de d plot = .ok res) :
    Rounded.displacements List.sum (Rounded.eleFun (Rounded.Arith.exact sq) (Uel.eleFun sq)) sp d = .ok res.disp := by
  have hef : Rounded.eleFun (Rounded.Arith.exact sq) (Uel.eleFun sq) = Uel.eleFun sq := by
    funext ty
    unfold Rounded.eleFun
    split
    · rename_i h
      rw [h, C165_bar_exact]
      rfl
    · rfl
  rw [hef]
  obtain ⟨op, bc, neq, Kg, Mg, rhs, x, ok, full, plots, h1, h2, h3, h4, h5, h6, h7, rfl⟩ := auto_ok.1 h
  refine displacements_ok h1 (Kg := Kg) (Mg := Mg) ?_ h3 h4 h6
  have h2' : sparseAssem (Uel.eleFun sq) d.elements d.mats d.nodes neq op none = .ok (Kg, Mg) := h2
  rw [← h2']
  have hcoo : ∀ ts : List (ℤ × ℤ × K), Rounded.cooMatrix List.sum neq neq ts = cooMatrix neq neq ts := by
    intro ts
    unfold Rounded.cooMatrix cooMatrix
    split
    · congr 2
      funext i j
      exact sum_filter_map ts (fun t => t.1 = ((i : ℕ) : ℤ) ∧ t.2.1 = ((j : ℕ) : ℤ)) fun t => t.2.2
    · rfl
  unfold Rounded.sparseAssem sparseAssem
  simp only [hcoo]

end run

end

/-! ## A truss computed with operations that round up -/

/-- Every operation too large by the factor `1 + u`. -/
noncomputable def upSum (u : ℝ) : List ℝ → ℝ
  | [] => 0
  | [x] => x
  | x :: y :: xs => (x + upSum u (y :: xs)) * (1 + u)

theorem upSum_rounded {u : ℝ} (hu : 0 ≤ u) : ∀ xs, RoundedSum u xs (upSum u xs)
  | [] => .nil
  | [x] => .single x
  | x :: y :: xs => .node (xs := [x]) (by simp) (by simp) (.single x) (upSum_rounded hu (y :: xs)) (by
      rw [upSum, mul_add, mul_one, add_sub_cancel_left, abs_mul, abs_of_nonneg hu, mul_comm])

noncomputable def upArith (u : ℝ) : Rounded.Arith ℝ :=
  ⟨fun a b => (a - b) * (1 + u), fun a b => a * b * (1 + u), fun a b => a / b * (1 + u), fun a => Real.sqrt a * (1 + u), upSum u⟩

theorem upArith_rounds {u : ℝ} (hu : 0 ≤ u) : RoundsTo Real.sqrt u (upArith u) := by
  have h : ∀ x : ℝ, |x * (1 + u) - x| ≤ u * |x| := fun x => by
    rw [mul_add, mul_one, add_sub_cancel_left, abs_mul, abs_of_nonneg hu, mul_comm]
  exact ⟨fun a b => h _, fun a b => h _, fun a b _ => h _, fun a _ => h _, upSum_rounded hu⟩

/-- A solver whose answers are too small by the factor `1 + η`. -/
noncomputable def lowSolver (η : ℝ) : Sol.Solver ℝ := fun n M b => do
  let x ← cramerR n M b
  pure fun i => x i / (1 + η)

theorem lowSolver_stable {η : ℝ} (hη : 0 ≤ η) : BackwardStable η (lowSolver η) := by
  intro n M b hM
  obtain ⟨x, hx, hb⟩ := cramerR_ok n M b hM
  have h1 : 1 + η ≠ 0 := by linarith
  refine ⟨fun i => x i / (1 + η), η • M, by unfold lowSolver; rw [hx]; rfl, ?_, fun i j => ?_⟩
  · have e : (fun i => x i / (1 + η)) = (1 + η)⁻¹ • x := by funext i; simp [div_eq_inv_mul]
    rw [e, Matrix.mulVec_smul, Matrix.add_mulVec, Matrix.smul_mulVec, hb]
    funext i
    simp only [Pi.smul_apply, Pi.add_apply, smul_eq_mul]
    field_simp
  · rw [Matrix.smul_apply, smul_eq_mul, abs_mul, abs_of_nonneg hη]
    refine mul_le_mul_of_nonneg_left ?_ hη
    exact (Finset.single_le_sum (f := fun j => |M i j|) (fun _ _ => abs_nonneg _) (Finset.mem_univ j)).trans
      (Finset.single_le_sum (f := fun i => ∑ j, |M i j|) (fun _ _ => Finset.sum_nonneg fun _ _ => abs_nonneg _) (Finset.mem_univ i))

/-- A truss of two bars, with rounding in every operation and an inexact solver. -/
example : ∃ C u₀ : ℝ, 0 < u₀ ∧ ∀ u, 0 ≤ u → u ≤ u₀ → ∃ res tab,
    Gui.solidsAuto Real.sqrt cramerR cramerR trussR false = .ok res ∧
    Rounded.displacements (upSum u) (Rounded.eleFun (upArith u) (Uel.eleFun Real.sqrt)) (lowSolver u) trussR = .ok tab ∧
    ∀ p j, p < 3 → j < 2 → |fieldOf tab p j - fieldOf res.disp p j| ≤ C * u := by
  obtain ⟨ms, hms⟩ := truss_members sqrtFn_real trussR_bars
  have hst := trussR_stable hms
  obtain ⟨res, h⟩ := trussR_runs 4 (-6)
  have h' : Gui.solidsAuto Real.sqrt cramerR cramerR trussR false = .ok res := h
  obtain ⟨C, u₀, _, hu₀, hall⟩ := C165_first_order sqrtFn_real trussR_plane trussR_wf hms hst (by simp [trussR])
  set V := fieldOf res.disp with hV
  set B : ℝ := ∑ p ∈ Finset.range 3, ∑ j ∈ Finset.range 2, |V p j| with hBdef
  have hB : ∀ p j, p < 3 → j < 2 → |V p j| ≤ B := fun p j hp hj =>
    (Finset.single_le_sum (f := fun j => |V p j|) (fun _ _ => abs_nonneg _) (Finset.mem_range.2 hj)).trans
      (Finset.single_le_sum (f := fun p => ∑ j ∈ Finset.range 2, |V p j|) (fun _ _ => Finset.sum_nonneg fun _ _ => abs_nonneg _)
        (Finset.mem_range.2 hp))
  refine ⟨C * 2 * B, u₀, hu₀, fun u hu hu1 => ?_⟩
  obtain ⟨tab, h1, h2⟩ := hall u u (upArith u) (Uel.eleFun Real.sqrt) (lowSolver u) trussR.loads V B hu hu1 hu hu1 (upArith_rounds hu)
    (lowSolver_stable hu) (by
      intro l hl
      simp only [trussR, List.mem_singleton] at hl
      subst hl
      exact ⟨by simp, 2, (names_nat (show 2 < trussR.nodes.length by simp [trussR]) rfl).2 rfl⟩)
    (C18_nodal_equilibrium trussR_wf cramerR_ok hms hst h').2 (by simpa [trussR] using hB)
  refine ⟨res, tab, h', h1, fun p j hp hj => (h2 p j (by simpa [trussR] using hp) hj).trans (le_of_eq ?_)⟩
  ring

end SolidsPy
