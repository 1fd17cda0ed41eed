import Verif.Props.Balance

/-! # C93: a well posed plane model is solved -/

set_option linter.unusedSectionVars false

namespace SolidsPy
open Spec Assem Matrix

section
variable {K : Type} [Field K] [LinearOrder K] [IsStrictOrderedRing K] [FloorRing K]
variable {sq : K → K} {sp de : Sol.Solver K} {d : Gui.Data K} {plot : Bool} {res : Gui.Result K}
  {ms : List (Member K)}

theorem resolves_pyGet {α : Type} {l : List α} {i : ℤ} {p : ℕ} {x : α} (h : Resolves l.length i p)
    (hx : l[p]? = some x) : pyGet l i = .ok x := pyGet_resolves.2 ⟨p, h, hx⟩

theorem forall₂_comp {α β γ : Type} {R : α → β → Prop} {S : β → γ → Prop} {T : α → γ → Prop}
    (h : ∀ a b c, R a b → S b c → T a c) {l : List α} {m : List β} {n : List γ}
    (h1 : List.Forall₂ R l m) (h2 : List.Forall₂ S m n) : List.Forall₂ T l n := by
  induction h1 generalizing n with
  | nil => cases h2; exact .nil
  | cons a _ ih =>
    cases h2 with
    | cons b t => exact .cons (h _ _ _ a b) (ih t)

/-- What `retriever` gives for a described element. -/
theorem member_local {mats nodes : Table K} {el : List ℤ} {m : Member K}
    (h : IsMember (Routine sq) mats nodes el m)
    (hty : ∀ ty, el[1]? = some ty → ty ∈ [(1 : ℤ), 2, 3, 4] ∨ (ty = 6 ∧ (el.drop 3).length = 2)) :
    ∃ (n : ℕ) (k' m' : Matrix (Fin (n * 2)) (Fin (n * 2)) K) (ty : ℤ),
      locRow (Uel.eleFun sq) mats nodes none el = .ok (.mat (n * 2) (n * 2) k', .mat (n * 2) (n * 2) m') ∧
      (el.drop 3).length = n ∧ el[1]? = some ty ∧ TypeDofs ty (2 * n) ∧
      ∀ g ∈ el.drop 3, ∃ p, Resolves nodes.length g p := by
  have h0 := h
  obtain ⟨ty, mi, params, rows, f, kl, ml, a1, a2, ⟨q, a3, a4⟩, a5, a6, a7, a8, a9⟩ := h
  have hloc : locRow (Uel.eleFun sq) mats nodes none el = .ok (kl, ml) := by
    unfold locRow retriever
    have e0 : pyGet [el] ((0 : ℕ) : ℤ) = .ok el := pyGet_nat.2 rfl
    have er : pyGetMany nodes (el.drop 3) = .ok rows :=
      mapM_ok.2 (forall₂_comp (S := fun p row => nodes[p]? = some row)
        (T := fun a b => pyGet nodes a = .ok b) (fun _ _ _ r s => resolves_pyGet r s)
        a5 a6)
    rw [e0, ok_bind, pyGet_one.2 a1, ok_bind, pyGet_two.2 a2, ok_bind, resolves_pyGet a3 a4, ok_bind, er,
      ok_bind]
    dsimp only
    rw [a7, ok_bind, a8]
  have hres : ∀ g ∈ el.drop 3, ∃ p, Resolves nodes.length g p := by
    intro g hg
    obtain ⟨i, hi, rfl⟩ := List.mem_iff_getElem.1 hg
    have := a5.get (i := i) hi (by rw [← a5.length_eq]; exact hi)
    exact ⟨_, this⟩
  have hrows := eleFun_rows a7 a8
  have hlen : rows.length = (el.drop 3).length := by rw [a5.length_eq, a6.length_eq]
  rcases hty ty a1 with ht | ⟨rfl, ht⟩
  · obtain ⟨n, hf⟩ := structural_of_type ht a7
    obtain ⟨X, k, mm, hX, ⟨⟨k', rfl⟩, hk⟩, ⟨⟨m', rfl⟩, hm⟩, hr⟩ := C38_plane_shape hf a8
    have hn : rows.length = n := by
      have := congrArg List.length hX
      simpa [matRows] using this
    refine ⟨n, k', m', ty, hloc, by rw [← hlen, hn], a1, ?_, hres⟩
    rw [mul_comm]
    exact hrows
  · have hf : f = Uel.truss2D sq := by
      have := a7
      simp only [Routine, Uel.eleFun, Except.ok.injEq] at this
      exact this.symm
    subst hf
    obtain ⟨⟨k', rfl⟩, ⟨m', rfl⟩⟩ := truss_mat a8
    exact ⟨2, k', m', 6, hloc, ht, a1, hrows, hres⟩

/-- Assembly of a plane model succeeds. -/
theorem plane_assembly (hp : PlaneModel d) (hwf : WellFormed d) (hms : Members sq d ms) :
    ∃ op bc neq Kg Mg, dme d.cons d.elements = .ok (op, bc, neq) ∧
      assembler (Uel.eleFun sq) d.elements d.mats d.nodes neq op = .ok (Kg, Mg) := by
  have hmem : ∀ el ∈ d.elements, ∃ m, IsMember (Routine sq) d.mats d.nodes el m := by
    intro el hel
    obtain ⟨i, hi, rfl⟩ := List.mem_iff_getElem.1 hel
    exact ⟨_, hms.get (i := i) hi (by rw [← hms.length_eq]; exact hi)⟩
  obtain ⟨⟨op, bc, neq⟩, hd⟩ := (C05_dme_accepts_iff (elements := d.elements) hwf.width).2 (by
    intro el hel
    obtain ⟨m, hm⟩ := hmem el hel
    obtain ⟨n, _, _, ty, _, hn, hty, hdof, hres⟩ := member_local hm (hp.types el hel)
    rw [hn, hwf.size]
    exact ⟨ty, hty, hdof, hres⟩)
  have heq := (dme_ok.1 hd).1
  have hsteps : ∀ e < d.elements.length,
      StepOk (InC neq) (Uel.eleFun sq) d.elements d.mats d.nodes op none e := by
    intro e he
    have hel := List.getElem_mem he
    obtain ⟨m, hm⟩ := hmem _ hel
    obtain ⟨n, k', m', ty, hloc, hn, hty, hdof, hres⟩ := member_local hm (hp.types _ hel)
    have hoe : e < op.length := by rw [(C04_operator_row_count hd).1]; exact he
    refine ⟨_, op[e], (retriever_row (List.getElem?_eq_getElem he)).trans hloc,
      List.getElem?_eq_getElem hoe, ?_⟩
    have key : ∀ r < n * 2, ∃ g, (op[e])[r]? = some g ∧ (g = -1 ∨ InC neq g) := by
      intro r hr
      have hk : r / 2 < ((d.elements[e]).drop 3).length := by rw [hn]; omega
      obtain ⟨p, hpr⟩ := hres _ (List.getElem_mem hk)
      rw [← hwf.size] at hpr
      have hg : (d.elements[e])[3 + r / 2]? = some (((d.elements[e]).drop 3)[r / 2]) := by
        rw [← List.getElem?_drop]
        exact List.getElem?_eq_getElem hk
      have hdof0 : 0 < 2 * n := by omega
      have e1 := C04_operator_row_entries hd hwf.width (List.getElem?_eq_getElem he) hty
        (n := 2 * n) hdof hdof0 (by omega) hg hpr (j := r % 2) (Nat.mod_lt _ (by omega))
      rw [Nat.div_add_mod] at e1
      have e2 : entry op e r = (op[e])[r]? := by
        unfold entry
        rw [List.getElem?_eq_getElem hoe]
        rfl
      rw [← e2, e1]
      rcases free_or_fixed heq hwf.codes (p := p) (j := r % 2) hpr.1 (Nat.mod_lt _ (by omega)) with
        ⟨_, i, _, hi⟩ | ⟨_, hi, _⟩
      · refine ⟨_, hi, Or.inr ⟨by omega, ?_⟩⟩
        exact_mod_cast i.2
      · exact ⟨_, hi, Or.inl rfl⟩
    intro r hr
    rw [List.mem_range] at hr
    obtain ⟨gr, h1, h2⟩ := key r hr
    refine ⟨gr, h1, fun hne c hc => ?_⟩
    rw [List.mem_range] at hc
    obtain ⟨gc, h3, h4⟩ := key c hc
    exact ⟨gc, h3, fun hne' => ⟨h2.resolve_left hne, h4.resolve_left hne', ⟨hr, hc⟩, ⟨hr, hc⟩⟩⟩
  exact ⟨op, bc, neq, _, _, hd, sparseAssem_spec.1 hsteps⟩

/-- C93. A plane model whose elements are accepted, whose load rows name existing nodes, which has a free
degree of freedom and is stable, is solved: `solids_auto` returns a result. -/
theorem C93_solids_auto_returns (hp : PlaneModel d) (hwf : WellFormed d) (hsp : SolverOk sp)
    (hms : Members sq d ms) (hst : Stable d.cons 2 ms) (hfree : ∃ p j, Free d.cons 2 p j)
    (hl : ∀ L ∈ d.loads, 3 ≤ L.length ∧ ∃ p, Names d.nodes.length L p) :
    ∃ res, Gui.solidsAuto sq sp de d false = .ok res := by
  obtain ⟨op, bc, neq, Kg, Mg, h1, h2⟩ := plane_assembly hp hwf hms
  have heq := (dme_ok.1 h1).1
  obtain ⟨rhs, h3⟩ := C13_load_success (loads := d.loads) heq hwf.codes (by rw [hwf.size]; exact hl)
  obtain ⟨ms', s⟩ := auto_setup h1 h2 hwf.codes hwf.width hwf.size
  obtain rfl := members_unique hms s.mem
  obtain ⟨x, h4, _⟩ := hsp neq Kg rhs (det_ne_zero_of_stable s hst)
  obtain ⟨full, h6, _⟩ := C15_constrained_zero heq hwf.codes x
  rw [hwf.size] at h6
  have hneq : 0 < neq := by
    obtain ⟨p, j, hf⟩ := hfree
    exact Nat.zero_lt_of_lt (free_entry heq hf).2
  obtain ⟨ok, h5⟩ : ∃ ok, Gui.balanced Kg x rhs = .ok ok := by
    unfold Gui.balanced Gui.matMax
    obtain ⟨n, rfl⟩ : ∃ n, neq = n + 1 := ⟨neq - 1, by omega⟩
    rw [List.finRange_succ]
    simp only [List.flatMap_cons, List.map_cons, List.cons_append, Post.listMax, ok_bind]
    split
    · exact ⟨_, rfl⟩
    · exact ⟨_, rfl⟩
  exact ⟨_, auto_ok.2 ⟨op, bc, neq, Kg, Mg, rhs, x, ok, full, [], h1, h2, h3, h4, h5, h6, rfl, rfl⟩⟩

theorem listMax_le {l : List K} {mx : K} (h : Post.listMax l = .ok mx) : ∀ y ∈ l, y ≤ mx := by
  have fold : ∀ (l : List K) (a : K), a ≤ l.foldl max a ∧ ∀ y ∈ l, y ≤ l.foldl max a := by
    intro l
    induction l with
    | nil => intro a; simp
    | cons b l ih =>
      intro a
      obtain ⟨i2, i3⟩ := ih (max a b)
      rw [List.foldl_cons]
      refine ⟨(le_max_left a b).trans i2, fun y hy => ?_⟩
      rcases List.mem_cons.1 hy with rfl | hy
      · exact (le_max_right a y).trans i2
      · exact i3 y hy
  cases l with
  | nil => simp [Post.listMax] at h
  | cons a l =>
    simp only [Post.listMax, Except.ok.injEq] at h
    obtain ⟨i2, i3⟩ := fold l a
    rw [h] at i2 i3
    intro y hy
    rcases List.mem_cons.1 hy with rfl | hy
    · exact i2
    · exact i3 y hy

/-- A semidefinite matrix whose entries are all at most zero is zero. -/
theorem psd_nonpos {n : ℕ} {M : Matrix (Fin n) (Fin n) K} (hq : ∀ v : Fin n → K, 0 ≤ ∑ i, v i * M.mulVec v i)
    (hm : ∀ i j, M i j ≤ 0) : M = 0 := by
  have hdiag : ∀ i, M i i = 0 := by
    intro i
    have := hq (Pi.single i 1)
    rw [Matrix.mulVec_single_one] at this
    simp [Pi.single_apply] at this
    exact le_antisymm (hm i i) this
  ext i j
  by_cases hij : i = j
  · subst hij
    exact hdiag i
  · have h1 := hq (Pi.single i 1 + Pi.single j 1)
    rw [Matrix.mulVec_add, Matrix.mulVec_single_one, Matrix.mulVec_single_one] at h1
    simp only [Pi.add_apply, Matrix.col_apply, add_mul, Finset.sum_add_distrib] at h1
    simp [Pi.single_apply, hdiag] at h1
    have := hm i j
    have := hm j i
    simp only [Matrix.zero_apply]
    linarith

/-- C93. With an exact solver no equilibrium warning is printed for a stable model with semidefinite
elements. -/
theorem C93_silent (hwf : WellFormed d) (hsp : SolverOk sp) (hms : Members sq d ms)
    (hst : Stable d.cons 2 ms) (hpsd : ∀ m ∈ ms, ∀ u, 0 ≤ m.form 2 u u)
    (h : Gui.solidsAuto sq sp de d plot = .ok res) : res.warned = false := by
  obtain ⟨neq, bc, Kg, Mg, op, ms', hms', s, _, _, rhs, x, ok, h3, h4, h5, hw, hc⟩ := auto_solves hwf h
  obtain rfl := members_unique hms hms'
  obtain ⟨x', hx', hsol⟩ := hsp neq Kg rhs (det_ne_zero_of_stable s hst)
  rw [h4, Except.ok.injEq] at hx'
  subst hx'
  rw [hw]
  unfold Gui.balanced at h5
  rw [bind_ok] at h5
  obtain ⟨mx, hmx, h5⟩ := h5
  have hle : ∀ i j, Kg i j ≤ mx := fun i j => listMax_le hmx _
    (List.mem_flatMap.2 ⟨i, List.mem_finRange i, List.mem_map.2 ⟨j, List.mem_finRange j, rfl⟩⟩)
  have hne : mx ≠ 0 := by
    rintro rfl
    have hK : Kg = 0 := psd_nonpos (fun v => by
      obtain ⟨V, hV⟩ := exists_completes (cons := d.cons) bc 2 v
      rw [reduced_form s hV hV]
      apply List.sum_nonneg
      intro y hy
      obtain ⟨m, hm, rfl⟩ := List.mem_map.1 hy
      exact hpsd m hm V) hle
    cases neq with
    | zero => simp [Gui.matMax, Post.listMax] at hmx
    | succ n => exact det_ne_zero_of_stable s hst (by rw [hK, Matrix.det_zero])
  rw [if_neg hne, pure_ok] at h5
  rw [← h5, hsol]
  simp only [Gui.allclose, Bool.not_eq_false', List.all_eq_true]
  intro i _
  unfold Fem.isclose
  simp only [sub_self, abs_zero, decide_eq_true_eq]
  have := abs_nonneg (rhs i / mx)
  norm_num
  positivity

/-- Material data that make sense: non-negative stiffness, Poisson ratio between -1 and 1, non-negative
density where it is given. -/
def Physical (d : Gui.Data K) : Prop :=
  ∀ el ∈ d.elements, ∀ ty mi q params, el[1]? = some ty → el[2]? = some mi →
    Resolves d.mats.length mi q → d.mats[q]? = some params →
    (ty ≠ 6 → ∃ E nu rest, params = E :: nu :: rest ∧ 0 ≤ E ∧ -1 < nu ∧ nu < 1 ∧
      ∀ ρ ∈ rest.getLast?, 0 ≤ ρ) ∧
    (ty = 6 → ∃ E A rest, params = E :: A :: rest ∧ 0 ≤ E * A)

/-- C93. The elements of a plane model are symmetric, and semidefinite for physical materials. -/
theorem C93_elements (hs : SqrtFn sq) (hp : PlaneModel d) (hms : Members sq d ms) :
    (∀ m ∈ ms, ∀ v u, m.form 2 v u = m.form 2 u v) ∧
      (Physical d → ∀ m ∈ ms, ∀ u, 0 ≤ m.form 2 u u) := by
  have get : ∀ m ∈ ms, ∃ el ∈ d.elements, IsMember (Routine sq) d.mats d.nodes el m := by
    intro m hm
    obtain ⟨i, hi, rfl⟩ := List.mem_iff_getElem.1 hm
    have hi' : i < d.elements.length := by rw [hms.length_eq]; exact hi
    exact ⟨_, List.getElem_mem hi', hms.get (i := i) hi' hi⟩
  constructor
  · intro m hm v u
    obtain ⟨el, hel, hmem⟩ := get m hm
    obtain ⟨ty, mi, q, params, n, f, X, k, mm, -, -, -, -, -, hf, hr, hpl⟩ :=
      member_placed hmem hp.nodes (hp.types _ hel)
    rw [hpl.form, hpl.form, Matrix.dotProduct_mulVec, ← Matrix.mulVec_transpose, (hf.symm hs hr).1.eq,
      dotProduct_comm]
  · intro hphys m hm u
    obtain ⟨el, hel, hmem⟩ := get m hm
    obtain ⟨ty, mi, q, params, n, f, X, k, mm, h1, h2, h3, h4, h5, hf, hr, hpl⟩ :=
      member_placed hmem hp.nodes (hp.types _ hel)
    obtain ⟨p1, p2⟩ := hphys el hel ty mi q params h1 h3 h4 h5
    rw [hpl.form]
    rcases hp.types _ hel ty h1 with ht | ⟨rfl, ht⟩
    · obtain ⟨E, nu, rest, rfl, hE, hn1, hn2, hρ⟩ := p1 (by rintro rfl; simp at ht)
      obtain ⟨n', hf'⟩ := structural_of_type ht h2
      rcases hf with hf | ⟨rfl, rfl⟩
      · exact (C39_plane_semidefinite hf hr hE hn1 hn2 hρ _).1
      · obtain ⟨A, B, hAB, ⟨⟨B', rfl⟩, _⟩, _⟩ := hr
        have := eleFun_rows h2 hAB
        simp only [TypeDofs, rowsOf] at this
        simp only [List.mem_cons, List.not_mem_nil, or_false] at ht
        omega
    · obtain ⟨E, A, rest, rfl, hE⟩ := p2 rfl
      have hfe : f = Uel.truss2D sq := by
        simp only [Uel.eleFun, Except.ok.injEq] at h2
        exact h2.symm
      subst hfe
      have hn : n = 2 := by
        obtain ⟨A, B, hAB, ⟨⟨B', rfl⟩, _⟩, _⟩ := hr
        have := eleFun_rows h2 hAB
        simp only [TypeDofs, rowsOf] at this
        omega
      subst hn
      exact (C51_semidefinite hs hr _).1 hE

/-- C93. A plane model with physical materials is stable exactly when it has no mechanism: no admissible
field other than zero is free of strain energy. -/
theorem C93_stable_iff (hs : SqrtFn sq) (hp : PlaneModel d) (hwf : WellFormed d) (hphys : Physical d)
    (hms : Members sq d ms) :
    Stable d.cons 2 ms ↔ ∀ u : ℕ → ℕ → K, Admissible d.cons 2 u →
      (ms.map fun m => m.form 2 u u).sum = 0 → ∀ p j, p < d.cons.length → j < 2 → u p j = 0 := by
  obtain ⟨hsym, hpsd⟩ := C93_elements hs hp hms
  have hpsd := hpsd hphys
  have hinn := members_inn hms
  rw [← hwf.size] at hinn
  constructor
  · intro hst u ha h0
    refine hst u ha fun p j hf => ?_
    -- the form on the unit field at (p, j)
    let B : (ℕ → ℕ → K) → (ℕ → ℕ → K) → K := fun v w =>
      ∑ p ∈ Finset.range d.cons.length, ∑ j ∈ Finset.range 2, v p j * internal 2 ms w p j
    have hB : ∀ v w, B v w = (ms.map fun m => m.form 2 v w).sum := fun v w => virtual_work hinn v w
    have hBs : ∀ v w, B v w = B w v := by
      intro v w
      rw [hB, hB]
      congr 1
      exact List.map_congr_left fun m hm => hsym m hm v w
    have hBp : ∀ v, 0 ≤ B v v := by
      intro v
      rw [hB]
      apply List.sum_nonneg
      intro y hy
      obtain ⟨m, hm, rfl⟩ := List.mem_map.1 hy
      exact hpsd m hm v
    have hBl : ∀ (t : K) v w, B w (fun p j => 1 * u p j + t * v p j) = B w u + t * B w v := by
      intro t v w
      simp only [B, internal_linear, Finset.mul_sum, ← Finset.sum_add_distrib]
      exact Finset.sum_congr rfl fun p _ => Finset.sum_congr rfl fun j _ => by ring
    let v : ℕ → ℕ → K := fun q i => if q = p ∧ i = j then 1 else 0
    have hBv : B v u = internal 2 ms u p j := by
      simp only [B, v]
      rw [Finset.sum_eq_single p, Finset.sum_eq_single j]
      · simp
      · intro b _ hb
        simp [hb]
      · intro hc
        exact absurd (Finset.mem_range.2 hf.1) hc
      · intro b _ hb
        refine Finset.sum_eq_zero fun i _ => by simp [hb]
      · intro hc
        exact absurd (Finset.mem_range.2 (free_lt hf)) hc
    have hB0 : B u u = 0 := by rw [hB, h0]
    have hq : ∀ t : K, 0 ≤ 2 * t * B v u + t * t * B v v := by
      intro t
      have h := hBp (fun p j => 1 * u p j + t * v p j)
      rw [hBl, hBs _ u, hBs _ v, hBl, hBl, hB0, hBs u v] at h
      linarith
    rw [← hBv]
    by_contra hne
    have h1 := hq 1
    have h2 := hq (-1)
    have h3 := hBp v
    rcases h3.eq_or_lt with h3 | h3
    · rw [← h3] at h1 h2
      exact hne (by linarith)
    · have h4 := hq (-(B v u) / B v v)
      have h5 : 2 * (-(B v u) / B v v) * B v u + -(B v u) / B v v * (-(B v u) / B v v) * B v v =
          -(B v u * B v u / B v v) := by
        field_simp
        ring
      rw [h5] at h4
      have h6 : 0 < B v u * B v u / B v v := div_pos (mul_self_pos.2 hne) h3
      linarith
  · intro H u ha hz
    refine H u ha ?_
    rw [← virtual_work hinn u u]
    refine Finset.sum_eq_zero fun p hp => Finset.sum_eq_zero fun j hj => ?_
    rw [Finset.mem_range] at hp hj
    by_cases hf : Free d.cons 2 p j
    · rw [hz p j hf, mul_zero]
    · rw [ha p j hp hj hf, zero_mul]

end

/-! ## A case: the truss of C18 over the reals -/

section demo

/-- A bar of length 5 and a bar of length 3 meeting at a loaded node. -/
noncomputable def trussR : Gui.Data ℝ where
  nodes := [[0, 0, 0], [1, 4, 0], [2, 4, 3]]
  cons := [[-1, -1], [-1, -1], [0, 0]]
  elements := [[0, 6, 0, 0, 2], [1, 6, 1, 1, 2]]
  mats := [[125, 1], [9, 1]]
  loads := [[2, 4, -6]]

/-- Its bars. -/
noncomputable def trussBars : List (Bar ℝ) :=
  [⟨![0, 2], !![0, 0; 4, 3], 125, 1, 5⟩, ⟨![1, 2], !![4, 0; 4, 3], 9, 1, 3⟩]

theorem trussR_bars : List.Forall₂ (IsBar trussR.nodes trussR.mats) trussR.elements trussBars := by
  refine .cons ⟨0, 0, ![0, 2], [], rfl, rfl, ?_, ?_⟩ (.cons ⟨1, 1, ![1, 2], [], rfl, rfl, ?_, ?_⟩ .nil)
  · intro a; fin_cases a <;> simp [trussR]
  · constructor <;> norm_num
  · intro a; fin_cases a <;> simp [trussR]
  · constructor <;> norm_num

theorem trussR_plane : PlaneModel trussR where
  nodes := by simp [trussR]
  types := by
    intro el hel ty hty
    simp only [trussR, List.mem_cons, List.not_mem_nil, or_false] at hel
    rcases hel with rfl | rfl <;> simp at hty <;> simp [← hty]

theorem trussR_wf : WellFormed trussR where
  codes := by
    intro i j x hj hx
    obtain ⟨row, h1, h2⟩ := entry_some.1 hx
    have h1 := List.mem_of_getElem? h1
    have h2 := List.mem_of_getElem? h2
    simp only [trussR, List.mem_cons, List.not_mem_nil, or_false] at h1
    rcases h1 with rfl | rfl | rfl <;> simp at h2 <;> simp [h2]
  width := by simp [trussR]
  size := rfl

theorem trussR_free (j : ℕ) (hj : j < 2) : Free trussR.cons 2 2 j := by
  refine ⟨hj, 0, ?_, by norm_num, by norm_num⟩
  have : j = 0 ∨ j = 1 := by omega
  rcases this with rfl | rfl <;> simp [entry, trussR]

theorem trussR_stable {ms : List (Member ℝ)} (hms : Members Real.sqrt trussR ms) : Stable trussR.cons 2 ms := by
  intro u ha hz p j hp hj
  have hnf : ∀ q, q < 2 → ∀ i, ¬ Free trussR.cons 2 q i := by
    rintro q hq i ⟨_, x, hx, h1, _⟩
    have : q = 0 ∨ q = 1 := by omega
    obtain ⟨row, h2, h3⟩ := entry_some.1 hx
    rcases this with rfl | rfl <;> simp [trussR] at h2 <;> subst h2 <;>
    · have h3 := List.mem_of_getElem? h3
      simp at h3
      linarith
  have hfix : ∀ q, q < 2 → ∀ i, i < 2 → u q i = 0 := fun q hq i hi =>
    ha q i (by simp [trussR]; omega) hi (hnf q hq i)
  have e : ∀ i : Fin 2, internal 2 ms u 2 i = 0 := fun i => hz 2 i (trussR_free i i.2)
  have e0 := e 0
  have e1 := e 1
  rw [truss_internal sqrtFn_real trussR_bars hms] at e0 e1
  simp [trussBars, Fin.sum_univ_two, pull, elongation, hfix] at e0 e1
  have hu0 : u 2 0 = 0 := by linarith
  have hu1 : u 2 1 = 0 := by linarith
  simp only [trussR, List.length_cons, List.length_nil] at hp
  have hp' : p < 2 ∨ p = 2 := by omega
  have hj' : j = 0 ∨ j = 1 := by omega
  rcases hp' with hp' | rfl
  · exact hfix p hp' j hj
  · rcases hj' with rfl | rfl <;> assumption

/-- An exact solver. -/
noncomputable def cramerR : Sol.Solver ℝ := fun _ M b =>
  open Classical in if M.det = 0 then .error .linAlg else .ok (M.det⁻¹ • M.cramer b)

theorem cramerR_ok : SolverOk cramerR := by
  intro n M b hM
  refine ⟨_, by unfold cramerR; rw [if_neg hM], ?_⟩
  rw [Matrix.mulVec_smul, Matrix.mulVec_cramer, smul_smul, inv_mul_cancel₀ hM, one_smul]

/-- Case for C91, C92, C93: `solids_auto` and `stress_truss` succeed on the truss, and the stresses are the
ones that carry the load. -/
example : ∃ ms res σ, Members Real.sqrt trussR ms ∧ Stable trussR.cons 2 ms ∧
    Gui.solidsAuto Real.sqrt cramerR cramerR trussR false = .ok res ∧
    Post.stressTruss Real.sqrt trussR.nodes trussR.elements trussR.mats res.disp = .ok σ ∧
    σ = [5, -9] := by
  obtain ⟨ms, hms⟩ := truss_members sqrtFn_real trussR_bars
  have hst := trussR_stable hms
  have hn : Names trussR.nodes.length [2, (4 : ℝ), -6] 2 := (names_nat (by decide) rfl).2 rfl
  obtain ⟨res, hres⟩ := C93_solids_auto_returns (de := cramerR) trussR_plane trussR_wf cramerR_ok hms hst
    ⟨2, 0, trussR_free 0 (by omega)⟩ (by
      intro L hL
      simp only [trussR, List.mem_singleton] at hL
      subst hL
      exact ⟨by simp, 2, hn⟩)
  obtain ⟨σ, hσ⟩ := C92_stress_exists sqrtFn_real trussR_bars (by simp [trussBars]) hres
  refine ⟨ms, res, σ, hms, hst, hres, hσ, ?_⟩
  have hl : ∀ j : Fin 2, IsLoad trussR.nodes.length trussR.loads 2 j (if j = 0 then 4 else -6) := by
    intro j
    refine Or.inr ⟨[], [2, 4, -6], [], rfl, hn, by simp, ?_⟩
    fin_cases j <;> rfl
  have hf : ∀ j : Fin 2, Free trussR.cons 2 2 j := fun j => trussR_free j j.2
  have j0 := C92_method_of_joints sqrtFn_real trussR_wf cramerR_ok hms hst trussR_bars hres hσ (hf 0) (hl 0)
  have j1 := C92_method_of_joints sqrtFn_real trussR_wf cramerR_ok hms hst trussR_bars hres hσ (hf 1) (hl 1)
  have hlen : σ.length = 2 := mapM_length hσ
  match σ, hlen with
  | [s0, s1], _ =>
    simp [jointForce, trussBars, Fin.sum_univ_two, pull] at j0 j1
    have e0 : s0 = 5 := by linarith
    have e1 : s1 = -9 := by linarith
    rw [e0, e1]

/-- Its materials are physical. -/
theorem trussR_physical : Physical trussR := by
  intro el hel ty mi q params h1 h2 h3 h4
  simp only [trussR, List.mem_cons, List.not_mem_nil, or_false] at hel
  have h4 := List.mem_of_getElem? h4
  simp only [trussR, List.mem_cons, List.not_mem_nil, or_false] at h4
  have : ty = 6 := by rcases hel with rfl | rfl <;> simp at h1 <;> exact h1.symm
  refine ⟨fun h => absurd this h, fun _ => ?_⟩
  rcases h4 with rfl | rfl
  · exact ⟨_, _, _, rfl, by norm_num⟩
  · exact ⟨_, _, _, rfl, by norm_num⟩

/-- Case for C93: the truss has no mechanism, and is solved silently. -/
example : ∃ ms res, Members Real.sqrt trussR ms ∧
    Gui.solidsAuto Real.sqrt cramerR cramerR trussR false = .ok res ∧ res.warned = false ∧
    ∀ u : ℕ → ℕ → ℝ, Admissible trussR.cons 2 u → (ms.map fun m => m.form 2 u u).sum = 0 → u 2 0 = 0 := by
  obtain ⟨ms, hms⟩ := truss_members sqrtFn_real trussR_bars
  have hst := trussR_stable hms
  have hn : Names trussR.nodes.length [2, (4 : ℝ), -6] 2 := (names_nat (by decide) rfl).2 rfl
  obtain ⟨res, hres⟩ := C93_solids_auto_returns (de := cramerR) trussR_plane trussR_wf cramerR_ok hms hst
    ⟨2, 0, trussR_free 0 (by omega)⟩ (by
      intro L hL
      simp only [trussR, List.mem_singleton] at hL
      subst hL
      exact ⟨by simp, 2, hn⟩)
  have hpsd := (C93_elements sqrtFn_real trussR_plane hms).2 trussR_physical
  refine ⟨ms, res, hms, hres, C93_silent trussR_wf cramerR_ok hms hst hpsd hres, fun u ha h0 => ?_⟩
  exact (C93_stable_iff sqrtFn_real trussR_plane trussR_wf trussR_physical hms).1 hst u ha h0 2 0
    (by simp [trussR]) (by omega)

end demo

end SolidsPy
