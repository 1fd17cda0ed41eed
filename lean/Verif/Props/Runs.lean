import Verif.Props.Accepted
import Verif.Props.Numbering
import Verif.Props.Success

/-! # C160: exactly which plane models `solids_auto` solves

The statements speak of the tables only: types, numbers of nodes, references, shapes, material rows, loads, supports. -/

set_option linter.unusedSectionVars false

namespace SolidsPy

namespace Spec
section
variable {K : Type} [Field K] [LinearOrder K]

/-- The corners of an element of type 3, 1 or 6 and the second number of its material are acceptable: a triangle or a
quadrilateral of sufficient size, counterclockwise, with a Poisson ratio other than 1 and -1; a bar with distinct ends. -/
def Shaped (ty : ℤ) (P : List (Fin 2 → K)) (nu : K) : Prop :=
  (ty = 3 ∧ nu ^ 2 ≠ 1 ∧ ∃ p q r, P = [p, q, r] ∧ 1e-8 < turnArea p q r) ∨
  (ty = 1 ∧ nu ^ 2 ≠ 1 ∧ ∃ X : Matrix (Fin 4) (Fin 2) K, P = [X 0, X 1, X 2, X 3] ∧
    ∀ a, 4e-8 < 0.577350269189625764 * cornerArea X a + (1 - 0.577350269189625764) * quadArea X) ∨
  (ty = 6 ∧ ∃ p q, P = [p, q] ∧ p ≠ q)

/-- The row of an element refers to existing nodes and to an existing material of at least two numbers, and has an acceptable
shape. -/
def RowFits (mats nodes : List (List K)) (el : List ℤ) : Prop :=
  ∃ ty mi q E nu rest ps, el[1]? = some ty ∧ el[2]? = some mi ∧ Resolves mats.length mi q ∧
    mats[q]? = some (E :: nu :: rest) ∧ List.Forall₂ (Resolves nodes.length) (el.drop 3) ps ∧
    Shaped ty (ps.map fun p (i : Fin 2) => coordOf nodes p i) nu

/-- The row of a load names a node, and has an entry for every free direction of that node. -/
def LoadFits (cons : List (List K)) (nd : ℕ) (L : List K) : Prop :=
  ∃ p, Names cons.length L p ∧ ∀ j, Free cons nd p j → j + 1 < L.length

end
end Spec

open Spec Fem Uel Assem Matrix Gauss

section
variable {K : Type} [Field K] [LinearOrder K] [IsStrictOrderedRing K] [FloorRing K]
variable {sq : K → K} {sp de : Sol.Solver K} {d : Gui.Data K}

/-! ## Loads -/

theorem foldlM_returns_iff {α β : Type} {f : β → α → Py β} {P : α → Prop} {l : List α}
    (h : ∀ a ∈ l, ∀ v, (∃ v', f v a = .ok v') ↔ P a) (v : β) : (∃ v', l.foldlM f v = .ok v') ↔ ∀ a ∈ l, P a := by
  induction l generalizing v with
  | nil => exact ⟨fun _ _ h => by simp at h, fun _ => ⟨v, rfl⟩⟩
  | cons a l ih =>
    have ih := fun v => ih (fun b hb => h b (by simp [hb])) v
    rw [List.foldlM_cons, List.forall_mem_cons, ← h a (by simp) v]
    constructor
    · rintro ⟨v', hv⟩
      rw [bind_ok] at hv
      obtain ⟨w, h1, h2⟩ := hv
      exact ⟨⟨w, h1⟩, (ih w).1 ⟨v', h2⟩⟩
    · rintro ⟨⟨w, h1⟩, h2⟩
      obtain ⟨v', h3⟩ := (ih w).2 h2
      exact ⟨v', bind_ok.2 ⟨w, h1, h3⟩⟩

/-- C160.  `loadasem` returns exactly when every row of the loads names an existing node and has an entry for every free
direction of that node; entries for held directions are not read. -/
theorem C160_loads_iff {cons : Table K} {nd neq : ℕ} {bc : List (List ℤ)} {loads : Table K}
    (h : eqcounter cons nd = .ok (neq, bc)) (hv : ValidCons cons nd) :
    (∃ rhs, loadasem loads bc neq nd = .ok rhs) ↔ ∀ L ∈ loads, LoadFits cons nd L := by
  have hbl : bc.length = cons.length := by
    have := congrArg List.length (eqcounter_shape h).1
    simpa using this
  unfold loadasem
  refine foldlM_returns_iff (fun L _ v => ?_) _
  unfold loadRow
  have inner : ∀ p row, p < cons.length → bc[p]? = some row → ∀ v : Fin neq → K,
      (∃ v', (List.range nd).foldlM (loadDof row L) v = .ok v') ↔ ∀ j, Free cons nd p j → j + 1 < L.length := by
    intro p row hp hrow v
    rw [foldlM_returns_iff (P := fun j => Free cons nd p j → j + 1 < L.length) (fun j hj v => ?_) v]
    · constructor
      · intro h1 j hf
        exact h1 j (List.mem_range.2 hf.1) hf
      · intro h1 j _ hf
        exact h1 j hf
    · rw [List.mem_range] at hj
      have hent : entry bc p j = row[j]? := by
        unfold entry
        rw [hrow]
        rfl
      unfold loadDof
      rcases free_or_fixed h hv hp hj with ⟨hf, i, _, hi⟩ | ⟨hf, hi, _⟩
      · rw [hent] at hi
        rw [pyGet_nat.2 hi, ok_bind, if_pos (by omega)]
        constructor
        · rintro ⟨v', h1⟩ _
          rw [bind_ok] at h1
          obtain ⟨x, h2, _⟩ := h1
          have h2 : pyGet L ((j + 1 : ℕ) : ℤ) = .ok x := by simpa using h2
          exact (List.getElem?_eq_some_iff.1 (pyGet_nat.1 h2)).1
        · intro h1
          have hl := h1 hf
          have h2 : pyGet L ((j : ℤ) + 1) = .ok (L[j + 1]) := by
            have := pyGet_nat.2 (List.getElem?_eq_getElem hl)
            simpa using this
          rw [h2, ok_bind]
          obtain ⟨k, hk⟩ := (pyFin_exists (n := neq) (i := (i : ℤ))).2 ⟨by omega, by exact_mod_cast i.2⟩
          exact ⟨_, by unfold setAt; rw [hk]; rfl⟩
      · rw [hent] at hi
        rw [pyGet_nat.2 hi, ok_bind, if_neg (by simp)]
        exact ⟨fun _ hf' => absurd hf' hf, fun _ => ⟨v, rfl⟩⟩
  constructor
  · rintro ⟨v', h1⟩
    rw [bind_ok] at h1
    obtain ⟨x, hx, h1⟩ := h1
    rw [bind_ok] at h1
    obtain ⟨row, hr, h1⟩ := h1
    obtain ⟨p, hp, hrow⟩ := pyGet_resolves.1 hr
    rw [hbl] at hp
    exact ⟨p, names_iff.2 ⟨x, pyGet_zero.1 hx, hp⟩, (inner p row hp.1 hrow v).1 ⟨v', h1⟩⟩
  · rintro ⟨p, hn, h1⟩
    obtain ⟨x, hx, hp⟩ := names_iff.1 hn
    rw [← hbl] at hp
    have hrow : bc[p]? = some (bc[p]'hp.1) := List.getElem?_eq_getElem hp.1
    obtain ⟨v', hv'⟩ := (inner p _ (by rw [← hbl]; exact hp.1) hrow v).2 h1
    exact ⟨v', bind_ok.2 ⟨x, pyGet_zero.2 hx, bind_ok.2 ⟨_, pyGet_resolves.2 ⟨p, hp, hrow⟩, hv'⟩⟩⟩

/-! ## Elements -/

/-- C160.  For the library's plane elements and bars, numbering and assembly succeed exactly when every row describes an element
its routine accepts, and every bar has two nodes. -/
theorem C160_assembly_iff (hwf : WellFormed d) (hn : ∀ r ∈ d.nodes, r.length = 3)
    (hty : ∀ el ∈ d.elements, ∀ ty, el[1]? = some ty → ty ∈ [(1 : ℤ), 2, 3, 4, 6]) :
    (∃ op bc neq Kg Mg, dme d.cons d.elements = .ok (op, bc, neq) ∧
      assembler (Uel.eleFun sq) d.elements d.mats d.nodes neq op = .ok (Kg, Mg)) ↔
    ∀ el ∈ d.elements, (∃ m, IsMember (Routine sq) d.mats d.nodes el m) ∧ (el[1]? = some 6 → (el.drop 3).length = 2) := by
  constructor
  · rintro ⟨op, bc, neq, Kg, Mg, h1, h2⟩ el hel
    obtain ⟨ms, s⟩ := auto_setup h1 h2 hwf.codes hwf.width hwf.size
    obtain ⟨ty, h3, h4, _⟩ := (C05_dme_accepts_iff hwf.width).1 ⟨_, h1⟩ el hel
    obtain ⟨i, hi, rfl⟩ := List.mem_iff_getElem.1 hel
    refine ⟨⟨_, s.mem.get (i := i) hi (by rw [← s.mem.length_eq]; exact hi)⟩, fun h6 => ?_⟩
    rw [h3, Option.some.injEq] at h6
    subst h6
    unfold TypeDofs at h4
    omega
  · intro h
    have hp : PlaneModel d := ⟨hn, fun el hel ty h1 => by
      have := hty el hel ty h1
      have h6 := (h el hel).2
      simp only [List.mem_cons, List.not_mem_nil, or_false] at this ⊢
      rcases this with rfl | rfl | rfl | rfl | rfl
      · simp
      · simp
      · simp
      · simp
      · exact Or.inr ⟨rfl, h6 h1⟩⟩
    obtain ⟨ms, hms⟩ : ∃ ms, Members sq d ms := by
      unfold Members
      generalize d.elements = els at h
      induction els with
      | nil => exact ⟨[], .nil⟩
      | cons a l ih =>
        obtain ⟨ms, hms⟩ := ih fun b hb => h b (by simp [hb])
        obtain ⟨m, hm⟩ := (h a (by simp)).1
        exact ⟨m :: ms, .cons hm hms⟩
    exact plane_assembly hp hwf hms

theorem plane_member_iff {n : ℕ} {f : Uel K} {R : QRule K 2 n} (hr : Rep2 n f R false) {X : Matrix (Fin n) (Fin 2) K}
    {params : List K} : (∃ r, f (matRows X) params = .ok r) ↔
      Acc R X ∧ ∃ E nu rest, params = E :: nu :: rest ∧ nu ^ 2 ≠ 1 := by
  constructor
  · rintro ⟨r, hk⟩
    obtain ⟨C, ρ, ⟨_, hm, _⟩, ha, _⟩ := (hr.ok _ _ _).1 hk
    obtain ⟨E, nu, h1, h2⟩ := (C35_returns_iff _).1 ⟨C, hm⟩
    match params, h1 with
    | a :: b :: rest, h1 =>
      simp only [List.take_succ_cons, List.take_zero, List.cons.injEq, and_true] at h1
      exact ⟨ha, a, b, rest, rfl, by rw [h1.2]; exact h2⟩
    | [a], h1 => simp at h1
    | [], h1 => simp at h1
  · rintro ⟨ha, E, nu, rest, rfl, hnu⟩
    obtain ⟨C, hC⟩ := (C35_returns_iff [E, nu]).2 ⟨E, nu, rfl, hnu⟩
    exact ⟨_, (hr.ok _ _ _).2 ⟨C, _, ⟨by simp, hC, densOf_eq E nu rest⟩, ha, rfl⟩⟩

theorem truss_returns_iff (hs : SqrtFn sq) {X : Matrix (Fin 2) (Fin 2) K} {params : List K} :
    (∃ r, truss2D sq (matRows X) params = .ok r) ↔ X 0 ≠ X 1 ∧ ∃ E A rest, params = E :: A :: rest := by
  constructor
  · rintro ⟨r, hk⟩
    refine ⟨fun h0 => ?_, ?_⟩
    · unfold truss2D at hk
      rw [barGeom_zero hs h0] at hk
      cases hk
    · unfold truss2D at hk
      rw [bind_ok] at hk
      obtain ⟨g, _, hk⟩ := hk
      match params with
      | a :: b :: rest => exact ⟨a, b, rest, rfl⟩
      | [a] => simp at hk
      | [] => simp at hk
  · rintro ⟨hne, E, A, rest, rfl⟩
    obtain ⟨L, hL⟩ := exists_length hs hne
    exact ⟨_, truss_ok hs hL E A rest⟩

/-- The coordinate rows of nodes. -/
theorem node_rows {nodes : Table K} (hn : ∀ r ∈ nodes, r.length = 3) {ps : List ℕ} {rows : Table K}
    (h : List.Forall₂ (fun p row => nodes[p]? = some row) ps rows) :
    rows.map (List.drop 1) = ps.map fun p => [coordOf nodes p 0, coordOf nodes p 1] := by
  induction h with
  | nil => rfl
  | @cons p row ps rows h1 _ ih =>
    rw [List.map_cons, List.map_cons, ih]
    congr 1
    have h3 := hn row (List.mem_of_getElem? h1)
    match row, h3 with
    | [a, x, y], _ => simp [coordOf, fieldOf, entry, h1]

theorem rows_of_resolves {nodes : Table K} {ids : List ℤ} {ps : List ℕ} (h : List.Forall₂ (Resolves nodes.length) ids ps) :
    ∃ rows, List.Forall₂ (fun p row => nodes[p]? = some row) ps rows := by
  induction h with
  | nil => exact ⟨[], .nil⟩
  | @cons _ p _ _ h1 _ ih =>
    obtain ⟨rows, hr⟩ := ih
    exact ⟨nodes[p]'h1.1 :: rows, .cons (List.getElem?_eq_getElem h1.1) hr⟩

theorem coords_iff {nodes : Table K} {ps : List ℕ} {n : ℕ} {X : Matrix (Fin n) (Fin 2) K} :
    (ps.map fun p => [coordOf nodes p 0, coordOf nodes p 1]) = matRows X ↔
      (ps.map fun p (i : Fin 2) => coordOf nodes p i) = List.ofFn fun a => X a := by
  have e1 : (ps.map fun p => [coordOf nodes p 0, coordOf nodes p 1]) =
      (ps.map fun p (i : Fin 2) => coordOf nodes p i).map fun g : Fin 2 → K => List.ofFn g := by
    rw [List.map_map]
    refine List.map_congr_left fun p _ => ?_
    simp [List.ofFn_succ]
  have e2 : matRows X = (List.ofFn fun a => X a).map fun g : Fin 2 → K => List.ofFn g := by
    rw [List.map_ofFn]
    rfl
  rw [e1, e2]
  exact (List.map_injective_iff.2 List.ofFn_injective).eq_iff

/-- The routine of a type 1, 3 or 6 returns on given corners exactly when they are acceptable. -/
theorem shaped_iff (hs : SqrtFn sq) {nodes : Table K} {ps : List ℕ} {ty : ℤ} (ht : ty ∈ [(1 : ℤ), 3, 6])
    (h6 : ty = 6 → ps.length = 2) {params : List K} : (∃ f r, Uel.eleFun sq ty = .ok f ∧
      f (ps.map fun p => [coordOf nodes p 0, coordOf nodes p 1]) params = .ok r) ↔
    ∃ E nu rest, params = E :: nu :: rest ∧ Shaped ty (ps.map fun p (i : Fin 2) => coordOf nodes p i) nu := by
  simp only [List.mem_cons, List.not_mem_nil, or_false] at ht
  have o4 : ∀ X : Matrix (Fin 4) (Fin 2) K, (List.ofFn fun a => X a) = [X 0, X 1, X 2, X 3] := fun X => by
    simp [List.ofFn_succ]
  have o3 : ∀ X : Matrix (Fin 3) (Fin 2) K, (List.ofFn fun a => X a) = [X 0, X 1, X 2] := fun X => by
    simp [List.ofFn_succ]
  have o2 : ∀ X : Matrix (Fin 2) (Fin 2) K, (List.ofFn fun a => X a) = [X 0, X 1] := fun X => by
    simp [List.ofFn_succ]
  rcases ht with rfl | rfl | rfl <;> simp only [Uel.eleFun, Except.ok.injEq, exists_and_left, exists_eq_left']
  · have hr := rep_plane (body_quad4 (K := K))
    constructor
    · rintro ⟨r, h⟩
      obtain ⟨X, hX⟩ := hr.coord _ _ _ h
      rw [hX] at h
      obtain ⟨ha, E, nu, rest, rfl, hnu⟩ := (plane_member_iff hr).1 ⟨_, h⟩
      exact ⟨E, nu, rest, rfl, Or.inr (Or.inl ⟨rfl, hnu, X, (coords_iff.1 hX).trans (o4 X), (acc_quad4 X).1 ha⟩)⟩
    · rintro ⟨E, nu, rest, rfl, ⟨h, _⟩ | ⟨_, hnu, X, hX, ha⟩ | ⟨h, _⟩⟩
      · omega
      · rw [coords_iff.2 (hX.trans (o4 X).symm)]
        exact (plane_member_iff hr).2 ⟨(acc_quad4 X).2 ha, E, nu, rest, rfl, hnu⟩
      · omega
  · have hr := rep_plane (body_tri3 (K := K))
    constructor
    · rintro ⟨r, h⟩
      obtain ⟨X, hX⟩ := hr.coord _ _ _ h
      rw [hX] at h
      obtain ⟨ha, E, nu, rest, rfl, hnu⟩ := (plane_member_iff hr).1 ⟨_, h⟩
      exact ⟨E, nu, rest, rfl, Or.inl ⟨rfl, hnu, _, _, _, (coords_iff.1 hX).trans (o3 X), (acc_tri3 X).1 ha⟩⟩
    · rintro ⟨E, nu, rest, rfl, ⟨_, hnu, p, q, r, hX, ha⟩ | ⟨h, _⟩ | ⟨h, _⟩⟩
      · rw [coords_iff.2 (hX.trans (o3 (Matrix.of ![p, q, r])).symm)]
        exact (plane_member_iff hr).2 ⟨(acc_tri3 _).2 ha, E, nu, rest, rfl, hnu⟩
      · omega
      · omega
  · match ps, h6 rfl with
    | [a, b], _ =>
      have hX : ([a, b].map fun p (i : Fin 2) => coordOf nodes p i) =
          List.ofFn fun k => (Matrix.of ![fun i : Fin 2 => coordOf nodes a i, fun i : Fin 2 => coordOf nodes b i]) k :=
        (o2 (Matrix.of ![fun i : Fin 2 => coordOf nodes a i, fun i : Fin 2 => coordOf nodes b i])).symm
      rw [coords_iff.2 hX, truss_returns_iff hs]
      constructor
      · rintro ⟨hne, E, A, rest, rfl⟩
        exact ⟨E, A, rest, rfl, Or.inr (Or.inr ⟨rfl, _, _, rfl, hne⟩)⟩
      · rintro ⟨E, A, rest, rfl, ⟨h, _⟩ | ⟨h, _⟩ | ⟨_, p, q, hpq, hne⟩⟩
        · omega
        · omega
        · simp only [List.map_cons, List.map_nil, List.cons.injEq, and_true] at hpq
          refine ⟨?_, E, A, rest, rfl⟩
          show (fun i : Fin 2 => coordOf nodes a i) ≠ fun i : Fin 2 => coordOf nodes b i
          rw [hpq.1, hpq.2]
          exact hne

/-- C160.  A row of type 1, 3 or 6 describes an element its routine accepts, with two nodes if it is a bar, exactly when it fits:
in terms of the tables alone. -/
theorem C160_row_iff (hs : SqrtFn sq) {mats nodes : Table K} (hn : ∀ r ∈ nodes, r.length = 3) {el : List ℤ}
    (hty : ∀ ty, el[1]? = some ty → ty ∈ [(1 : ℤ), 3, 6]) :
    ((∃ m, IsMember (Routine sq) mats nodes el m) ∧ (el[1]? = some 6 → (el.drop 3).length = 2)) ↔ RowFits mats nodes el := by
  constructor
  · rintro ⟨⟨m, ty, mi, params, rows, f, kl, ml, a1, a2, ⟨q, a3, a4⟩, a5, a6, a7, a8, -⟩, h6⟩
    rw [node_rows hn a6] at a8
    obtain ⟨E, nu, rest, rfl, h⟩ := (shaped_iff hs (hty ty a1) (fun h => by
      subst h
      rw [← a5.length_eq]
      exact h6 a1)).1 ⟨f, _, a7, a8⟩
    exact ⟨ty, mi, q, E, nu, rest, m.nodes, a1, a2, a3, a4, a5, h⟩
  · rintro ⟨ty, mi, q, E, nu, rest, ps, a1, a2, a3, a4, a5, h⟩
    have h6 : ty = 6 → ps.length = 2 := by
      rintro rfl
      rcases h with ⟨h, _⟩ | ⟨h, _⟩ | ⟨_, p, q, h, _⟩
      · omega
      · omega
      · simpa using congrArg List.length h
    obtain ⟨f, ⟨kl, ml⟩, b1, b2⟩ := (shaped_iff hs (hty ty a1) h6).2 ⟨E, nu, rest, rfl, h⟩
    obtain ⟨rows, hr⟩ := rows_of_resolves a5
    refine ⟨⟨⟨ps, cell kl⟩, ty, mi, _, rows, f, kl, ml, a1, a2, ⟨q, a3, a4⟩, a5, hr, b1, ?_, rfl⟩, fun h => ?_⟩
    · rw [node_rows hn hr]
      exact b2
    · rw [a1, Option.some.injEq] at h
      rw [a5.length_eq]
      exact h6 h

/-! ## Whole runs -/

/-- C160.  `solids_auto` on a stable model, with an exact solver, returns exactly when every element is accepted by its routine,
every bar has two nodes, every load fits and some degree of freedom is free. -/
theorem C160_runs_iff (hwf : WellFormed d) (hn : ∀ r ∈ d.nodes, r.length = 3) (hsp : SolverOk sp)
    (hty : ∀ el ∈ d.elements, ∀ ty, el[1]? = some ty → ty ∈ [(1 : ℤ), 2, 3, 4, 6])
    (hst : ∀ ms, Members sq d ms → Stable d.cons 2 ms) :
    (∃ res, Gui.solidsAuto sq sp de d false = .ok res) ↔
      (∀ el ∈ d.elements, (∃ m, IsMember (Routine sq) d.mats d.nodes el m) ∧ (el[1]? = some 6 → (el.drop 3).length = 2)) ∧
      (∀ L ∈ d.loads, LoadFits d.cons 2 L) ∧ ∃ p j, Free d.cons 2 p j := by
  rw [← C160_assembly_iff hwf hn hty]
  constructor
  · rintro ⟨res, h⟩
    obtain ⟨op, bc, neq, Kg, Mg, rhs, x, ok, full, plots, h1, h2, h3, h4, h5, -⟩ := auto_ok.1 h
    have heq := (dme_ok.1 h1).1
    refine ⟨⟨op, bc, neq, Kg, Mg, h1, h2⟩, (C160_loads_iff heq hwf.codes).1 ⟨rhs, h3⟩, ?_⟩
    by_contra hf
    push Not at hf
    have h0 : neq = 0 := by
      by_contra hne
      obtain ⟨p, j, h6, _⟩ := (C01_numbering_bijective heq).2 0 (by omega)
      exact hf p j h6
    subst h0
    simp [Gui.balanced, Gui.matMax, Post.listMax] at h5
  · rintro ⟨⟨op, bc, neq, Kg, Mg, h1, h2⟩, hl, p, j, hf⟩
    have heq := (dme_ok.1 h1).1
    obtain ⟨rhs, h3⟩ := (C160_loads_iff heq hwf.codes).2 hl
    obtain ⟨ms, s⟩ := auto_setup h1 h2 hwf.codes hwf.width hwf.size
    obtain ⟨x, h4, _⟩ := hsp neq Kg rhs (det_ne_zero_of_stable s (hst ms s.mem))
    obtain ⟨full, h6, _⟩ := C15_constrained_zero heq hwf.codes x
    rw [hwf.size] at h6
    have hneq : 0 < neq := Nat.zero_lt_of_lt (free_entry heq hf).2
    obtain ⟨ok, h5⟩ : ∃ ok, Gui.balanced Kg x rhs = .ok ok := by
      unfold Gui.balanced Gui.matMax
      obtain ⟨n, rfl⟩ : ∃ n, neq = n + 1 := ⟨neq - 1, by omega⟩
      rw [List.finRange_succ]
      simp only [List.flatMap_cons, List.map_cons, List.cons_append, Post.listMax, ok_bind]
      split
      · exact ⟨_, rfl⟩
      · exact ⟨_, rfl⟩
    exact ⟨_, auto_ok.2 ⟨op, bc, neq, Kg, Mg, rhs, x, ok, full, [], h1, h2, h3, h4, h5, h6, rfl, rfl⟩⟩

/-- C160.  The same in terms of the tables alone, for models of three-node triangles, four-node quadrilaterals and bars. -/
theorem C160_tables_iff (hs : SqrtFn sq) (hwf : WellFormed d) (hn : ∀ r ∈ d.nodes, r.length = 3) (hsp : SolverOk sp)
    (hty : ∀ el ∈ d.elements, ∀ ty, el[1]? = some ty → ty ∈ [(1 : ℤ), 3, 6])
    (hst : ∀ ms, Members sq d ms → Stable d.cons 2 ms) :
    (∃ res, Gui.solidsAuto sq sp de d false = .ok res) ↔ (∀ el ∈ d.elements, RowFits d.mats d.nodes el) ∧
      (∀ L ∈ d.loads, LoadFits d.cons 2 L) ∧ ∃ p j, Free d.cons 2 p j := by
  rw [C160_runs_iff hwf hn hsp (fun el hel ty h => by
    have := hty el hel ty h
    simp only [List.mem_cons, List.not_mem_nil, or_false] at this ⊢
    tauto) hst]
  refine and_congr_left' (forall₂_congr fun el hel => C160_row_iff hs hn (hty el hel))

end

section demo

theorem trussR_types : ∀ el ∈ trussR.elements, ∀ ty, el[1]? = some ty → ty ∈ [(1 : ℤ), 3, 6] := by
  intro el hel ty h
  simp only [trussR, List.mem_cons, List.not_mem_nil, or_false] at hel
  rcases hel with rfl | rfl <;> simp at h <;> simp [← h]

/-- Case for C160: the truss of two bars is solved because its tables fit. -/
example : ∃ res, Gui.solidsAuto Real.sqrt cramerR cramerR trussR false = .ok res := by
  refine (C160_tables_iff sqrtFn_real trussR_wf trussR_plane.nodes cramerR_ok trussR_types
    (fun ms => trussR_stable)).2 ⟨?_, ?_, 2, 0, trussR_free 0 (by omega)⟩
  · intro el hel
    simp only [trussR, List.mem_cons, List.not_mem_nil, or_false] at hel
    have hne : ∀ p q : Fin 2 → ℝ, p 1 ≠ q 1 → p ≠ q := fun p q h e => h (by rw [e])
    rcases hel with rfl | rfl
    · refine ⟨6, 0, 0, 125, 1, [], [0, 2], rfl, rfl, ?_, rfl, ?_, Or.inr (Or.inr ⟨rfl, _, _, rfl, hne _ _ ?_⟩)⟩
      · simp [Resolves, trussR]
      · exact .cons (by simp [Resolves, trussR]) (.cons (by simp [Resolves, trussR]) .nil)
      · simp [coordOf, fieldOf, entry, trussR]
    · refine ⟨6, 1, 1, 9, 1, [], [1, 2], rfl, rfl, ?_, rfl, ?_, Or.inr (Or.inr ⟨rfl, _, _, rfl, hne _ _ ?_⟩)⟩
      · simp [Resolves, trussR]
      · exact .cons (by simp [Resolves, trussR]) (.cons (by simp [Resolves, trussR]) .nil)
      · simp [coordOf, fieldOf, entry, trussR]
  · intro L hL
    simp only [trussR, List.mem_singleton] at hL
    subst hL
    exact ⟨2, (names_nat (by simp [trussR]) rfl).2 rfl, fun j hf => by have := hf.1; simp; omega⟩

/-- Case for C160: with the vertical component of the load left out the run fails. -/
example : ¬ ∃ res, Gui.solidsAuto Real.sqrt cramerR cramerR { trussR with loads := [[2, 4]] } false = .ok res := by
  rw [C160_tables_iff (d := { trussR with loads := [[2, 4]] }) sqrtFn_real ⟨trussR_wf.codes, trussR_wf.width, trussR_wf.size⟩
    trussR_plane.nodes cramerR_ok trussR_types (fun ms => trussR_stable)]
  rintro ⟨-, h, -⟩
  obtain ⟨p, hp, h⟩ := h [2, 4] (by simp)
  have : p = 2 := (names_nat (p := 2) (by simp [trussR]) rfl).1 hp
  subst this
  simpa using h 1 (trussR_free 1 (by omega))

/-- Case for C160: with a bar from a node to itself the run fails. -/
example : ¬ ∃ res, Gui.solidsAuto Real.sqrt cramerR cramerR { trussR with elements := [[0, 6, 0, 2, 2]] } false = .ok res := by
  have hfit : ¬ RowFits trussR.mats trussR.nodes [0, 6, 0, 2, 2] := by
    rintro ⟨ty, mi, q, E, nu, rest, ps, h1, _, _, _, h2, h⟩
    simp only [List.getElem?_cons_succ, List.getElem?_cons_zero, Option.some.injEq] at h1
    subst h1
    rcases h with ⟨h, _⟩ | ⟨h, _⟩ | ⟨_, a, b, h, hne⟩
    · omega
    · omega
    · match ps, h2 with
      | [p, p'], .cons r1 (.cons r2 .nil) =>
        have e : ∀ k : ℕ, Resolves trussR.nodes.length 2 k → k = 2 := by
          intro k hk
          simp only [Resolves, trussR, List.length_cons, List.length_nil] at hk
          omega
        rw [e _ r1, e _ r2] at h
        simp only [List.map_cons, List.map_nil, List.cons.injEq, and_true] at h
        exact hne (h.1.symm.trans h.2)
  have hty : ∀ el ∈ ([[0, 6, 0, 2, 2]] : List (List ℤ)), ∀ ty, el[1]? = some ty → ty ∈ [(1 : ℤ), 3, 6] := by
    intro el hel ty h
    simp only [List.mem_singleton] at hel
    subst hel
    simp at h
    simp [← h]
  rw [C160_tables_iff (d := { trussR with elements := [[0, 6, 0, 2, 2]] }) sqrtFn_real
    ⟨trussR_wf.codes, trussR_wf.width, trussR_wf.size⟩ trussR_plane.nodes cramerR_ok hty (fun ms hms => ?_)]
  · rintro ⟨h, -⟩
    exact hfit (h _ (by simp))
  · cases hms with
    | cons h _ =>
      exact absurd ((C160_row_iff sqrtFn_real trussR_plane.nodes (hty _ (by simp))).1 ⟨⟨_, h⟩, fun _ => rfl⟩) hfit

end demo

end SolidsPy
