import Verif.Props.Frames
import Verif.Props.Elements

/-! # C135: models made of the user's own elements -/

set_option linter.unusedSectionVars false

namespace SolidsPy
open Spec Assem Matrix

section
variable {K : Type} [Field K] [LinearOrder K] [IsStrictOrderedRing K] [FloorRing K]
variable {f : Uel K} {tab : ℤ → Py (Uel K)} {nd n m : ℕ} {cons mats nodes loads : Table K} {elements : List (List ℤ)}
  {ms : List (Member K)} {op bc : List (List ℤ)} {neq : ℕ}

/-- The routine is for elements of `n` nodes with `nd` degrees of freedom each. -/
def Spec.ElementOf (nd n : ℕ) (f : Uel K) : Prop :=
  ∀ coord params A B, coord.length = n → f coord params = .ok (A, B) →
    (∃ M, A = .mat (n * nd) (n * nd) M) ∧ ∃ M, B = .mat (n * nd) (n * nd) M

/-- A model of elements with `n` nodes: `nd` constraint codes (0 or -1) per node. -/
structure Spec.UserModel (nd n : ℕ) (cons nodes : Table K) (elements : List (List ℤ)) : Prop where
  codes : ValidCons cons nd
  width : ∀ r ∈ cons, r.length = nd
  size : cons.length = nodes.length
  typed : ∀ el ∈ elements, (el.drop 3).length = n

/-- The element as the routine `f` describes it. -/
def Spec.Describes (f : Uel K) (mats nodes : Table K) : List ℤ → Member K → Prop := IsMember (fun _ g => g = f) mats nodes

/-- The routines of `uelutil` that `ele_fun` does not list, to be passed as `uel`. -/
theorem elementOf_quad8 : ElementOf 2 8 (Uel.elastQuad8 : Uel K) := by
  intro coord params A B _ h
  obtain ⟨X, k, m, -, ⟨⟨M, rfl⟩, -⟩, ⟨⟨N, rfl⟩, -⟩, -⟩ := C38_plane_shape .quad8 h
  exact ⟨⟨M, rfl⟩, ⟨N, rfl⟩⟩

theorem elementOf_solid (hf : SolidElement n f) : ElementOf 3 n f := by
  intro coord params A B _ h
  obtain ⟨X, k, m, -, ⟨⟨M, rfl⟩, -⟩, ⟨⟨N, rfl⟩, -⟩, -⟩ := C38_solid_shape hf h
  exact ⟨⟨M, rfl⟩, ⟨N, rfl⟩⟩

theorem elementOf_axi : ElementOf 2 9 (Uel.elastAxiQuad9 : Uel K) := by
  intro coord params A B _ h
  unfold Uel.elastAxiQuad9 Uel.strictUel at h
  split at h
  · simp only [bind_ok, pure_ok, Prod.mk.injEq] at h
    obtain ⟨C, _, X, _, km, _, rfl, rfl⟩ := h
    exact ⟨⟨_, rfl⟩, ⟨_, rfl⟩⟩
  · cases h

/-- The steps of a static analysis with the user's element `uel`, of which `ndof_el` gives the number of degrees of freedom:
`DME`, `assembler(..., uel=uel)`, `loadasem`, `static_sol`, `complete_disp`.
`/repo/solidspy/assemutil.py:47-88,149-187,298-325`, `/repo/solidspy/solutil.py:14-41`,
`/repo/solidspy/postprocesor.py:293-322`. -/
def userRun (tab : ℤ → Py (Uel K)) (uel : Uel K) (ndofNode ndofElMax : ℕ) (ndofEl : ℤ → Py ℕ) (sp de : Sol.Solver K)
    (sparse : Bool) (cons : Table K) (elements : List (List ℤ)) (mats nodes loads : Table K) : Py (Table K) := do
  let (op, bc, neq) ← dme cons elements ndofNode ndofElMax (some ndofEl)
  let (stiff, _) ← assembler tab elements mats nodes neq op sparse (some uel)
  let rhs ← loadasem loads bc neq ndofNode
  let sol ← Sol.staticSol sp de (if sparse then .csr else .ndarray) stiff rhs
  Post.completeDisp bc nodes.length sol ndofNode

variable {count : ℤ → Py ℕ}

theorem userRun_ok {sp de : Sol.Solver K} {sparse : Bool} {full : Table K} :
    userRun tab f nd m count sp de sparse cons elements mats nodes loads = .ok full ↔
      ∃ op bc neq Kg Mg rhs x, dme cons elements nd m (some count) = .ok (op, bc, neq) ∧
        assembler tab elements mats nodes neq op sparse (some f) = .ok (Kg, Mg) ∧ loadasem loads bc neq nd = .ok rhs ∧
        (if sparse then sp else de) neq Kg rhs = .ok x ∧ Post.completeDisp bc nodes.length x nd = .ok full := by
  unfold userRun
  simp only [bind_ok, Prod.exists]
  cases sparse <;> simp [Sol.staticSol]

/-- `ndof_el` gives the number of degrees of freedom of the elements. -/
def Spec.Counts (count : ℤ → Py ℕ) (k : ℕ) (elements : List (List ℤ)) : Prop :=
  ∀ el ∈ elements, ∃ ty, el[1]? = some ty ∧ count ty = .ok k

theorem eqcounter_any (hw : ∀ r ∈ cons, r.length = nd) : ∃ neq bc, eqcounter cons nd = .ok (neq, bc) := by
  obtain ⟨⟨a, b⟩, hr⟩ := numberRows_exists (nd := nd) (t := truncTab cons) (n := 0) (by
    intro r hr
    simp only [truncTab, List.mem_map] at hr
    obtain ⟨r', hr', rfl⟩ := hr
    simp [hw r' hr'])
  exact ⟨b, a, by simp [eqcounter, hr, pure, Except.pure]⟩

theorem user_rows (hu : UserModel nd n cons nodes elements) (h1 : eqcounter cons nd = .ok (neq, bc)) {el : List ℤ} (hm : el ∈ elements)
    (h5 : ∀ g ∈ el.drop 3, ∃ p, Resolves nodes.length g p) :
    ∃ rows, pyGetMany bc (el.drop 3) = .ok rows ∧ rows.flatten.length = n * nd := by
  have hbl : bc.length = cons.length := by
    have := congrArg List.length (eqcounter_shape h1).1
    simpa using this
  obtain ⟨rows, hrows⟩ : ∃ rows, pyGetMany bc (el.drop 3) = .ok rows := by
    unfold pyGetMany
    rw [mapM_exists]
    intro g hg
    obtain ⟨p, hp⟩ := h5 g hg
    rw [← hu.size, ← hbl] at hp
    exact ⟨bc[p]'hp.1, pyGet_resolves.2 ⟨p, hp, List.getElem?_eq_getElem hp.1⟩⟩
  obtain ⟨hrw, hrl⟩ := pyGetMany_widths (bc_widths h1 hu.width) hrows
  refine ⟨rows, hrows, ?_⟩
  rw [flatten_length hrw, hrl, hu.typed el hm, mul_comm]

theorem user_dme (hu : UserModel nd n cons nodes elements) (hc : Counts count (n * nd) elements) (hm : n * nd ≤ m)
    (hel : ∀ el ∈ elements, ∀ g ∈ el.drop 3, ∃ p, Resolves nodes.length g p) :
    ∃ op bc neq, dme cons elements nd m (some count) = .ok (op, bc, neq) := by
  obtain ⟨neq, bc, h1⟩ := eqcounter_any hu.width
  obtain ⟨op, hop⟩ : ∃ op, elements.mapM (dmeRow bc m (some count)) = .ok op := by
    rw [mapM_exists]
    intro el hmem
    obtain ⟨ty, h2, h3⟩ := hc el hmem
    obtain ⟨rows, hrows, hlen⟩ := user_rows hu h1 hmem (hel el hmem)
    exact ⟨_, dmeRow_ok.2 ⟨ty, n * nd, rows, h2, h3, hrows, assignSlice_ok.2 (Or.inl ⟨by rw [hlen, min_eq_left hm], rfl⟩)⟩⟩
  exact ⟨op, bc, neq, dme_ok.2 ⟨h1, hop⟩⟩

/-- C135.  With rows shorter than the number of degrees of freedom of the elements (18 by default) `DME` stops. -/
theorem C135_too_small (hu : UserModel nd n cons nodes elements) (hc : Counts count (n * nd) elements) (hm : m < n * nd)
    (h2 : 2 ≤ n * nd) (hne : elements ≠ []) (hel : ∀ el ∈ elements, ∀ g ∈ el.drop 3, ∃ p, Resolves nodes.length g p) :
    dme cons elements nd m (some count) = .error .valueError := by
  obtain ⟨neq, bc, h1⟩ := eqcounter_any hu.width
  unfold dme
  rw [h1, ok_bind]
  dsimp only
  obtain ⟨el, rest, rfl⟩ := List.exists_cons_of_ne_nil hne
  have hmem : el ∈ el :: rest := by simp
  obtain ⟨ty, h3, h4⟩ := hc el hmem
  obtain ⟨rows, hrows, hlen⟩ := user_rows hu h1 hmem (hel el hmem)
  have : dmeRow bc m (some count) el = .error .valueError := by
    unfold dmeRow
    rw [pyGet_one.2 h3, ok_bind]
    dsimp only
    rw [h4, ok_bind, hrows, ok_bind]
    unfold assignSlice
    dsimp only
    rw [if_neg (by rw [hlen]; omega)]
    match hr : rows.flatten with
    | [] => rfl
    | [_] => rw [hr] at hlen; simp at hlen; omega
    | _ :: _ :: _ => rfl
  rw [List.mapM_cons, this]
  rfl

theorem user_local (hf : ElementOf nd n f) {el : List ℤ} (hn : (el.drop 3).length = n) {mb : Member K}
    (h : Describes f mats nodes el mb) :
    ∃ k' m' : Matrix (Fin (n * nd)) (Fin (n * nd)) K, locRow tab mats nodes (some f) el =
      .ok (.mat (n * nd) (n * nd) k', .mat (n * nd) (n * nd) m') ∧ ∀ g ∈ el.drop 3, ∃ p, Resolves nodes.length g p := by
  obtain ⟨ty, mi, params, rows, f', kl, ml, a1, a2, ⟨q, a3, a4⟩, a5, a6, rfl, a8, a9⟩ := h
  have hloc : locRow tab mats nodes (some f') el = .ok (kl, ml) := by
    unfold locRow retriever
    have e0 : pyGet [el] ((0 : ℕ) : ℤ) = .ok el := pyGet_nat.2 rfl
    have er : pyGetMany nodes (el.drop 3) = .ok rows :=
      mapM_ok.2 (forall₂_comp (S := fun p row => nodes[p]? = some row)
        (T := fun a b => pyGet nodes a = .ok b) (fun _ _ _ r s => resolves_pyGet r s)
        a5 a6)
    rw [e0, ok_bind, pyGet_one.2 a1, ok_bind, pyGet_two.2 a2, ok_bind, resolves_pyGet a3 a4, ok_bind, er,
      ok_bind]
    exact a8
  obtain ⟨⟨k', rfl⟩, ⟨m', rfl⟩⟩ := hf _ _ _ _ (by rw [List.length_map, ← a6.length_eq, ← a5.length_eq, hn]) a8
  refine ⟨k', m', hloc, fun g hg => ?_⟩
  obtain ⟨i, hi, rfl⟩ := List.mem_iff_getElem.1 hg
  exact ⟨_, a5.get (i := i) hi (by rw [← a5.length_eq]; exact hi)⟩

theorem user_setup (hf : ElementOf nd n f) (hu : UserModel nd n cons nodes elements) (hc : Counts count (n * nd) elements)
    (h0 : 0 < n * nd) (hm : n * nd ≤ m) (h1 : dme cons elements nd m (some count) = .ok (op, bc, neq)) {sparse : Bool}
    {Kg Mg : Matrix (Fin neq) (Fin neq) K} (h2 : assembler tab elements mats nodes neq op sparse (some f) = .ok (Kg, Mg)) :
    ∃ ms, Setup (fun _ g => g = f) cons elements mats nodes nd neq bc Kg ms := by
  refine setup_of_assembly (uel := some f) (fun ty g h => ?_) h1 hu.codes hu.width hu.size (by omega) h2 ?_
  · rcases h with h | ⟨h, _⟩
    · simpa using h.symm
    · cases h
  · intro el hel ty g coord params kl ml hty h hcl hk
    rcases h with h | ⟨h, _⟩
    · obtain rfl : f = g := by simpa using h
      rw [hu.typed el hel] at hcl ⊢
      obtain ⟨⟨M, rfl⟩, -⟩ := hf _ _ _ _ hcl hk
      obtain ⟨ty', h3, h4⟩ := hc el hel
      rw [hty, Option.some.injEq] at h3
      subst h3
      exact ⟨mul_comm _ _, _, h0, h4⟩
    · cases h

theorem describes_unique {el : List ℤ} {m m' : Member K} (h : Describes f mats nodes el m) (h' : Describes f mats nodes el m') : m = m' :=
  isMember_unique_of (fun _ _ _ h h' => h.trans h'.symm) h h'

theorem describes_all_unique {ms' : List (Member K)} (h : List.Forall₂ (Describes f mats nodes) elements ms)
    (h' : List.Forall₂ (Describes f mats nodes) elements ms') : ms = ms' := by
  induction h generalizing ms' with
  | nil => cases h'; rfl
  | cons a _ ih =>
    cases h' with
    | cons b t => rw [describes_unique a b, ih t]

/-- C135.  Numbering and assembly succeed, sparse or dense. -/
theorem C135_assembled (hf : ElementOf nd n f) (hu : UserModel nd n cons nodes elements) (hc : Counts count (n * nd) elements)
    (h0 : 0 < n * nd) (hm : n * nd ≤ m) (hms : List.Forall₂ (Describes f mats nodes) elements ms) (sparse : Bool) :
    ∃ op bc neq Kg Mg, dme cons elements nd m (some count) = .ok (op, bc, neq) ∧
      assembler tab elements mats nodes neq op sparse (some f) = .ok (Kg, Mg) := by
  have hnd : 0 < nd := Nat.pos_of_mul_pos_left h0
  have hmem : ∀ el ∈ elements, ∃ m, Describes f mats nodes el m := by
    intro el hel
    obtain ⟨i, hi, rfl⟩ := List.mem_iff_getElem.1 hel
    exact ⟨_, hms.get (i := i) hi (by rw [← hms.length_eq]; exact hi)⟩
  obtain ⟨op, bc, neq, hd⟩ := user_dme hu hc hm fun el hel => by
    obtain ⟨m, hm⟩ := hmem el hel
    obtain ⟨_, _, _, hr⟩ := user_local (tab := tab) hf (hu.typed el hel) hm
    exact hr
  have heq := (dme_ok.1 hd).1
  have hsteps : ∀ In : ℤ → Prop, (∀ g : ℤ, 0 ≤ g → g < neq → In g) → ∀ e < elements.length,
      StepOk In tab elements mats nodes op (some f) e := by
    intro In hIn e he
    have hel := List.getElem_mem he
    obtain ⟨mb, hmb⟩ := hmem _ hel
    have h3 := hu.typed _ hel
    obtain ⟨k', m', hloc, hres⟩ := user_local (tab := tab) hf h3 hmb
    have hoe : e < op.length := by rw [(C04_operator_row_count hd).1]; exact he
    refine ⟨_, op[e], (retriever_row (List.getElem?_eq_getElem he)).trans hloc, List.getElem?_eq_getElem hoe, ?_⟩
    obtain ⟨ty, hty, hdof⟩ := hc _ hel
    have key : ∀ r < n * nd, ∃ g, (op[e])[r]? = some g ∧ (g = -1 ∨ In g) := by
      intro r hr
      have hk : r / nd < ((elements[e]).drop 3).length := by
        rw [h3]
        exact Nat.div_lt_of_lt_mul (by rwa [mul_comm])
      obtain ⟨p, hpr⟩ := hres _ (List.getElem_mem hk)
      rw [← hu.size] at hpr
      have hg : (elements[e])[3 + r / nd]? = some (((elements[e]).drop 3)[r / nd]) := by
        rw [← List.getElem?_drop]
        exact List.getElem?_eq_getElem hk
      have e1 := C04_operator_row_entries hd hu.width (List.getElem?_eq_getElem he) hty
        (n := n * nd) hdof h0 (by omega) hg hpr (j := r % nd) (Nat.mod_lt _ hnd)
      rw [Nat.div_add_mod] at e1
      have e2 : entry op e r = (op[e])[r]? := by
        unfold entry
        rw [List.getElem?_eq_getElem hoe]
        rfl
      rw [← e2, e1]
      rcases free_or_fixed heq hu.codes (p := p) (j := r % nd) hpr.1 (Nat.mod_lt _ hnd) with
        ⟨_, i, _, hi⟩ | ⟨_, hi, _⟩
      · exact ⟨_, hi, Or.inr (hIn _ (by omega) (by exact_mod_cast i.2))⟩
      · exact ⟨_, hi, Or.inl rfl⟩
    intro r hr
    rw [List.mem_range] at hr
    obtain ⟨gr, h1, h2⟩ := key r hr
    refine ⟨gr, h1, fun hne c hc => ?_⟩
    rw [List.mem_range] at hc
    obtain ⟨gc, h3, h4⟩ := key c hc
    exact ⟨gc, h3, fun hne' => ⟨h2.resolve_left hne, h4.resolve_left hne', ⟨hr, hc⟩, ⟨hr, hc⟩⟩⟩
  cases sparse with
  | true => exact ⟨op, bc, neq, _, _, hd, sparseAssem_spec.1 (hsteps (InC neq) fun g h1 h2 => ⟨h1, h2⟩)⟩
  | false => exact ⟨op, bc, neq, _, _, hd, denseAssem_spec.1 (hsteps (InR neq) fun g h1 h2 => ⟨by omega, h2⟩)⟩

/-- C135.  For a stable model the analysis returns displacements that vanish at the supports and balance the loads at
every free degree of freedom. -/
theorem C135_solved (hf : ElementOf nd n f) (hu : UserModel nd n cons nodes elements) (hc : Counts count (n * nd) elements)
    (h0 : 0 < n * nd) (hm : n * nd ≤ m) (hms : List.Forall₂ (Describes f mats nodes) elements ms)
    (hst : Stable cons nd ms) {sp de : Sol.Solver K} (hsp : SolverOk sp) (hde : SolverOk de) (sparse : Bool)
    (hl : ∀ L ∈ loads, nd + 1 ≤ L.length ∧ ∃ p, Names nodes.length L p) :
    ∃ full, userRun tab f nd m count sp de sparse cons elements mats nodes loads = .ok full ∧
      Equilibrium cons nd loads ms (fieldOf full) := by
  obtain ⟨op, bc, neq, Kg, Mg, h1, h2⟩ := C135_assembled (tab := tab) hf hu hc h0 hm hms sparse
  have heq := (dme_ok.1 h1).1
  obtain ⟨rhs, h3⟩ := C13_load_success (loads := loads) heq hu.codes (by rw [hu.size]; exact hl)
  obtain ⟨ms', s⟩ := user_setup hf hu hc h0 hm h1 h2
  obtain rfl := describes_all_unique hms s.mem
  have hso : SolverOk (if sparse then sp else de) := by cases sparse <;> simpa
  obtain ⟨x, h4, h5⟩ := hso neq Kg rhs (det_ne_zero_of_stable s hst)
  obtain ⟨full, h6, _⟩ := C15_constrained_zero heq hu.codes x
  refine ⟨full, userRun_ok.2 ⟨op, bc, neq, Kg, Mg, rhs, x, h1, h2, h3, h4, ?_⟩, ?_⟩
  · rw [← hu.size]; exact h6
  · exact (equilibrium_iff s h3 (completes_of_completeDisp h6)).2 h5

/-- C135.  These displacements are the only ones: whatever field balances the loads is the one returned. -/
theorem C135_unique (hf : ElementOf nd n f) (hu : UserModel nd n cons nodes elements) (hc : Counts count (n * nd) elements)
    (h0 : 0 < n * nd) (hm : n * nd ≤ m) (hms : List.Forall₂ (Describes f mats nodes) elements ms)
    (hst : Stable cons nd ms) {sp de : Sol.Solver K} (hsp : SolverOk sp) (hde : SolverOk de) {sparse : Bool} {full : Table K}
    (h : userRun tab f nd m count sp de sparse cons elements mats nodes loads = .ok full) {V : ℕ → ℕ → K}
    (hV : Equilibrium cons nd loads ms V) : ∀ p j, p < nodes.length → j < nd → entry full p j = some (V p j) := by
  obtain ⟨op, bc, neq, Kg, Mg, rhs, x, h1, h2, h3, h4, h6⟩ := userRun_ok.1 h
  obtain ⟨ms', s⟩ := user_setup hf hu hc h0 hm h1 h2
  obtain rfl := describes_all_unique hms s.mem
  have hso : SolverOk (if sparse then sp else de) := by cases sparse <;> simpa
  obtain ⟨x', h4', h5⟩ := hso neq Kg rhs (det_ne_zero_of_stable s hst)
  rw [h4, Except.ok.injEq] at h4'
  subst h4'
  have h6' := h6
  rw [← hu.size] at h6'
  have hU := (equilibrium_iff s h3 (completes_of_completeDisp h6')).2 h5
  intro p j hp hj
  rw [← equilibrium_unique hst hU hV p j (by rw [hu.size]; exact hp) hj]
  obtain ⟨g, y, hg, hy, hc⟩ := Post.completeDisp_entry h6 hp hj
  unfold fieldOf
  rw [hy, Option.getD_some]

/-- C135.  The assembled stiffness is nonsingular exactly when the model is stable. -/
theorem C135_stable_iff (hf : ElementOf nd n f) (hu : UserModel nd n cons nodes elements) (hc : Counts count (n * nd) elements)
    (h0 : 0 < n * nd) (hm : n * nd ≤ m) (hms : List.Forall₂ (Describes f mats nodes) elements ms)
    (h1 : dme cons elements nd m (some count) = .ok (op, bc, neq)) {sparse : Bool}
    {Kg Mg : Matrix (Fin neq) (Fin neq) K} (h2 : assembler tab elements mats nodes neq op sparse (some f) = .ok (Kg, Mg)) :
    Stable cons nd ms ↔ Kg.det ≠ 0 := by
  obtain ⟨ms', s⟩ := user_setup hf hu hc h0 hm h1 h2
  obtain rfl := describes_all_unique hms s.mem
  exact ⟨det_ne_zero_of_stable s, stable_of_det_ne_zero s⟩

end
end SolidsPy
