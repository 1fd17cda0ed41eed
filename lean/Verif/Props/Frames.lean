import Verif.Props.Success
import Verif.Props.Beams

/-! # C117: plane frames of beams

The frame of the tests, solved exactly, is `testFrame_solved` in `Verif/Props/BeamLine.lean`. -/

set_option linter.unusedSectionVars false

namespace SolidsPy
open Spec Assem Matrix

section
variable {K : Type} [Field K] [LinearOrder K] [IsStrictOrderedRing K] [FloorRing K]
variable {sq : K → K} {cons mats nodes loads : Table K} {elements : List (List ℤ)} {ms : List (Member K)}
  {op bc : List (List ℤ)} {neq : ℕ}

/-- A frame: three constraint codes (0 or -1) per node, and two-node beams of either kind. -/
structure Spec.Frame (cons nodes : Table K) (elements : List (List ℤ)) : Prop where
  codes : ValidCons cons 3
  width : ∀ r ∈ cons, r.length = 3
  size : cons.length = nodes.length
  beams : ∀ el ∈ elements, (el[1]? = some 7 ∨ el[1]? = some 8) ∧ (el.drop 3).length = 2

/-- Both beam routines return 6 x 6 arrays. -/
theorem beams_mat {ty : ℤ} (hty : ty = 7 ∨ ty = 8) {f : Uel K} (hf : Uel.eleFun sq ty = .ok f) {coord : Table K} {params : List K}
    {A B : NdArr K} (h : f coord params = .ok (A, B)) : (∃ M, A = .mat 6 6 M) ∧ ∃ M, B = .mat 6 6 M := by
  rcases hty with rfl | rfl
  · simp only [Uel.eleFun, Except.ok.injEq] at hf
    subst hf
    unfold Uel.beam2DU at h
    rw [bind_ok] at h
    obtain ⟨g, _, h⟩ := h
    dsimp only at h
    split at h
    · simp only [bind_ok, pure_ok, Prod.mk.injEq] at h
      obtain ⟨s, _, da, _, rfl, rfl⟩ := h
      exact ⟨⟨_, rfl⟩, ⟨_, rfl⟩⟩
    · simp at h
  · simp only [Uel.eleFun, Except.ok.injEq] at hf
    subst hf
    unfold Uel.beam2D at h
    rw [bind_ok] at h
    obtain ⟨g, _, h⟩ := h
    dsimp only at h
    split at h
    · simp only [bind_ok, pure_ok, Prod.mk.injEq] at h
      obtain ⟨s, _, b, _, M, _, rfl, rfl⟩ := h
      exact ⟨⟨_, rfl⟩, ⟨_, rfl⟩⟩
    · simp at h

theorem frame_setup (hf : Frame cons nodes elements) (h1 : dme cons elements 3 = .ok (op, bc, neq)) {sparse : Bool}
    {Kg Mg : Matrix (Fin neq) (Fin neq) K} (h2 : assembler (Uel.eleFun sq) elements mats nodes neq op sparse = .ok (Kg, Mg)) :
    ∃ ms, Setup (Routine sq) cons elements mats nodes 3 neq bc Kg ms := by
  refine setup_of_assembly (uel := none) (fun ty f h => ?_) h1 hf.codes hf.width hf.size (by omega) h2 ?_
  · rcases h with h | ⟨_, h⟩
    · simp at h
    · exact h
  · intro el hel ty f coord params kl ml hty h hcl hk
    rcases h with h | ⟨_, h⟩
    · simp at h
    · have h5 := eleFun_rows h hk
      obtain ⟨h6, h7⟩ := hf.beams el hel
      rw [hty] at h6
      simp only [Option.some.injEq] at h6
      unfold TypeDofs at h5
      rw [h7]
      refine ⟨by omega, 6, by omega, ?_⟩
      dsimp only
      unfold TypeDofs
      omega

theorem frame_members_unique {ms' : List (Member K)} (h : List.Forall₂ (IsMember (Routine sq) mats nodes) elements ms)
    (h' : List.Forall₂ (IsMember (Routine sq) mats nodes) elements ms') : ms = ms' := by
  induction h generalizing ms' with
  | nil => cases h'; rfl
  | cons a _ ih =>
    cases h' with
    | cons b t => rw [isMember_unique a b, ih t]

theorem eqcounter_three (hw : ∀ r ∈ cons, r.length = 3) : ∃ neq bc, eqcounter cons 3 = .ok (neq, bc) := by
  obtain ⟨⟨a, b⟩, hr⟩ := numberRows_exists (nd := 3) (t := truncTab cons) (n := 0) (by
    intro r hr
    simp only [truncTab, List.mem_map] at hr
    obtain ⟨r', hr', rfl⟩ := hr
    simp [hw r' hr'])
  exact ⟨b, a, by simp [eqcounter, hr, pure, Except.pure]⟩

theorem frame_dme (hf : Frame cons nodes elements) (hel : ∀ el ∈ elements, ∀ g ∈ el.drop 3, ∃ p, Resolves nodes.length g p) :
    ∃ op bc neq, dme cons elements 3 = .ok (op, bc, neq) := by
  obtain ⟨neq, bc, h1⟩ := eqcounter_three hf.width
  have hbl : bc.length = cons.length := by
    have := congrArg List.length (eqcounter_shape h1).1
    simpa using this
  obtain ⟨op, hop⟩ : ∃ op, elements.mapM (dmeRow bc 18 none) = .ok op := by
    rw [mapM_exists]
    intro el hm
    obtain ⟨h2, h3⟩ := hf.beams el hm
    have h5 := hel el hm
    obtain ⟨rows, hrows⟩ : ∃ rows, pyGetMany bc (el.drop 3) = .ok rows := by
      unfold pyGetMany
      rw [mapM_exists]
      intro g hg
      obtain ⟨p, hp⟩ := h5 g hg
      rw [← hf.size, ← hbl] at hp
      exact ⟨bc[p]'hp.1, pyGet_resolves.2 ⟨p, hp, List.getElem?_eq_getElem hp.1⟩⟩
    obtain ⟨hrw, hrl⟩ := pyGetMany_widths (bc_widths h1 hf.width) hrows
    have hfl := flatten_length hrw
    have hlen : rows.flatten.length = min 6 18 := by
      rw [hfl, hrl, h3]
      norm_num
    rcases h2 with h2 | h2
    · exact ⟨_, dmeRow_ok.2 ⟨7, 6, rows, h2, by simp [dofCount, TypeDofs], hrows,
        assignSlice_ok.2 (Or.inl ⟨hlen, rfl⟩)⟩⟩
    · exact ⟨_, dmeRow_ok.2 ⟨8, 6, rows, h2, by simp [dofCount, TypeDofs], hrows,
        assignSlice_ok.2 (Or.inl ⟨hlen, rfl⟩)⟩⟩
  exact ⟨op, bc, neq, dme_ok.2 ⟨h1, hop⟩⟩

/-- What `retriever` gives for a described beam. -/
theorem beam_local {el : List ℤ} {m : Member K} (h : IsMember (Routine sq) mats nodes el m) (hty : el[1]? = some 7 ∨ el[1]? = some 8) :
    ∃ k' m' : Matrix (Fin 6) (Fin 6) K, locRow (Uel.eleFun sq) mats nodes none el = .ok (.mat 6 6 k', .mat 6 6 m') ∧
      ∀ g ∈ el.drop 3, ∃ p, Resolves nodes.length g p := by
  obtain ⟨ty, mi, params, rows, f, kl, ml, a1, a2, ⟨q, a3, a4⟩, a5, a6, a7, a8, a9⟩ := h
  have hloc : locRow (Uel.eleFun sq) mats nodes none el = .ok (kl, ml) := by
    unfold locRow retriever
    have e0 : pyGet [el] ((0 : ℕ) : ℤ) = .ok el := pyGet_nat.2 rfl
    have er : pyGetMany nodes (el.drop 3) = .ok rows :=
      mapM_ok.2 (forall₂_comp (S := fun p row => nodes[p]? = some row)
        (T := fun a b => pyGet nodes a = .ok b) (fun _ _ _ r s => resolves_pyGet r s)
        a5 a6)
    rw [e0, ok_bind, pyGet_one.2 a1, ok_bind, pyGet_two.2 a2, ok_bind, resolves_pyGet a3 a4, ok_bind, er,
      ok_bind]
    dsimp only
    rw [a7, ok_bind, a8]
  obtain ⟨⟨k', rfl⟩, ⟨m', rfl⟩⟩ := beams_mat (by rw [a1] at hty; simpa using hty) a7 a8
  refine ⟨k', m', hloc, fun g hg => ?_⟩
  obtain ⟨i, hi, rfl⟩ := List.mem_iff_getElem.1 hg
  exact ⟨_, a5.get (i := i) hi (by rw [← a5.length_eq]; exact hi)⟩

/-- Numbering and assembly of a frame succeed, sparse or dense. -/
theorem C117_assembled (hf : Frame cons nodes elements) (hms : List.Forall₂ (IsMember (Routine sq) mats nodes) elements ms)
    (sparse : Bool) : ∃ op bc neq Kg Mg, dme cons elements 3 = .ok (op, bc, neq) ∧
      assembler (Uel.eleFun sq) elements mats nodes neq op sparse = .ok (Kg, Mg) := by
  have hmem : ∀ el ∈ elements, ∃ m, IsMember (Routine sq) mats nodes el m := by
    intro el hel
    obtain ⟨i, hi, rfl⟩ := List.mem_iff_getElem.1 hel
    exact ⟨_, hms.get (i := i) hi (by rw [← hms.length_eq]; exact hi)⟩
  obtain ⟨op, bc, neq, hd⟩ := frame_dme hf fun el hel => by
    obtain ⟨m, hm⟩ := hmem el hel
    obtain ⟨_, _, _, hr⟩ := beam_local hm (hf.beams el hel).1
    exact hr
  have heq := (dme_ok.1 hd).1
  have hsteps : ∀ In : ℤ → Prop, (∀ g : ℤ, 0 ≤ g → g < neq → In g) → ∀ e < elements.length,
      StepOk In (Uel.eleFun sq) elements mats nodes op none e := by
    intro In hIn e he
    have hel := List.getElem_mem he
    obtain ⟨m, hm⟩ := hmem _ hel
    obtain ⟨h2, h3⟩ := hf.beams _ hel
    obtain ⟨k', m', hloc, hres⟩ := beam_local hm h2
    have hoe : e < op.length := by rw [(C04_operator_row_count hd).1]; exact he
    refine ⟨_, op[e], (retriever_row (List.getElem?_eq_getElem he)).trans hloc, List.getElem?_eq_getElem hoe, ?_⟩
    obtain ⟨ty, hty, hdof⟩ : ∃ ty, (elements[e])[1]? = some ty ∧ TypeDofs ty 6 := by
      rcases h2 with h2 | h2
      · exact ⟨7, h2, by simp [TypeDofs]⟩
      · exact ⟨8, h2, by simp [TypeDofs]⟩
    have key : ∀ r < 6, ∃ g, (op[e])[r]? = some g ∧ (g = -1 ∨ In g) := by
      intro r hr
      have hk : r / 3 < ((elements[e]).drop 3).length := by rw [h3]; omega
      obtain ⟨p, hpr⟩ := hres _ (List.getElem_mem hk)
      rw [← hf.size] at hpr
      have hg : (elements[e])[3 + r / 3]? = some (((elements[e]).drop 3)[r / 3]) := by
        rw [← List.getElem?_drop]
        exact List.getElem?_eq_getElem hk
      have e1 := C04_operator_row_entries hd hf.width (List.getElem?_eq_getElem he) hty
        (n := 6) hdof (by omega) (by omega) hg hpr (j := r % 3) (Nat.mod_lt _ (by omega))
      rw [Nat.div_add_mod] at e1
      have e2 : entry op e r = (op[e])[r]? := by
        unfold entry
        rw [List.getElem?_eq_getElem hoe]
        rfl
      rw [← e2, e1]
      rcases free_or_fixed heq hf.codes (p := p) (j := r % 3) hpr.1 (Nat.mod_lt _ (by omega)) with
        ⟨_, i, _, hi⟩ | ⟨_, hi, _⟩
      · exact ⟨_, hi, Or.inr (hIn _ (by omega) (by exact_mod_cast i.2))⟩
      · exact ⟨_, hi, Or.inl rfl⟩
    intro r hr
    rw [List.mem_range] at hr
    obtain ⟨gr, h1, h2⟩ := key r hr
    refine ⟨gr, h1, fun hne c hc => ?_⟩
    rw [List.mem_range] at hc
    obtain ⟨gc, h3, h4⟩ := key c hc
    exact ⟨gc, h3, fun hne' => ⟨h2.resolve_left hne, h4.resolve_left hne', ⟨hr, hc⟩, ⟨hr, hc⟩⟩⟩
  cases sparse with
  | true => exact ⟨op, bc, neq, _, _, hd, sparseAssem_spec.1 (hsteps (InC neq) fun g h1 h2 => ⟨h1, h2⟩)⟩
  | false => exact ⟨op, bc, neq, _, _, hd, denseAssem_spec.1 (hsteps (InR neq) fun g h1 h2 => ⟨by omega, h2⟩)⟩

/-- The steps of a static analysis of a frame, as in `/repo/tests/test_integration.py:102-126`, followed by `complete_disp`. -/
def frameRun (sq : K → K) (sp de : Sol.Solver K) (sparse : Bool) (cons : Table K) (elements : List (List ℤ)) (mats nodes loads : Table K) :
    Py (Table K) := do
  let (op, bc, neq) ← dme cons elements 3
  let (stiff, _) ← assembler (Uel.eleFun sq) elements mats nodes neq op sparse
  let rhs ← loadasem loads bc neq 3
  let sol ← Sol.staticSol sp de (if sparse then .csr else .ndarray) stiff rhs
  Post.completeDisp bc nodes.length sol 3

theorem frameRun_ok {sp de : Sol.Solver K} {sparse : Bool} {full : Table K} :
    frameRun sq sp de sparse cons elements mats nodes loads = .ok full ↔
      ∃ op bc neq Kg Mg rhs x, dme cons elements 3 = .ok (op, bc, neq) ∧
        assembler (Uel.eleFun sq) elements mats nodes neq op sparse = .ok (Kg, Mg) ∧ loadasem loads bc neq 3 = .ok rhs ∧
        (if sparse then sp else de) neq Kg rhs = .ok x ∧ Post.completeDisp bc nodes.length x 3 = .ok full := by
  unfold frameRun
  simp only [bind_ok, Prod.exists]
  cases sparse <;> simp [Sol.staticSol]

/-- C117.  For a stable frame the analysis returns displacements that vanish at the supports and balance the loads - forces and
couples - at every free degree of freedom. -/
theorem C117_solved (hf : Frame cons nodes elements) (hms : List.Forall₂ (IsMember (Routine sq) mats nodes) elements ms)
    (hst : Stable cons 3 ms) {sp de : Sol.Solver K} (hsp : SolverOk sp) (hde : SolverOk de) (sparse : Bool)
    (hl : ∀ L ∈ loads, 4 ≤ L.length ∧ ∃ p, Names nodes.length L p) :
    ∃ full, frameRun sq sp de sparse cons elements mats nodes loads = .ok full ∧ Equilibrium cons 3 loads ms (fieldOf full) := by
  obtain ⟨op, bc, neq, Kg, Mg, h1, h2⟩ := C117_assembled hf hms sparse
  have heq := (dme_ok.1 h1).1
  obtain ⟨rhs, h3⟩ := C13_load_success (loads := loads) heq hf.codes (by rw [hf.size]; exact hl)
  obtain ⟨ms', s⟩ := frame_setup hf h1 h2
  obtain rfl := frame_members_unique hms s.mem
  have hso : SolverOk (if sparse then sp else de) := by cases sparse <;> simpa
  obtain ⟨x, h4, h5⟩ := hso neq Kg rhs (det_ne_zero_of_stable s hst)
  obtain ⟨full, h6, _⟩ := C15_constrained_zero heq hf.codes x
  refine ⟨full, frameRun_ok.2 ⟨op, bc, neq, Kg, Mg, rhs, x, h1, h2, h3, h4, ?_⟩, ?_⟩
  · rw [← hf.size]; exact h6
  · exact (equilibrium_iff s h3 (completes_of_completeDisp h6)).2 h5

/-- C117.  These displacements are the only ones: whatever field balances the loads is the one returned. -/
theorem C117_unique (hf : Frame cons nodes elements) (hms : List.Forall₂ (IsMember (Routine sq) mats nodes) elements ms)
    (hst : Stable cons 3 ms) {sp de : Sol.Solver K} (hsp : SolverOk sp) (hde : SolverOk de) {sparse : Bool} {full : Table K}
    (h : frameRun sq sp de sparse cons elements mats nodes loads = .ok full) {V : ℕ → ℕ → K} (hV : Equilibrium cons 3 loads ms V) :
    ∀ p j, p < nodes.length → j < 3 → entry full p j = some (V p j) := by
  obtain ⟨op, bc, neq, Kg, Mg, rhs, x, h1, h2, h3, h4, h6⟩ := frameRun_ok.1 h
  obtain ⟨ms', s⟩ := frame_setup hf h1 h2
  obtain rfl := frame_members_unique hms s.mem
  have hso : SolverOk (if sparse then sp else de) := by cases sparse <;> simpa
  obtain ⟨x', h4', h5⟩ := hso neq Kg rhs (det_ne_zero_of_stable s hst)
  rw [h4, Except.ok.injEq] at h4'
  subst h4'
  have h6' := h6
  rw [← hf.size] at h6'
  have hU := (equilibrium_iff s h3 (completes_of_completeDisp h6')).2 h5
  intro p j hp hj
  rw [← equilibrium_unique hst hU hV p j (by rw [hf.size]; exact hp) hj]
  obtain ⟨g, y, hg, hy, hc⟩ := Post.completeDisp_entry h6 hp hj
  unfold fieldOf
  rw [hy, Option.getD_some]

/-- C117.  The stiffness of the frame is nonsingular exactly when the frame is stable. -/
theorem C117_stable_iff (hf : Frame cons nodes elements) (hms : List.Forall₂ (IsMember (Routine sq) mats nodes) elements ms)
    (h1 : dme cons elements 3 = .ok (op, bc, neq)) {sparse : Bool}
    {Kg Mg : Matrix (Fin neq) (Fin neq) K} (h2 : assembler (Uel.eleFun sq) elements mats nodes neq op sparse = .ok (Kg, Mg)) :
    Stable cons 3 ms ↔ Kg.det ≠ 0 := by
  obtain ⟨ms', s⟩ := frame_setup hf h1 h2
  obtain rfl := frame_members_unique hms s.mem
  exact ⟨det_ne_zero_of_stable s, stable_of_det_ne_zero s⟩

end
end SolidsPy
