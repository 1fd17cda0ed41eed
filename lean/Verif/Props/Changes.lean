import Verif.Props.Orders
import Verif.Props.Balance
import Verif.Props.Beside
import Verif.Props.Variation
import Verif.Props.UserEnergy

/-! # C158: changes to a model that leave its displacements alone -/

set_option linter.unusedSectionVars false

namespace SolidsPy
open Spec Assem

section
variable {K : Type} [Field K] [LinearOrder K] [IsStrictOrderedRing K] [FloorRing K]
variable {sq : K → K} {sp de : Sol.Solver K} {d : Gui.Data K} {ms : List (Member K)} {plot : Bool} {res : Gui.Result K}

/-- If the displacements of one model are an equilibrium of another with as many nodes, they are its displacements. -/
theorem same_disp (hwf : WellFormed d) (hsp : SolverOk sp) (hms : Members sq d ms) (hst : Stable d.cons 2 ms)
    (h : Gui.solidsAuto sq sp de d plot = .ok res) {disp : Table K} (s : disp.length = d.nodes.length ∧ ∀ r ∈ disp, r.length = 2)
    (he : Equilibrium d.cons 2 d.loads ms (fieldOf disp)) : res.disp = disp := by
  obtain ⟨s2, -⟩ := C18_nodal_equilibrium hwf hsp hms hst h
  refine table_ext s2 s fun p j hq hj => ?_
  rw [C19_only_equilibrium hwf hsp hms hst h he p j hq hj]
  unfold fieldOf entry
  have a1 : p < disp.length := by rw [s.1]; exact hq
  have a2 := s.2 _ (List.getElem_mem a1)
  rw [List.getElem?_eq_getElem a1, Option.bind_some, List.getElem?_eq_getElem (by omega)]
  rfl

/-- C158.  Supports may be replaced by the forces they exert.  `F` are the loads, `R` the reactions.  Free some held degrees of freedom, and
load each of them with its load plus its reaction: if the freed model is stable it is solved, with the same displacements. -/
theorem C158_supports_as_forces (hp : PlaneModel d) (hwf : WellFormed d) (hsp : SolverOk sp) (hms : Members sq d ms) (hst : Stable d.cons 2 ms)
    (hfree : ∃ p j, Free d.cons 2 p j) (h : Gui.solidsAuto sq sp de d plot = .ok res) {F R : ℕ → ℕ → K} (hF : LoadField d F)
    (hR : ∀ p j, R p j = internal 2 ms (fieldOf res.disp) p j - F p j) {cons' loads' : Table K}
    (hwf' : WellFormed { d with cons := cons', loads := loads' }) (hst' : Stable cons' 2 ms)
    (hl' : ∀ L ∈ loads', 3 ≤ L.length ∧ ∃ p, Names d.nodes.length L p)
    (hold : ∀ p j, Free d.cons 2 p j → Free cons' 2 p j ∧ IsLoad d.nodes.length loads' p j (F p j))
    (hnew : ∀ p j, ¬ Free d.cons 2 p j → Free cons' 2 p j → IsLoad d.nodes.length loads' p j (F p j + R p j)) :
    ∃ res', Gui.solidsAuto sq sp de { d with cons := cons', loads := loads' } false = .ok res' ∧ res'.disp = res.disp := by
  have sz : cons'.length = d.nodes.length := hwf'.size
  obtain ⟨res', h'⟩ := C93_solids_auto_returns (d := { d with cons := cons', loads := loads' }) (de := de) ⟨hp.nodes, hp.types⟩ hwf' hsp hms hst' (by
    obtain ⟨p, j, hf⟩ := hfree
    exact ⟨p, j, (hold p j hf).1⟩) hl'
  obtain ⟨s1, e1⟩ := C18_nodal_equilibrium hwf hsp hms hst h
  refine ⟨res', h', same_disp hwf' hsp hms hst' h' s1 ⟨fun p j hq hj hn => ?_, fun p j hf => ?_⟩⟩
  · refine e1.1 p j ?_ hj fun hf => hn (hold p j hf).1
    rw [hwf.size, ← sz]
    exact hq
  · show IsLoad cons'.length loads' p j _
    rw [sz]
    by_cases ho : Free d.cons 2 p j
    · have h1 := e1.2 p j ho
      have hpl := free_lt ho
      rw [hwf.size] at h1 hpl
      rw [isLoad_unique h1 (hF p j hpl ho.1)]
      exact (hold p j ho).2
    · have h1 := hnew p j ho hf
      rw [hR] at h1
      simpa using h1

/-- C158.  What does not move may be held: fix, besides the given supports, degrees of freedom whose displacement is 0.  The model is still
stable and is solved with the same displacements (materials physical, something left free). -/
theorem C158_holding (hs : SqrtFn sq) (hp : PlaneModel d) (hphys : Physical d) (hwf : WellFormed d) (hsp : SolverOk sp) (hms : Members sq d ms)
    (hst : Stable d.cons 2 ms) (hl : ∀ L ∈ d.loads, 3 ≤ L.length ∧ ∃ p, Names d.nodes.length L p)
    (h : Gui.solidsAuto sq sp de d plot = .ok res) {cons' : Table K} (hwf' : WellFormed { d with cons := cons' })
    (hsub : ∀ p j, Free cons' 2 p j → Free d.cons 2 p j) (hfree : ∃ p j, Free cons' 2 p j)
    (hzero : ∀ p j, Free d.cons 2 p j → ¬ Free cons' 2 p j → entry res.disp p j = some 0) :
    Stable cons' 2 ms ∧ ∃ res', Gui.solidsAuto sq sp de { d with cons := cons' } false = .ok res' ∧ res'.disp = res.disp := by
  have sz : cons'.length = d.nodes.length := hwf'.size
  have hst' : Stable cons' 2 ms := by
    refine (C93_stable_iff (d := { d with cons := cons' }) hs ⟨hp.nodes, hp.types⟩ hwf' hphys hms).2 fun u ha h0 p j hq hj => ?_
    refine (C93_stable_iff hs hp hwf hphys hms).1 hst u (fun p j hq hj hn => ha p j ?_ hj fun hf => hn (hsub p j hf)) h0 p j ?_ hj
    · show p < cons'.length
      rw [sz, ← hwf.size]
      exact hq
    · rw [hwf.size, ← sz]
      exact hq
  obtain ⟨res', h'⟩ := C93_solids_auto_returns (d := { d with cons := cons' }) (de := de) ⟨hp.nodes, hp.types⟩ hwf' hsp hms hst' hfree hl
  obtain ⟨s1, e1⟩ := C18_nodal_equilibrium hwf hsp hms hst h
  refine ⟨hst', res', h', same_disp hwf' hsp hms hst' h' s1 ⟨fun p j hq hj hn => ?_, fun p j hf => ?_⟩⟩
  · by_cases ho : Free d.cons 2 p j
    · unfold fieldOf
      rw [hzero p j ho hn]
      rfl
    · refine e1.1 p j ?_ hj ho
      rw [hwf.size, ← sz]
      exact hq
  · have h1 := e1.2 p j (hsub p j hf)
    rw [hwf.size] at h1
    show IsLoad cons'.length d.loads p j _
    rw [sz]
    exact h1

/-- C158.  An element that carries nothing may be taken out: if the element `el` exerts no force on any of its nodes and the model without
it is stable, that model is solved with the same displacements. -/
theorem C158_idle_element (hp : PlaneModel d) (hwf : WellFormed d) (hsp : SolverOk sp) {l1 l2 : List (List ℤ)} {el : List ℤ}
    (hels : d.elements = l1 ++ el :: l2) {m1 m2 : List (Member K)} {m : Member K} (hlen : m1.length = l1.length)
    (hms : Members sq d (m1 ++ m :: m2)) (hst : Stable d.cons 2 (m1 ++ m :: m2)) (hfree : ∃ p j, Free d.cons 2 p j)
    (hl : ∀ L ∈ d.loads, 3 ≤ L.length ∧ ∃ p, Names d.nodes.length L p) (h : Gui.solidsAuto sq sp de d plot = .ok res)
    (hidle : ∀ a < m.nodes.length, ∀ j < 2, m.force 2 (fieldOf res.disp) a j = 0) (hst' : Stable d.cons 2 (m1 ++ m2)) :
    ∃ res', Gui.solidsAuto sq sp de { d with elements := l1 ++ l2 } false = .ok res' ∧ res'.disp = res.disp := by
  have hms' : Members sq { d with elements := l1 ++ l2 } (m1 ++ m2) := by
    unfold Members at hms ⊢
    rw [hels] at hms
    have a := List.forall₂_take_append _ _ _ hms
    have b := List.forall₂_drop_append _ _ _ hms
    rw [hlen, List.take_left] at a
    rw [hlen, List.drop_left] at b
    cases b with
    | cons _ b => exact List.rel_append a b
  have hp' : PlaneModel { d with elements := l1 ++ l2 } := by
    refine ⟨hp.nodes, fun x hx => hp.types x ?_⟩
    rw [hels]
    have : x ∈ l1 ++ l2 := hx
    simp only [List.mem_append, List.mem_cons] at this ⊢
    tauto
  have hwf' : WellFormed { d with elements := l1 ++ l2 } := ⟨hwf.codes, hwf.width, hwf.size⟩
  obtain ⟨res', h'⟩ := C93_solids_auto_returns (de := de) hp' hwf' hsp hms' hst' hfree hl
  obtain ⟨s1, e1⟩ := C18_nodal_equilibrium hwf hsp hms hst h
  refine ⟨res', h', same_disp hwf' hsp hms' hst' h' s1 ⟨e1.1, fun p j hf => ?_⟩⟩
  have h1 := e1.2 p j hf
  have e : internal 2 (m1 ++ m :: m2) (fieldOf res.disp) p j = internal 2 (m1 ++ m2) (fieldOf res.disp) p j := by
    rw [internal_append, internal_append]
    congr 1
    unfold internal
    rw [List.map_cons, List.sum_cons, Finset.sum_eq_zero, zero_add]
    intro a ha
    split
    · exact hidle a (Finset.mem_range.1 ha) j hf.1
    · rfl
  rw [e] at h1
  exact h1

/-- C158.  The same for models of the user's own elements: supports replaced by their forces. -/
theorem C158_user_supports {f : Uel K} {tab : ℤ → Py (Uel K)} {nd n m : ℕ} {count : ℤ → Py ℕ} {cons cons' mats nodes loads loads' : Table K}
    {elements : List (List ℤ)} (c : UserCase nd n m f count sp de cons elements mats nodes ms) (c' : UserCase nd n m f count sp de cons' elements mats nodes ms)
    (hst : Stable cons nd ms) (hst' : Stable cons' nd ms) {sparse sparse' : Bool} {full : Table K}
    (hl : ∀ L ∈ loads, nd + 1 ≤ L.length ∧ ∃ p, Names nodes.length L p) (hl' : ∀ L ∈ loads', nd + 1 ≤ L.length ∧ ∃ p, Names nodes.length L p)
    (h : userRun tab f nd m count sp de sparse cons elements mats nodes loads = .ok full) {F R : ℕ → ℕ → K} (hF : UserLoads nd nodes.length loads F)
    (hR : ∀ p j, R p j = internal nd ms (fieldOf full) p j - F p j)
    (hold : ∀ p j, Free cons nd p j → Free cons' nd p j ∧ IsLoad nodes.length loads' p j (F p j))
    (hnew : ∀ p j, ¬ Free cons nd p j → Free cons' nd p j → IsLoad nodes.length loads' p j (F p j + R p j)) :
    ∃ full', userRun tab f nd m count sp de sparse' cons' elements mats nodes loads' = .ok full' ∧
      ∀ p j, p < nodes.length → j < nd → fieldOf full' p j = fieldOf full p j := by
  obtain ⟨full', h', -⟩ := C135_solved (tab := tab) (loads := loads') c'.element c'.model c'.counts c'.some_dofs c'.room c'.members hst' c'.sparse c'.dense sparse' hl'
  obtain ⟨full1, h1, e1⟩ := C135_solved (tab := tab) (loads := loads) c.element c.model c.counts c.some_dofs c.room c.members hst c.sparse c.dense sparse hl
  rw [h, Except.ok.injEq] at h1
  subst h1
  have sz := c.model.size
  have sz' := c'.model.size
  have hV : Equilibrium cons' nd loads' ms (fieldOf full) := by
    refine ⟨fun p j hq hj hn => e1.1 p j (by omega) hj fun hf => hn (hold p j hf).1, fun p j hf => ?_⟩
    rw [sz']
    by_cases ho : Free cons nd p j
    · have h1 := e1.2 p j ho
      have hpl := free_lt ho
      rw [sz] at h1 hpl
      rw [isLoad_unique h1 (hF p hpl j ho.1)]
      exact (hold p j ho).2
    · have h1 := hnew p j ho hf
      rw [hR] at h1
      simpa using h1
  refine ⟨full', h', fun p j hp hj => ?_⟩
  have := C135_unique c'.element c'.model c'.counts c'.some_dofs c'.room c'.members hst' c'.sparse c'.dense h' hV p j hp hj
  unfold fieldOf at this ⊢
  rw [this]
  rfl

/-! ## Labels -/

theorem pyGet_labels {α β γ : Type} {f : α → β} {l l' : List α} (h : l.map f = l'.map f) (i : ℤ) (g : α → Py γ) (g' : β → Py γ) (hg : ∀ a, g a = g' (f a)) :
    (pyGet l i >>= g) = (pyGet l' i >>= g) := by
  have key : ∀ l : List α, (pyGet l i >>= g) = (pyGet (l.map f) i >>= g') := by
    intro l
    rw [pyGet_map]
    cases pyGet l i with
    | error e => rfl
    | ok a => exact hg a
  rw [key, key, h]

theorem pyGetMany_labels {α β γ : Type} {f : α → β} {l l' : List α} (h : l.map f = l'.map f) (ids : List ℤ) (g : List β → Py γ) :
    (pyGetMany l ids >>= fun rows => g (rows.map f)) = (pyGetMany l' ids >>= fun rows => g (rows.map f)) := by
  have key : ∀ l : List α, ∀ g : List β → Py γ, (pyGetMany l ids >>= fun rows => g (rows.map f)) = (pyGetMany (l.map f) ids >>= g) := by
    intro l
    unfold pyGetMany
    induction ids with
    | nil => intro g; rfl
    | cons i ids ih =>
      intro g
      rw [List.mapM_cons, List.mapM_cons, pyGet_map]
      cases pyGet l i with
      | error e => rfl
      | ok a =>
        show ((List.mapM (pyGet l) ids >>= fun as => pure (a :: as)) >>= _) = ((List.mapM (pyGet (l.map f)) ids >>= fun as => pure (f a :: as)) >>= g)
        rw [bind_assoc, bind_assoc]
        exact ih fun r => g (f a :: r)
  rw [key, key, h]

theorem pyGet_nat_congr {α : Type} {l l' : List α} {n n' : ℕ} (h : l[n]? = l'[n']?) : pyGet l (n : ℤ) = pyGet l' (n' : ℤ) := by
  cases hx : pyGet l (n : ℤ) with
  | ok x =>
    rw [pyGet_nat, h] at hx
    exact (pyGet_nat.2 hx).symm
  | error e =>
    cases hy : pyGet l' (n' : ℤ) with
    | ok y =>
      rw [pyGet_nat, ← h, ← pyGet_nat, hx] at hy
      cases hy
    | error e' => rw [pyGet_error hx, pyGet_error hy]

theorem pyGet_drop {α : Type} (l : List α) (n : ℕ) : pyGet l ((n + 1 : ℕ) : ℤ) = pyGet (l.drop 1) (n : ℤ) :=
  pyGet_nat_congr (by rw [List.getElem?_drop, Nat.add_comm])

theorem retriever_labels {tab : ℤ → Py (Uel K)} {elements elements' : List (List ℤ)} {mats nodes nodes' : Table K} {uel : Option (Uel K)}
    (he : elements.map (List.drop 1) = elements'.map (List.drop 1)) (hn : nodes.map (List.drop 1) = nodes'.map (List.drop 1)) (i : ℕ) :
    retriever tab elements mats nodes i uel = retriever tab elements' mats nodes' i uel := by
  have step1 : retriever tab elements mats nodes i uel = retriever tab elements' mats nodes i uel := by
    unfold retriever
    refine pyGet_labels he _ _ (fun t => do
      let ty ← pyGet t 0
      let mi ← pyGet t 1
      let params ← pyGet mats mi
      let rows ← pyGetMany nodes (t.drop 2)
      let elcoor := rows.map (List.drop 1)
      let f ← match uel with
        | none => tab ty
        | some f => pure f
      f elcoor params) fun el => ?_
    rw [show (1 : ℤ) = ((0 + 1 : ℕ) : ℤ) from rfl, show (2 : ℤ) = ((1 + 1 : ℕ) : ℤ) from rfl, pyGet_drop, pyGet_drop, List.drop_drop]
    rfl
  rw [step1]
  unfold retriever
  congr 1
  funext el
  congr 1
  funext ty
  congr 1
  funext mi
  congr 1
  funext params
  exact pyGetMany_labels hn _ fun elcoor => do
    let f ← match uel with
      | none => tab ty
      | some f => pure f
    f elcoor params

/-- C158.  The first columns of the element and node tables are not read: two models that agree but for them give the same result or the
same error, whatever the solver. -/
theorem C158_labels {d' : Gui.Data K} (he : d.elements.map (List.drop 1) = d'.elements.map (List.drop 1))
    (hn : d.nodes.map (List.drop 1) = d'.nodes.map (List.drop 1)) (hc : d'.cons = d.cons) (hm : d'.mats = d.mats) (hl : d'.loads = d.loads) :
    Gui.solidsAuto sq sp de d false = Gui.solidsAuto sq sp de d' false := by
  have elen : d.elements.length = d'.elements.length := by simpa using congrArg List.length he
  have nlen : d.nodes.length = d'.nodes.length := by simpa using congrArg List.length hn
  have hrow : ∀ bc : List (List ℤ), d.elements.mapM (dmeRow bc 18 none) = d'.elements.mapM (dmeRow bc 18 none) := by
    intro bc
    have key : ∀ l : List (List ℤ), l.mapM (dmeRow bc 18 none) = (l.map (List.drop 1)).mapM (fun t =>
        pyGet t 0 >>= fun iet => (eletype iet >>= fun t => pure t.1) >>= fun ndof =>
          pyGetMany bc (t.drop 2) >>= fun rows => assignSlice 18 ndof rows.flatten) := by
      intro l
      rw [List.mapM_map]
      congr 1
      funext el
      unfold dmeRow
      rw [show (1 : ℤ) = ((0 + 1 : ℕ) : ℤ) from rfl, pyGet_drop]
      simp only [Function.comp_apply, List.drop_drop, bind_assoc]
      rfl
    rw [key, key, he]
  have hdme : dme d.cons d.elements = dme d'.cons d'.elements := by
    unfold dme
    rw [hc]
    simp only [hrow]
  have hass : ∀ neq op, assembler (Uel.eleFun sq) d.elements d.mats d.nodes neq op = assembler (Uel.eleFun sq) d'.elements d'.mats d'.nodes neq op := by
    intro neq op
    unfold assembler sparseAssem
    simp only [if_true]
    rw [hm, elen]
    simp only [retriever_labels he hn]
  unfold Gui.solidsAuto
  rw [hdme, hl, nlen]
  simp only [hass, Bool.false_eq_true, if_false]


end

/-! Cases on the truss of C92 (bars from nodes 0 and 1 to the loaded node 2). -/
section demo

/-- With its first column rewritten. -/
example : Gui.solidsAuto Real.sqrt cramerR cramerR trussR false = Gui.solidsAuto Real.sqrt cramerR cramerR
    { trussR with nodes := [[7, 0, 0], [7, 4, 0], [-3, 4, 3]], elements := [[5, 6, 0, 0, 2], [5, 6, 1, 1, 2]] } false :=
  C158_labels rfl rfl rfl rfl rfl

/-- The loaded node also held vertically. -/
noncomputable def trussRoller (loads : Table ℝ) : Gui.Data ℝ := { trussR with cons := [[-1, -1], [-1, -1], [0, -1]], loads := loads }

theorem trussRoller_wf (loads : Table ℝ) : WellFormed (trussRoller loads) := by
  refine ⟨?_, by simp [trussRoller], rfl⟩
  intro i j x hj hx
  obtain ⟨row, h1, h2⟩ := entry_some.1 hx
  have h1 := List.mem_of_getElem? h1
  have h2 := List.mem_of_getElem? h2
  simp only [trussRoller, List.mem_cons, List.not_mem_nil, or_false] at h1
  rcases h1 with rfl | rfl | rfl <;> simp at h2 <;> grind

theorem trussRoller_free {loads : Table ℝ} {p j : ℕ} : Free (trussRoller loads).cons 2 p j ↔ p = 2 ∧ j = 0 := by
  constructor
  · rintro ⟨hj, x, hx, h1, h2⟩
    obtain ⟨row, h3, h4⟩ := entry_some.1 hx
    have h5 := (List.getElem?_eq_some_iff.1 h3).1
    simp only [trussRoller, List.length_cons, List.length_nil] at h5
    interval_cases p <;> interval_cases j <;> simp [trussRoller] at h3 <;> subst h3 <;> simp at h4 <;> first | exact ⟨rfl, rfl⟩ | (exfalso; linarith)
  · rintro ⟨rfl, rfl⟩
    exact ⟨by omega, 0, by simp [entry, trussRoller], by norm_num, by norm_num⟩

theorem trussR_free_iff {p j : ℕ} : Free trussR.cons 2 p j ↔ p = 2 ∧ j < 2 := by
  constructor
  · rintro ⟨hj, x, hx, h1, h2⟩
    refine ⟨?_, hj⟩
    obtain ⟨row, h3, h4⟩ := entry_some.1 hx
    have h5 := (List.getElem?_eq_some_iff.1 h3).1
    simp only [trussR, List.length_cons, List.length_nil] at h5
    interval_cases p <;> interval_cases j <;> simp [trussR] at h3 <;> subst h3 <;> simp at h4 <;> first | rfl | (exfalso; linarith)
  · rintro ⟨rfl, h⟩
    exact trussR_free j h

theorem load_on_two (a b : ℝ) : ∀ p j, p < trussR.nodes.length → j < 2 →
    IsLoad trussR.nodes.length [[2, a, b]] p j (if p = 2 then (if j = 0 then a else b) else 0) := by
  intro p j hp hj
  have hn : ∀ q, Names trussR.nodes.length [2, a, b] q ↔ q = 2 := fun q => names_nat (p := 2) (by decide) (by simp)
  by_cases h : p = 2
  · subst h
    rw [if_pos rfl]
    refine Or.inr ⟨[], [2, a, b], [], rfl, (hn 2).2 rfl, by simp, ?_⟩
    interval_cases j <;> simp
  · rw [if_neg h]
    refine Or.inl ⟨?_, rfl⟩
    intro L hL
    rw [List.mem_singleton.1 hL, hn]
    exact h

theorem rows_on_two (a b : ℝ) : ∀ L ∈ ([[2, a, b]] : Table ℝ), 3 ≤ L.length ∧ ∃ p, Names trussR.nodes.length L p := by
  intro L hL
  rw [List.mem_singleton.1 hL]
  exact ⟨by simp, 2, (names_nat (p := 2) (by decide) (by simp)).2 rfl⟩

/-- Case for `C158_supports_as_forces`: the roller replaced by its force. -/
example : ∃ res res' : Gui.Result ℝ, ∃ r : ℝ, Gui.solidsAuto Real.sqrt cramerR cramerR (trussRoller [[2, 4, -6]]) false = .ok res ∧
    Gui.solidsAuto Real.sqrt cramerR cramerR { trussR with loads := [[2, 4, -6 + r]] } false = .ok res' ∧ res'.disp = res.disp := by
  obtain ⟨ms, hms⟩ := truss_members sqrtFn_real trussR_bars
  have hst := trussR_stable hms
  have hms' : Members Real.sqrt (trussRoller [[2, 4, -6]]) ms := hms
  have hpl : PlaneModel (trussRoller [[2, 4, -6]]) := ⟨trussR_plane.nodes, trussR_plane.types⟩
  have hst' : Stable (trussRoller [[2, 4, -6]]).cons 2 ms :=
    C99_stable_more_supports sqrtFn_real trussR_plane trussR_physical trussR_wf hms hst (trussRoller_wf _) fun p j hf => by
      obtain ⟨rfl, rfl⟩ := trussRoller_free.1 hf
      exact trussR_free 0 (by omega)
  have hfr : ∃ p j, Free (trussRoller [[2, 4, -6]]).cons 2 p j := ⟨2, 0, trussRoller_free.2 ⟨rfl, rfl⟩⟩
  obtain ⟨res, h⟩ := C93_solids_auto_returns (de := cramerR) hpl (trussRoller_wf _) cramerR_ok hms' hst' hfr (rows_on_two _ _)
  obtain ⟨res', h1, h2⟩ := C158_supports_as_forces hpl (trussRoller_wf _) cramerR_ok hms' hst' hfr h (load_on_two 4 (-6)) (fun _ _ => rfl)
    (cons' := trussR.cons) (loads' := [[2, 4, -6 + (internal 2 ms (fieldOf res.disp) 2 1 - (-6))]]) ⟨trussR_wf.codes, trussR_wf.width, trussR_wf.size⟩ hst (rows_on_two _ _) (by
      intro p j hf
      obtain ⟨rfl, rfl⟩ := trussRoller_free.1 hf
      exact ⟨trussR_free 0 (by omega), load_on_two 4 (-6 + (internal 2 ms (fieldOf res.disp) 2 1 - (-6))) 2 0 (by decide) (by omega)⟩) (by
      intro p j hn hf
      obtain ⟨rfl, hj⟩ := trussR_free_iff.1 hf
      obtain rfl : j = 1 := by
        have : j ≠ 0 := fun e => hn (trussRoller_free.2 ⟨rfl, e⟩)
        omega
      exact load_on_two 4 (-6 + (internal 2 ms (fieldOf res.disp) 2 1 - (-6))) 2 1 (by decide) (by omega))
  exact ⟨res, res', _, h, h1, h2⟩

/-- Case for `C158_holding`: the load `(16, 12)` moves the node by `(1, 0)`, so it may be held vertically. -/
example : ∃ res res' : Gui.Result ℝ, Gui.solidsAuto Real.sqrt cramerR cramerR { trussR with loads := [[2, 16, 12]] } false = .ok res ∧
    Gui.solidsAuto Real.sqrt cramerR cramerR (trussRoller [[2, 16, 12]]) false = .ok res' ∧ res'.disp = res.disp ∧ entry res.disp 2 0 = some 1 := by
  obtain ⟨ms, hms⟩ := truss_members sqrtFn_real trussR_bars
  have hst := trussR_stable hms
  have hpl : PlaneModel { trussR with loads := [[2, 16, 12]] } := ⟨trussR_plane.nodes, trussR_plane.types⟩
  have hwf : WellFormed { trussR with loads := [[2, 16, 12]] } := ⟨trussR_wf.codes, trussR_wf.width, trussR_wf.size⟩
  obtain ⟨res, h⟩ := C93_solids_auto_returns (d := { trussR with loads := [[2, 16, 12]] }) (de := cramerR) hpl hwf cramerR_ok hms hst
    ⟨2, 0, trussR_free 0 (by omega)⟩ (rows_on_two _ _)
  have key := C19_only_equilibrium hwf cramerR_ok hms hst h (V := fun p j => if p = 2 ∧ j = 0 then 1 else 0) (by
    refine ⟨fun p j _ hj hn => ?_, fun p j hf => ?_⟩
    · refine if_neg ?_
      rintro ⟨rfl, rfl⟩
      exact hn (trussR_free 0 hj)
    · obtain ⟨rfl, hj⟩ := trussR_free_iff.1 hf
      have e := truss_internal sqrtFn_real trussR_bars hms (fun p j => if p = 2 ∧ j = 0 then 1 else 0) 2
      have l := load_on_two 16 12 2 j (by decide) hj
      have : internal 2 ms (fun p j => if p = 2 ∧ j = 0 then (1 : ℝ) else 0) 2 j = if j = 0 then 16 else 12 := by
        interval_cases j
        · refine (e 0).trans ?_
          simp [trussBars, Fin.sum_univ_two, pull, elongation]
          norm_num
        · refine (e 1).trans ?_
          simp [trussBars, Fin.sum_univ_two, pull, elongation]
          norm_num
      rw [this]
      exact l)
  obtain ⟨-, res', h1, h2⟩ := C158_holding sqrtFn_real hpl trussR_physical hwf cramerR_ok hms hst (rows_on_two _ _) h (trussRoller_wf [[2, 16, 12]])
    (by
      intro p j hf
      obtain ⟨rfl, rfl⟩ := (trussRoller_free (loads := [])).1 hf
      exact trussR_free 0 (by omega)) ⟨2, 0, (trussRoller_free (loads := [])).2 ⟨rfl, rfl⟩⟩ (by
      intro p j hf hn
      obtain ⟨rfl, hj⟩ := trussR_free_iff.1 hf
      have hj1 : j ≠ 0 := fun e => hn ((trussRoller_free (loads := [])).2 ⟨rfl, e⟩)
      rw [key 2 j (by decide) hj, if_neg fun e => hj1 e.2])
  exact ⟨res, res', h, h1, h2, by rw [key 2 0 (by decide) (by omega)]; simp⟩

/-- The truss with one more bar, between the supports. -/
noncomputable def trussTied : Gui.Data ℝ := { trussR with elements := [[0, 6, 0, 0, 2], [2, 6, 0, 0, 1], [1, 6, 1, 1, 2]] }

/-- Case for `C158_idle_element`: the bar between the supports may be taken out. -/
example : ∃ res res' : Gui.Result ℝ, Gui.solidsAuto Real.sqrt cramerR cramerR trussTied false = .ok res ∧
    Gui.solidsAuto Real.sqrt cramerR cramerR trussR false = .ok res' ∧ res'.disp = res.disp := by
  have hbars : List.Forall₂ (IsBar trussTied.nodes trussTied.mats) trussTied.elements
      [⟨![0, 2], !![0, 0; 4, 3], 125, 1, 5⟩, ⟨![0, 1], !![0, 0; 4, 0], 125, 1, 4⟩, ⟨![1, 2], !![4, 0; 4, 3], 9, 1, 3⟩] := by
    refine .cons ⟨0, 0, ![0, 2], [], rfl, rfl, ?_, ?_⟩ (.cons ⟨2, 0, ![0, 1], [], rfl, rfl, ?_, ?_⟩ (.cons ⟨1, 1, ![1, 2], [], rfl, rfl, ?_, ?_⟩ .nil))
    · intro a; fin_cases a <;> simp [trussTied, trussR]
    · constructor <;> norm_num
    · intro a; fin_cases a <;> simp [trussTied, trussR]
    · constructor <;> norm_num
    · intro a; fin_cases a <;> simp [trussTied, trussR]
    · constructor <;> norm_num
  obtain ⟨ms, hms⟩ := truss_members sqrtFn_real hbars
  have hpl : PlaneModel trussTied := by
    refine ⟨trussR_plane.nodes, fun el hel ty h => ?_⟩
    simp only [trussTied, List.mem_cons, List.not_mem_nil, or_false] at hel
    rcases hel with rfl | rfl | rfl <;> simp at h <;> exact Or.inr ⟨h.symm, rfl⟩
  have hphys : Physical trussTied := by
    intro el hel ty mi q params h1 h2 h3 h4
    simp only [trussTied, List.mem_cons, List.not_mem_nil, or_false] at hel
    have h4 := List.mem_of_getElem? h4
    simp only [trussTied, trussR, List.mem_cons, List.not_mem_nil, or_false] at h4
    have : ty = 6 := by rcases hel with rfl | rfl | rfl <;> simp at h1 <;> exact h1.symm
    refine ⟨fun h => absurd this h, fun _ => ?_⟩
    rcases h4 with rfl | rfl
    · exact ⟨_, _, _, rfl, by norm_num⟩
    · exact ⟨_, _, _, rfl, by norm_num⟩
  have hwf : WellFormed trussTied := ⟨trussR_wf.codes, trussR_wf.width, trussR_wf.size⟩
  match ms, hms with
  | [m1, m, m2], hms =>
    have hmsR : Members Real.sqrt trussR [m1, m2] := by
      unfold Members at hms ⊢
      cases hms with
      | cons a b => cases b with
        | cons _ c => exact .cons a c
    have hstR := trussR_stable hmsR
    have hst : Stable trussTied.cons 2 [m1, m, m2] :=
      C99_stable_more_elements (d := trussR) sqrtFn_real trussR_plane trussR_physical trussR_wf hmsR hstR (elements' := trussTied.elements)
        (.cons_cons _ (.cons _ (.refl _))) hpl hphys hms
    obtain ⟨res, h⟩ := C93_solids_auto_returns (de := cramerR) hpl hwf cramerR_ok hms hst ⟨2, 0, trussR_free 0 (by omega)⟩ trussR_rows
    obtain ⟨res', h1, h2⟩ := C158_idle_element hpl hwf cramerR_ok (l1 := [[0, 6, 0, 0, 2]]) (el := [2, 6, 0, 0, 1]) (l2 := [[1, 6, 1, 1, 2]]) rfl
      (m1 := [m1]) (m := m) (m2 := [m2]) rfl hms hst ⟨2, 0, trussR_free 0 (by omega)⟩ trussR_rows h (by
        intro a _ j _
        have he := (C18_nodal_equilibrium hwf cramerR_ok hms hst h).2.1
        have hz : ∀ p < 2, ∀ c < 2, fieldOf res.disp p c = 0 := fun p hp c hc =>
          he p c (by simp [trussTied, trussR]; omega) hc fun hf => by have := (trussR_free_iff.1 hf).1; omega
        have hn : m.nodes = [0, 1] := by
          unfold Members at hms
          cases hms with
          | cons _ b => cases b with
            | cons c _ =>
              cases hbars with
              | cons _ b' => cases b' with
                | cons c' _ => exact (bar_placed c c').1
        unfold Member.force
        rw [hn]
        refine Finset.sum_eq_zero fun b hb => Finset.sum_eq_zero fun c hc => ?_
        have hb := Finset.mem_range.1 hb
        simp only [List.length_cons, List.length_nil] at hb
        rw [hz _ (by interval_cases b <;> simp) c (Finset.mem_range.1 hc), mul_zero]) hstR
    exact ⟨res, res', h, h1, h2⟩

/-- The tetrahedra of C136 with the fourth corner held as well. -/
def tetHeld : Table ℚ := [[-1, -1, -1], [-1, -1, -1], [-1, -1, -1], [-1, -1, -1], [0, 0, 0]]

theorem rows_free {held : ℕ → Prop} {cons : Table ℚ} (hl : cons.length = 5) (hr : ∀ p (h : p < cons.length), (held p → cons[p] = [-1, -1, -1]) ∧ (¬ held p → cons[p] = [0, 0, 0]))
    {p j : ℕ} : Free cons 3 p j ↔ p < 5 ∧ ¬ held p ∧ j < 3 := by
  constructor
  · rintro ⟨hj, x, hx, h1⟩
    obtain ⟨row, h3, h4⟩ := entry_some.1 hx
    obtain ⟨h5, h6⟩ := List.getElem?_eq_some_iff.1 h3
    refine ⟨by omega, fun h => ?_, hj⟩
    rw [(hr p h5).1 h] at h6
    subst h6
    interval_cases j <;> simp at h4 <;> subst h4 <;> norm_num at h1
  · rintro ⟨hp, hn, hj⟩
    refine ⟨hj, 0, entry_some.2 ⟨[0, 0, 0], ?_, ?_⟩, by norm_num, by norm_num⟩
    · rw [List.getElem?_eq_getElem (by omega), (hr p (by omega)).2 hn]
    · interval_cases j <;> rfl

theorem tetCons_free {p j : ℕ} : Free tetCons 3 p j ↔ p < 5 ∧ ¬ p < 3 ∧ j < 3 :=
  rows_free (held := fun p => p < 3) rfl (by
    intro p hp
    simp only [tetCons, List.length_cons, List.length_nil] at hp
    interval_cases p <;> simp [tetCons])

theorem tetHeld_free {p j : ℕ} : Free tetHeld 3 p j ↔ p < 5 ∧ ¬ p < 4 ∧ j < 3 :=
  rows_free (held := fun p => p < 4) rfl (by
    intro p hp
    simp only [tetHeld, List.length_cons, List.length_nil] at hp
    interval_cases p <;> simp [tetHeld])

/-- Case for `C158_user_supports`: the held corner freed and pushed by the force the support exerted. -/
example (tab : ℤ → Py (Uel ℚ)) (sparse : Bool) : ∃ full full' : Table ℚ, ∃ r : ℕ → ℚ,
    userRun tab Uel.elastTet4 3 12 (fun _ => .ok 12) cramerSolver cramerSolver sparse tetHeld tetEls tetMats tetNodes [[4, 0, 0, 1]] = .ok full ∧
    userRun tab Uel.elastTet4 3 12 (fun _ => .ok 12) cramerSolver cramerSolver sparse tetCons tetEls tetMats tetNodes
      [[4, 0, 0, 1], [3, r 0, r 1, r 2]] = .ok full' ∧ fieldOf full' 4 2 = fieldOf full 4 2 ∧ fieldOf full' 3 2 = fieldOf full 3 2 := by
  obtain ⟨ms, c, h1, h2, h3⟩ := tet_case
  have c' : UserCase 3 4 12 Uel.elastTet4 (fun _ => .ok 12) cramerSolver cramerSolver tetHeld tetEls tetMats tetNodes ms :=
    { c with model := {
        codes := by
          intro i j x hj hx
          by_cases hi : i < 5
          · interval_cases i <;> interval_cases j <;> simp [entry, tetHeld] at hx <;> simp [← hx]
          · obtain ⟨r, hr, -⟩ := entry_some.1 hx
            rw [List.getElem?_eq_none (by simp [tetHeld]; omega)] at hr
            cases hr
        width := by decide
        size := rfl
        typed := c.model.typed } }
  have hst := (C155_stiffer (tab := tab) (tab' := tab) c c' rfl h1 h1 h2 h2 (fun _ => le_rfl) (fun p j hf => by
    have := tetHeld_free.1 hf
    exact tetCons_free.2 ⟨this.1, by omega, this.2.2⟩) h3).1
  have n4 : ∀ q, Names tetNodes.length ([4, 0, 0, 1] : List ℚ) q ↔ q = 4 := fun q => names_nat (p := 4) (by decide) (by simp)
  have n3 : ∀ (r : ℕ → ℚ) q, Names tetNodes.length ([3, r 0, r 1, r 2] : List ℚ) q ↔ q = 3 := fun r q => names_nat (p := 3) (by decide) (by simp)
  have hl : ∀ L ∈ ([[4, 0, 0, 1]] : Table ℚ), 3 + 1 ≤ L.length ∧ ∃ p, Names tetNodes.length L p := by
    intro L hL
    rw [List.mem_singleton.1 hL]
    exact ⟨by simp, 4, (n4 4).2 rfl⟩
  have hF : UserLoads 3 tetNodes.length [[4, 0, 0, 1]] (fun a b => if a = 4 ∧ b = 2 then (1 : ℚ) else 0) := fun p _ j hj => by
    by_cases hp : p = 4
    · subst hp
      refine .inr ⟨[], [4, 0, 0, 1], [], rfl, (n4 4).2 rfl, by simp, ?_⟩
      interval_cases j <;> simp
    · refine .inl ⟨fun L hL hN => ?_, by simp [hp]⟩
      rw [List.mem_singleton.1 hL] at hN
      exact hp ((n4 p).1 hN)
  obtain ⟨full, h, -⟩ := C135_solved (tab := tab) (loads := [[4, 0, 0, 1]]) c'.element c'.model c'.counts c'.some_dofs c'.room c'.members hst
    c'.sparse c'.dense sparse hl
  let r : ℕ → ℚ := fun j => internal 3 ms (fieldOf full) 3 j
  obtain ⟨full', h', e⟩ := C158_user_supports (tab := tab) c' c hst h3 (sparse' := sparse) hl (loads' := [[4, 0, 0, 1], [3, r 0, r 1, r 2]]) (by
      intro L hL
      rcases List.mem_cons.1 hL with rfl | hL
      · exact ⟨by simp, 4, (n4 4).2 rfl⟩
      · rw [List.mem_singleton.1 hL]
        exact ⟨by simp, 3, (n3 r 3).2 rfl⟩) h hF (fun _ _ => rfl) (by
      intro p j hf
      obtain ⟨a1, a2, a3⟩ := tetHeld_free.1 hf
      obtain rfl : p = 4 := by omega
      refine ⟨tetCons_free.2 ⟨a1, by omega, a3⟩, .inr ⟨[], [4, 0, 0, 1], [[3, r 0, r 1, r 2]], rfl, (n4 4).2 rfl, ?_, ?_⟩⟩
      · intro L hL hN
        rw [List.mem_singleton.1 hL, n3] at hN
        omega
      · interval_cases j <;> simp) (by
      intro p j hn hf
      obtain ⟨a1, a2, a3⟩ := tetCons_free.1 hf
      obtain rfl : p = 3 := by
        by_contra hp
        exact hn (tetHeld_free.2 ⟨a1, by omega, a3⟩)
      refine .inr ⟨[[4, 0, 0, 1]], [3, r 0, r 1, r 2], [], rfl, (n3 r 3).2 rfl, by simp, ?_⟩
      interval_cases j <;> simp [r])
  exact ⟨full, full', r, h, h', e 4 2 (by decide) (by omega), e 3 2 (by decide) (by omega)⟩

end demo
end SolidsPy
