import Verif.Proofs.Auto
import Mathlib.Tactic.NormNum
import Mathlib.Tactic.Linarith
import Mathlib.Tactic.FieldSimp

/-! # C11 (nodal form), C18 - C25: the static solution

`SolverOk sp` is the only assumption on the linear solver. Square root `sq` is arbitrary. -/

set_option linter.unusedSectionVars false

namespace SolidsPy
open Spec Assem

section
variable {K : Type} [Field K] [LinearOrder K] [IsStrictOrderedRing K] [FloorRing K]

/-- The solver solves every nonsingular system. -/
def SolverOk (sp : Sol.Solver K) : Prop :=
  ∀ n (M : Matrix (Fin n) (Fin n) K) (b : Fin n → K), M.det ≠ 0 → ∃ x, sp n M b = .ok x ∧ M.mulVec x = b

/-- The input of `solids_auto` is well formed: two constraint codes (0 or -1) per node. -/
structure WellFormed (d : Gui.Data K) : Prop where
  codes : ValidCons d.cons 2
  width : ∀ r ∈ d.cons, r.length = 2
  size : d.cons.length = d.nodes.length

/-- The elements of a model. -/
def Members (sq : K → K) (d : Gui.Data K) (ms : List (Member K)) : Prop :=
  List.Forall₂ (IsMember (Routine sq) d.mats d.nodes) d.elements ms

theorem isMember_unique_of {fn : ℤ → Uel K → Prop} (hfn : ∀ ty f f', fn ty f → fn ty f' → f = f') {mats nodes : Table K}
    {el : List ℤ} {m m' : Member K} (h : IsMember fn mats nodes el m) (h' : IsMember fn mats nodes el m') : m = m' := by
  obtain ⟨ty, mi, params, rows, f, kl, ml, a1, a2, ⟨q, a3, a4⟩, a5, a6, a7, a8, a9⟩ := h
  obtain ⟨ty', mi', params', rows', f', kl', ml', b1, b2, ⟨q', b3, b4⟩, b5, b6, b7, b8, b9⟩ := h'
  obtain ⟨ps, k⟩ := m
  obtain ⟨ps', k'⟩ := m'
  dsimp only at *
  have hps : ps = ps' := by
    clear a6 b6
    generalize el.drop 3 = ids at a5 b5
    induction a5 generalizing ps' with
    | nil => cases b5; rfl
    | cons h _ ih =>
      cases b5 with
      | cons h' t => rw [resolves_unique h h', ih _ t]
  subst hps
  have hrows : rows = rows' := by
    clear a5 b5 a8 b8
    induction a6 generalizing rows' with
    | nil => cases b6; rfl
    | cons h _ ih =>
      cases b6 with
      | cons h' t =>
        rw [h, Option.some.injEq] at h'
        rw [h', ih _ t]
  subst hrows
  rw [a1, Option.some.injEq] at b1
  rw [a2, Option.some.injEq] at b2
  subst b1 b2
  rw [resolves_unique b3 a3, a4, Option.some.injEq] at b4
  subst b4
  obtain rfl := hfn _ _ _ a7 b7
  rw [a8, Except.ok.injEq, Prod.mk.injEq] at b8
  rw [a9, b9, b8.1]

theorem isMember_unique {sq : K → K} {mats nodes : Table K} {el : List ℤ} {m m' : Member K}
    (h : IsMember (Routine sq) mats nodes el m) (h' : IsMember (Routine sq) mats nodes el m') : m = m' :=
  isMember_unique_of (fun ty f f' a b => by
    unfold Routine at a b
    rw [a, Except.ok.injEq] at b
    exact b) h h'

theorem members_unique {sq : K → K} {d : Gui.Data K} {ms ms' : List (Member K)} (h : Members sq d ms)
    (h' : Members sq d ms') : ms = ms' := by
  unfold Members at h h'
  generalize d.elements = els at h h'
  induction h generalizing ms' with
  | nil => cases h'; rfl
  | cons a _ ih =>
    cases h' with
    | cons b t => rw [isMember_unique a b, ih t]

variable {sq : K → K} {sp de : Sol.Solver K} {d : Gui.Data K} {plot : Bool} {res : Gui.Result K}
  {ms : List (Member K)}

/-- The run as a solved reduced system. -/
theorem auto_solves (hwf : WellFormed d) (h : Gui.solidsAuto sq sp de d plot = .ok res) :
    ∃ neq bc Kg Mg op ms, Members sq d ms ∧
      Setup (Routine sq) d.cons d.elements d.mats d.nodes 2 neq bc Kg ms ∧
      dme d.cons d.elements = .ok (op, bc, neq) ∧
      assembler (Uel.eleFun sq) d.elements d.mats d.nodes neq op = .ok (Kg, Mg) ∧
      ∃ rhs x ok, loadasem d.loads bc neq = .ok rhs ∧ sp neq Kg rhs = .ok x ∧
        Gui.balanced Kg x rhs = .ok ok ∧ res.warned = !ok ∧
        Completes d.cons bc 2 neq x (fieldOf res.disp) := by
  obtain ⟨op, bc, neq, Kg, Mg, rhs, x, ok, full, plots, h1, h2, h3, h4, h5, h6, h7, rfl⟩ := auto_ok.1 h
  obtain ⟨ms, s⟩ := auto_setup h1 h2 hwf.codes hwf.width hwf.size
  rw [← hwf.size] at h6
  exact ⟨neq, bc, Kg, Mg, op, ms, s.mem, s, h1, h2, rhs, x, ok, h3, h4, h5, rfl,
    completes_of_completeDisp h6⟩

/-- C11 (nodal form). `v^T K u` is the sum over the elements of the element forms on the nodal
displacements that `complete_disp` makes out of `v` and `u`. -/
theorem C11_nodal_energy_equivalence (hwf : WellFormed d) (hms : Members sq d ms) {op bc : List (List ℤ)}
    {neq : ℕ} {Kg Mg : Matrix (Fin neq) (Fin neq) K} (h1 : dme d.cons d.elements = .ok (op, bc, neq))
    (h2 : assembler (Uel.eleFun sq) d.elements d.mats d.nodes neq op = .ok (Kg, Mg))
    {v u : Fin neq → K} {V U : Table K} (hV : Post.completeDisp bc d.nodes.length v = .ok V)
    (hU : Post.completeDisp bc d.nodes.length u = .ok U) :
    ∑ i, v i * Kg.mulVec u i = (ms.map fun m => m.form 2 (fieldOf V) (fieldOf U)).sum := by
  obtain ⟨ms', s⟩ := auto_setup h1 h2 hwf.codes hwf.width hwf.size
  obtain rfl := members_unique hms s.mem
  rw [← hwf.size] at hV hU
  exact reduced_form s (completes_of_completeDisp hV) (completes_of_completeDisp hU)

/-- C18. Every successful run has well-defined elements. -/
theorem C18_members_exist (hwf : WellFormed d) (h : Gui.solidsAuto sq sp de d plot = .ok res) :
    ∃ ms, Members sq d ms := by
  obtain ⟨_, _, _, _, _, ms, hms, _⟩ := auto_solves hwf h
  exact ⟨ms, hms⟩

/-- C18. For a stable structure the displacements returned by `solids_auto` are zero at every
constrained degree of freedom, and at every free one the internal forces of the elements meeting there
sum to the applied load. -/
theorem C18_nodal_equilibrium (hwf : WellFormed d) (hsp : SolverOk sp) (hms : Members sq d ms)
    (hst : Stable d.cons 2 ms) (h : Gui.solidsAuto sq sp de d plot = .ok res) :
    (res.disp.length = d.nodes.length ∧ ∀ r ∈ res.disp, r.length = 2) ∧
    Equilibrium d.cons 2 d.loads ms (fieldOf res.disp) := by
  constructor
  · obtain ⟨op, bc, neq, Kg, Mg, rhs, x, ok, full, plots, h1, h2, h3, h4, h5, h6, h7, rfl⟩ := auto_ok.1 h
    exact Post.completeDisp_shape h6
  · obtain ⟨neq, bc, Kg, Mg, op, ms', hms', s, _, _, rhs, x, ok, h3, h4, _, _, hc⟩ := auto_solves hwf h
    obtain rfl := members_unique hms hms'
    obtain ⟨x', hx', hsol⟩ := hsp neq Kg rhs (det_ne_zero_of_stable s hst)
    rw [h4, Except.ok.injEq] at hx'
    subst hx'
    exact (equilibrium_iff s h3 hc).2 hsol

/-- C18. Stability is exactly nonsingularity of the assembled matrix. -/
theorem C18_stable_iff_nonsingular (hwf : WellFormed d) (hms : Members sq d ms) {op bc : List (List ℤ)}
    {neq : ℕ} {Kg Mg : Matrix (Fin neq) (Fin neq) K} (h1 : dme d.cons d.elements = .ok (op, bc, neq))
    (h2 : assembler (Uel.eleFun sq) d.elements d.mats d.nodes neq op = .ok (Kg, Mg)) :
    Stable d.cons 2 ms ↔ Kg.det ≠ 0 := by
  obtain ⟨ms', s⟩ := auto_setup h1 h2 hwf.codes hwf.width hwf.size
  obtain rfl := members_unique hms s.mem
  exact ⟨det_ne_zero_of_stable s, stable_of_det_ne_zero s⟩

/-- C19. Any admissible field in nodal equilibrium is the one returned by `solids_auto`. -/
theorem C19_only_equilibrium (hwf : WellFormed d) (hsp : SolverOk sp) (hms : Members sq d ms)
    (hst : Stable d.cons 2 ms) (h : Gui.solidsAuto sq sp de d plot = .ok res) {V : ℕ → ℕ → K}
    (hV : Equilibrium d.cons 2 d.loads ms V) :
    ∀ p j, p < d.nodes.length → j < 2 → entry res.disp p j = some (V p j) := by
  intro p j hp hj
  obtain ⟨⟨hl, hr⟩, he⟩ := C18_nodal_equilibrium hwf hsp hms hst h
  have := equilibrium_unique hst he hV p j (by rw [hwf.size]; exact hp) hj
  rw [← this]
  unfold fieldOf
  have hx : ∃ x, entry res.disp p j = some x := by
    refine ⟨(res.disp[p]'(by omega))[j]'(by rw [hr _ (List.getElem_mem _)]; exact hj), ?_⟩
    exact entry_some.2 ⟨res.disp[p]'(by omega), List.getElem?_eq_getElem _, List.getElem?_eq_getElem _⟩
  obtain ⟨x, hx⟩ := hx
  rw [hx]
  rfl

/-- Two tables of `n` rows of width 2 with the same entries are equal. -/
theorem table_ext {n : ℕ} {t t' : Table K} (h1 : t.length = n ∧ ∀ r ∈ t, r.length = 2)
    (h2 : t'.length = n ∧ ∀ r ∈ t', r.length = 2)
    (h : ∀ p j, p < n → j < 2 → entry t p j = entry t' p j) : t = t' := by
  apply List.ext_getElem (by omega)
  intro p hp hp'
  have l1 := h1.2 _ (List.getElem_mem hp)
  have l2 := h2.2 _ (List.getElem_mem hp')
  apply List.ext_getElem (by omega)
  intro j hj hj'
  have := h p j (by omega) (by omega)
  unfold entry at this
  rw [List.getElem?_eq_getElem hp, List.getElem?_eq_getElem hp'] at this
  simp only [Option.bind_some, List.getElem?_eq_getElem hj, List.getElem?_eq_getElem hj',
    Option.some.injEq] at this
  exact this

/-- C20. Reordering the element rows does not change the returned displacements. -/
theorem C20_element_order (hwf : WellFormed d) (hsp : SolverOk sp) (hms : Members sq d ms)
    (hst : Stable d.cons 2 ms) (h : Gui.solidsAuto sq sp de d plot = .ok res)
    {elements' : List (List ℤ)} (hp : d.elements.Perm elements') {plot' : Bool} {res' : Gui.Result K}
    (h' : Gui.solidsAuto sq sp de { d with elements := elements' } plot' = .ok res') :
    res'.disp = res.disp := by
  have hwf' : WellFormed { d with elements := elements' } := ⟨hwf.codes, hwf.width, hwf.size⟩
  obtain ⟨ms', hms'⟩ := C18_members_exist hwf' h'
  have hperm : ms.Perm ms' := by
    unfold Members at hms hms'
    dsimp only at hms'
    obtain ⟨ms'', h1, h2⟩ := List.perm_comp_forall₂ hp.symm hms
    have : ms'' = ms' := by
      clear h2 hms h h' hst
      generalize elements' = els at h1 hms'
      induction h1 generalizing ms' with
      | nil => cases hms'; rfl
      | cons a _ ih =>
        cases hms' with
        | cons b t => rw [isMember_unique a b, ih _ t]
    rw [← this]
    exact h2.symm
  have hst' : Stable d.cons 2 ms' := by
    intro u ha hz
    exact hst u ha fun p j hf => by rw [internal_perm hperm]; exact hz p j hf
  obtain ⟨hs, he⟩ := C18_nodal_equilibrium hwf hsp hms hst h
  obtain ⟨hs', he'⟩ := C18_nodal_equilibrium hwf' hsp hms' hst' h'
  have hV : Equilibrium d.cons 2 d.loads ms (fieldOf res'.disp) :=
    ⟨he'.1, fun p j hf => by rw [internal_perm hperm]; exact he'.2 p j hf⟩
  refine table_ext hs' hs fun p j hp hj => ?_
  rw [C19_only_equilibrium hwf hsp hms hst h hV p j hp hj]
  exact C19_only_equilibrium hwf' hsp hms' hst' h' he' p j hp hj

theorem members_inn {fn : ℤ → Uel K → Prop} {mats nodes : Table K} {els : List (List ℤ)}
    {ms : List (Member K)} (h : List.Forall₂ (IsMember fn mats nodes) els ms) :
    ∀ m ∈ ms, ∀ p ∈ m.nodes, p < nodes.length := by
  induction h with
  | nil => simp
  | cons a _ ih =>
    intro m hm p hp
    rcases List.mem_cons.1 hm with rfl | hm
    · obtain ⟨_, _, _, _, _, _, _, _, _, _, a5, _⟩ := a
      obtain ⟨i, hi, rfl⟩ := List.mem_iff_getElem.1 hp
      have := a5.get (i := i) (by rw [a5.length_eq]; exact hi) hi
      exact this.1
    · exact ih m hm p hp

/-- `d'` is `d` with node `p` moved to position `π p`: coordinates, constraint rows, connectivity and
load rows follow; nothing else changes. -/
structure Renumbered (π : ℕ → ℕ) (d d' : Gui.Data K) : Prop where
  maps : ∀ p < d.nodes.length, π p < d.nodes.length
  inj : ∀ p < d.nodes.length, ∀ q < d.nodes.length, π p = π q → p = q
  size : d'.nodes.length = d.nodes.length
  coords : ∀ p < d.nodes.length, d'.nodes[π p]?.map (List.drop 1) = d.nodes[p]?.map (List.drop 1)
  consSize : d'.cons.length = d.cons.length
  cons : ∀ p < d.nodes.length, d'.cons[π p]? = d.cons[p]?
  mats : d'.mats = d.mats
  elements : List.Forall₂ (fun el el' : List ℤ => el'.take 3 = el.take 3 ∧
    List.Forall₂ (fun i i' : ℤ => ∃ p : ℕ, p < d.nodes.length ∧ i = p ∧ i' = (π p : ℕ))
      (el.drop 3) (el'.drop 3)) d.elements d'.elements
  loads : List.Forall₂ (fun L L' : List K => ∃ p : ℕ, p < d.nodes.length ∧
    L[0]? = some (p : K) ∧ L'[0]? = some (π p : K) ∧ L'.drop 1 = L.drop 1) d.loads d'.loads

theorem names_nat {n : ℕ} {L : List K} {p q : ℕ} (hp : p < n) (h : L[0]? = some (p : K)) :
    Names n L q ↔ q = p := by
  constructor
  · rintro ⟨x, z, h1, hr, h2⟩
    rw [h, Option.some.injEq] at h1
    subst h1
    have hz : z = (p : ℤ) := by
      rcases h2 with ⟨_, a, b⟩ | ⟨c, a, b⟩
      · have h3 : z ≤ (p : ℤ) := by exact_mod_cast a
        have h4 : (p : ℤ) < z + 1 := by exact_mod_cast b
        omega
      · have h3 : (p : ℤ) ≤ z := by exact_mod_cast b
        have h4 : z - 1 < (p : ℤ) := by exact_mod_cast a
        omega
    subst hz
    exact resolves_unique hr ⟨hp, Or.inl rfl⟩
  · rintro rfl
    refine ⟨q, q, h, ⟨hp, Or.inl rfl⟩, Or.inl ⟨by positivity, by simp, by simp⟩⟩

theorem forall₂_split {α β : Type} {R : α → β → Prop} {l : List α} {a b : List β}
    (h : List.Forall₂ R l (a ++ b)) :
    ∃ l1 l2, l = l1 ++ l2 ∧ List.Forall₂ R l1 a ∧ List.Forall₂ R l2 b := by
  induction a generalizing l with
  | nil => exact ⟨[], l, rfl, .nil, h⟩
  | cons x a ih =>
    cases h with
    | cons hx ht =>
      obtain ⟨l1, l2, rfl, h1, h2⟩ := ih ht
      exact ⟨_ :: l1, l2, rfl, .cons hx h1, h2⟩

theorem isLoad_renumber {n : ℕ} {π : ℕ → ℕ} (maps : ∀ p < n, π p < n)
    (inj : ∀ p < n, ∀ q < n, π p = π q → p = q) {L L' : List (List K)}
    (h : List.Forall₂ (fun L L' : List K => ∃ p : ℕ, p < n ∧
      L[0]? = some (p : K) ∧ L'[0]? = some (π p : K) ∧ L'.drop 1 = L.drop 1) L L')
    {p j : ℕ} {x : K} (hp : p < n) (hl : IsLoad n L' (π p) j x) : IsLoad n L p j x := by
  have hnames : ∀ (R R' : List K), (∃ p : ℕ, p < n ∧
      R[0]? = some (p : K) ∧ R'[0]? = some (π p : K) ∧ R'.drop 1 = R.drop 1) →
      (Names n R p ↔ Names n R' (π p)) := by
    rintro R R' ⟨q, hq, h1, h2, _⟩
    rw [names_nat hq h1, names_nat (maps q hq) h2]
    exact ⟨fun e => by rw [e], fun e => inj _ hp _ hq e⟩
  rcases hl with ⟨h1, rfl⟩ | ⟨pre, R', post, rfl, h2, h3, h4⟩
  · left
    refine ⟨?_, rfl⟩
    clear hp
    induction h with
    | nil => simp
    | cons a _ ih =>
      intro R hR
      rcases List.mem_cons.1 hR with rfl | hR
      · rw [hnames _ _ a]
        exact h1 _ (by simp)
      · exact ih (fun M hM => h1 M (by simp [hM])) R hR
  · right
    obtain ⟨A, B, rfl, hA, hB⟩ := forall₂_split h
    cases hB with
    | cons a t =>
      rename_i R B
      refine ⟨A, R, B, rfl, (hnames _ _ a).2 h2, fun M hM => ?_, ?_⟩
      · obtain ⟨i, hi, rfl⟩ := List.mem_iff_getElem.1 hM
        have := t.get hi (by rw [← t.length_eq]; exact hi)
        exact fun hc => h3 _ (List.get_mem _ _) ((hnames _ _ this).1 hc)
      · obtain ⟨_, _, _, _, hd⟩ := a
        have := congrArg (fun l => l[j]?) hd
        simp only [List.getElem?_drop] at this
        rw [Nat.add_comm j 1, ← this, Nat.add_comm 1 j]
        exact h4

/-- The element with its nodes renamed. -/
def renameMember (π : ℕ → ℕ) (m : Member K) : Member K := ⟨m.nodes.map π, m.k⟩

theorem members_renumber {d d' : Gui.Data K} {π : ℕ → ℕ} (hr : Renumbered π d d') (hms : Members sq d ms) :
    Members sq d' (ms.map (renameMember π)) := by
  have hel := hr.elements
  unfold Members at *
  generalize d.elements = els at hms hel
  generalize d'.elements = els' at hel
  induction hms generalizing els' with
  | nil => cases hel; exact .nil
  | cons a _ ih =>
    rename_i el m els ms ht
    cases hel with
    | cons b t =>
      rename_i el' els'
      refine .cons ?_ (ih _ t)
      obtain ⟨ty, mi, params, rows, f, kl, ml, a1, a2, ⟨q, a3, a4⟩, a5, a6, a7, a8, a9⟩ := a
      obtain ⟨b1, b2⟩ := b
      have hidx : ∀ k < 3, el'[k]? = el[k]? := by
        intro k hk
        have := congrArg (fun l => l[k]?) b1
        simpa [List.getElem?_take, hk] using this
      have hnodes : ∃ rows', List.Forall₂ (Resolves d'.nodes.length) (el'.drop 3) (m.nodes.map π) ∧
          List.Forall₂ (fun p row => d'.nodes[p]? = some row) (m.nodes.map π) rows' ∧
          rows'.map (List.drop 1) = rows.map (List.drop 1) := by
        clear a1 a2 b1 hidx a8
        generalize el.drop 3 = ids at a5 b2
        generalize el'.drop 3 = ids' at b2
        generalize m.nodes = ps at a5 a6
        induction a5 generalizing rows ids' with
        | nil => cases b2; cases a6; exact ⟨[], .nil, .nil, rfl⟩
        | cons c _ ih =>
          cases b2 with
          | cons e t =>
            cases a6 with
            | cons g t' =>
              rename_i i p _ _ _ _ _ _ _
              obtain ⟨rows', h1, h2, h3⟩ := ih _ _ t t'
              obtain ⟨p', hp', rfl, rfl⟩ := e
              have hpp : p = p' := resolves_unique c ⟨hp', Or.inl rfl⟩
              subst hpp
              have hc := hr.coords p hp'
              rw [g] at hc
              cases hrow : d'.nodes[π p]? with
              | none => rw [hrow] at hc; simp at hc
              | some row' =>
                rw [hrow] at hc
                simp only [Option.map_some, Option.some.injEq] at hc
                refine ⟨row' :: rows', ?_, ?_, ?_⟩
                · exact .cons ⟨by rw [hr.size]; exact hr.maps p hp', Or.inl rfl⟩ h1
                · exact .cons hrow h2
                · simp only [List.map_cons, hc, h3]
      obtain ⟨rows', h1, h2, h3⟩ := hnodes
      refine ⟨ty, mi, params, rows', f, kl, ml, ?_, ?_, ⟨q, ?_, ?_⟩, h1, h2, a7, ?_, a9⟩
      · rw [hidx 1 (by omega)]; exact a1
      · rw [hidx 2 (by omega)]; exact a2
      · rw [hr.mats]; exact a3
      · rw [hr.mats]; exact a4
      · rw [h3]; exact a8

theorem internal_renumber {n : ℕ} {π : ℕ → ℕ} (inj : ∀ p < n, ∀ q < n, π p = π q → p = q)
    {ms : List (Member K)} (hn : ∀ m ∈ ms, ∀ p ∈ m.nodes, p < n) (u : ℕ → ℕ → K) {p : ℕ} (hp : p < n)
    (j : ℕ) :
    internal 2 (ms.map (renameMember π)) u (π p) j = internal 2 ms (fun q c => u (π q) c) p j := by
  unfold internal
  rw [List.map_map]
  congr 1
  refine List.map_congr_left fun m hm => ?_
  have hforce : ∀ a, (renameMember π m).force 2 u a j = m.force 2 (fun q c => u (π q) c) a j := by
    intro a
    unfold Member.force renameMember
    simp only [List.length_map]
    refine Finset.sum_congr rfl fun b hb => Finset.sum_congr rfl fun c _ => ?_
    rw [Finset.mem_range] at hb
    simp [List.getD_eq_getElem?_getD, List.getElem?_map, List.getElem?_eq_getElem hb]
  simp only [Function.comp_apply, hforce]
  unfold renameMember
  simp only [List.length_map]
  refine Finset.sum_congr rfl fun a ha => ?_
  rw [Finset.mem_range] at ha
  have hq : m.nodes[a] < n := hn m hm _ (List.getElem_mem ha)
  have : ((m.nodes.map π)[a]? = some (π p)) ↔ (m.nodes[a]? = some p) := by
    simp only [List.getElem?_map, List.getElem?_eq_getElem ha, Option.map_some, Option.some.injEq]
    exact ⟨fun e => inj _ hq _ hp e, fun e => by rw [e]⟩
  simp only [this]

/-- C21. Renumbering the nodes renumbers the displacements: the row of node `p` moves to `π p`. -/
theorem C21_node_renumbering (hwf : WellFormed d) (hsp : SolverOk sp) (hms : Members sq d ms)
    (hst : Stable d.cons 2 ms) (h : Gui.solidsAuto sq sp de d plot = .ok res) {d' : Gui.Data K}
    {π : ℕ → ℕ} (hr : Renumbered π d d') {plot' : Bool} {res' : Gui.Result K}
    (h' : Gui.solidsAuto sq sp de d' plot' = .ok res') :
    res'.disp.length = res.disp.length ∧ ∀ p < d.nodes.length, res'.disp[π p]? = res.disp[p]? := by
  have hsz := hwf.size
  have hsurj : ∀ q < d.nodes.length, ∃ p < d.nodes.length, π p = q := by
    intro q hq
    have := Finset.surj_on_of_inj_on_of_card_le (s := Finset.range d.nodes.length)
      (t := Finset.range d.nodes.length) (fun p _ => π p)
      (fun p hp => Finset.mem_range.2 (hr.maps p (Finset.mem_range.1 hp)))
      (fun p q hp hq e => hr.inj p (Finset.mem_range.1 hp) q (Finset.mem_range.1 hq) e)
      le_rfl q (Finset.mem_range.2 hq)
    obtain ⟨p, hp, e⟩ := this
    exact ⟨p, Finset.mem_range.1 hp, e.symm⟩
  have hentry : ∀ p < d.nodes.length, ∀ j, entry d'.cons (π p) j = entry d.cons p j := by
    intro p hp j
    unfold entry
    rw [hr.cons p hp]
  have hfree : ∀ p < d.nodes.length, ∀ j, Free d'.cons 2 (π p) j ↔ Free d.cons 2 p j := by
    intro p hp j
    unfold Free
    rw [hentry p hp]
  have hlt : ∀ {q : ℕ}, q < d'.cons.length → q < d.nodes.length := by
    intro q hq
    rw [hr.consSize, hsz] at hq
    exact hq
  have hwf' : WellFormed d' := by
    refine ⟨?_, ?_, by rw [hr.consSize, hsz, hr.size]⟩
    · intro q j x hj hx
      obtain ⟨row, h1, _⟩ := entry_some.1 hx
      obtain ⟨p, hp, rfl⟩ := hsurj q (hlt (List.getElem?_eq_some_iff.1 h1).1)
      rw [hentry p hp] at hx
      exact hwf.codes p j x hj hx
    · intro row hrow
      obtain ⟨q, hq, rfl⟩ := List.mem_iff_getElem.1 hrow
      obtain ⟨p, hp, rfl⟩ := hsurj q (hlt hq)
      have := hr.cons p hp
      rw [List.getElem?_eq_getElem hq, List.getElem?_eq_getElem (by omega), Option.some.injEq] at this
      rw [this]
      exact hwf.width _ (List.getElem_mem _)
  have hms' := members_renumber hr hms
  have hinn := members_inn hms
  have hst' : Stable d'.cons 2 (ms.map (renameMember π)) := by
    intro u ha hz q j hq hj
    obtain ⟨p, hp, rfl⟩ := hsurj q (hlt hq)
    refine hst (fun q c => u (π q) c) ?_ ?_ p j (by omega) hj
    · intro q c hq hc hf
      have hq' : q < d.nodes.length := by omega
      refine ha (π q) c ?_ hc (by rw [hfree q hq']; exact hf)
      rw [hr.consSize, hsz]
      exact hr.maps q hq'
    · intro q c hf
      have hq' : q < d.nodes.length := by have := free_lt hf; omega
      rw [← internal_renumber hr.inj hinn u hq' c]
      exact hz _ _ ((hfree q hq' c).2 hf)
  obtain ⟨hs, -⟩ := C18_nodal_equilibrium hwf hsp hms hst h
  obtain ⟨hs', he'⟩ := C18_nodal_equilibrium hwf' hsp hms' hst' h'
  have hV : Equilibrium d.cons 2 d.loads ms (fun q c => fieldOf res'.disp (π q) c) := by
    refine ⟨?_, ?_⟩
    · intro q c hq hc hf
      have hq' : q < d.nodes.length := by omega
      refine he'.1 (π q) c ?_ hc (by rw [hfree q hq']; exact hf)
      rw [hr.consSize, hsz]
      exact hr.maps q hq'
    · intro q c hf
      have hq' : q < d.nodes.length := by have := free_lt hf; omega
      rw [← internal_renumber hr.inj hinn _ hq' c, hsz]
      have := he'.2 (π q) c ((hfree q hq' c).2 hf)
      rw [hr.consSize, hsz] at this
      exact isLoad_renumber hr.maps hr.inj hr.loads hq' this
  have key := C19_only_equilibrium hwf hsp hms hst h hV
  refine ⟨by rw [hs.1, hs'.1, hr.size], fun p hp => ?_⟩
  have hp1 : p < res.disp.length := by rw [hs.1]; exact hp
  have hp2 : π p < res'.disp.length := by rw [hs'.1, hr.size]; exact hr.maps p hp
  rw [List.getElem?_eq_getElem hp1, List.getElem?_eq_getElem hp2, Option.some.injEq]
  have l1 := hs.2 _ (List.getElem_mem hp1)
  have l2 := hs'.2 _ (List.getElem_mem hp2)
  apply List.ext_getElem (by omega)
  intro j hj hj'
  have := key p j hp (by omega)
  unfold fieldOf entry at this
  rw [List.getElem?_eq_getElem hp1, List.getElem?_eq_getElem hp2] at this
  simp only [Option.bind_some, List.getElem?_eq_getElem hj, List.getElem?_eq_getElem hj',
    Option.getD_some, Option.some.injEq] at this
  exact this.symm

/-- C22. Linear response. `rows` lists the node column and two sets of load values; the response to
`a` times the first plus `b` times the second is the same combination of the responses. -/
theorem C22_linear_response (hwf : WellFormed d) (hsp : SolverOk sp) (hms : Members sq d ms)
    (hst : Stable d.cons 2 ms) (a b : K) (rows : List (K × List K × List K))
    (hlen : ∀ t ∈ rows, t.2.1.length = t.2.2.length) {p1 p2 p3 : Bool} {r1 r2 r3 : Gui.Result K}
    (h1 : Gui.solidsAuto sq sp de { d with loads := rows.map fun t => t.1 :: t.2.1 } p1 = .ok r1)
    (h2 : Gui.solidsAuto sq sp de { d with loads := rows.map fun t => t.1 :: t.2.2 } p2 = .ok r2)
    (h3 : Gui.solidsAuto sq sp de { d with loads := (rows.map fun t =>
      t.1 :: List.zipWith (fun x y => a * x + b * y) t.2.1 t.2.2) } p3 = .ok r3) :
    ∀ p j, p < d.nodes.length → j < 2 →
      entry r3.disp p j = some (a * fieldOf r1.disp p j + b * fieldOf r2.disp p j) := by
  have w : ∀ L, WellFormed { d with loads := L } := fun L => ⟨hwf.codes, hwf.width, hwf.size⟩
  have m : ∀ L, Members sq { d with loads := L } ms := fun L => hms
  obtain ⟨neq, bc, Kg, Mg, op, ms1, hms1, s, hd1, ha1, f1, x1, ok1, hl1, hx1, _, _, hc1⟩ :=
    auto_solves (w _) h1
  obtain ⟨neq2, bc2, Kg2, Mg2, op2, ms2, hms2, s2, hd2, ha2, f2, x2, ok2, hl2, hx2, _, _, hc2⟩ :=
    auto_solves (w _) h2
  obtain rfl := members_unique (m _) hms1
  dsimp only at hd1 hd2 ha1 ha2 hl1 hl2
  rw [hd1, Except.ok.injEq, Prod.mk.injEq, Prod.mk.injEq] at hd2
  obtain ⟨rfl, rfl, rfl⟩ := hd2
  have hf3 := C14_linear_in_values a b rows hlen hl1 hl2
  have e1 := (C18_nodal_equilibrium (w (rows.map fun t => t.1 :: t.2.1)) hsp (m _) hst h1).2
  have e2 := (C18_nodal_equilibrium (w (rows.map fun t => t.1 :: t.2.2)) hsp (m _) hst h2).2
  have k1 := (equilibrium_iff s hl1 hc1).1 e1
  have k2 := (equilibrium_iff s hl2 hc2).1 e2
  have hc3 : Completes d.cons bc 2 neq (a • x1 + b • x2)
      (fun p j => a * fieldOf r1.disp p j + b * fieldOf r2.disp p j) := by
    intro p hp j hj
    constructor
    · intro i hi
      dsimp only
      rw [(hc1 p hp j hj).1 i hi, (hc2 p hp j hj).1 i hi]
      rfl
    · intro hno
      dsimp only
      rw [(hc1 p hp j hj).2 hno, (hc2 p hp j hj).2 hno]
      ring
  have e3 : Equilibrium d.cons 2 (rows.map fun t =>
      t.1 :: List.zipWith (fun x y => a * x + b * y) t.2.1 t.2.2) ms
      (fun p j => a * fieldOf r1.disp p j + b * fieldOf r2.disp p j) := by
    refine (equilibrium_iff s hf3 hc3).2 ?_
    rw [Matrix.mulVec_add, Matrix.mulVec_smul, Matrix.mulVec_smul, k1, k2]
  exact C19_only_equilibrium (w (rows.map fun t =>
    t.1 :: List.zipWith (fun x y => a * x + b * y) t.2.1 t.2.2)) hsp (m _) hst h3 e3

/-- Applied loads `F` of a model as a nodal field (0 on constrained degrees of freedom is not
required). -/
def LoadField (d : Gui.Data K) (F : ℕ → ℕ → K) : Prop :=
  ∀ p j, p < d.nodes.length → j < 2 → IsLoad d.nodes.length d.loads p j (F p j)

/-- Work of the loads of one equilibrium state on an admissible field: the element forms. -/
theorem load_work (hwf : WellFormed d) (hms : Members sq d ms) {F U V : ℕ → ℕ → K}
    (hF : LoadField d F) (hU : Equilibrium d.cons 2 d.loads ms U) (hV : Admissible d.cons 2 V) :
    ∑ p ∈ Finset.range d.nodes.length, ∑ j ∈ Finset.range 2, V p j * F p j =
      (ms.map fun m => m.form 2 V U).sum := by
  rw [← virtual_work (members_inn hms) V U]
  refine Finset.sum_congr rfl fun p hp => Finset.sum_congr rfl fun j hj => ?_
  rw [Finset.mem_range] at hp hj
  by_cases hf : Free d.cons 2 p j
  · have h1 := hU.2 p j hf
    rw [hwf.size] at h1
    rw [isLoad_unique h1 (hF p j hp hj)]
  · rw [hV p j (by rw [hwf.size]; exact hp) hj hf]
    ring

/-- C23 (Betti). Two load cases on one stable model with symmetric element matrices: the work of the
first loads on the second displacements equals the work of the second loads on the first. -/
theorem C23_betti (hwf : WellFormed d) (hsp : SolverOk sp) (hms : Members sq d ms)
    (hst : Stable d.cons 2 ms)
    (hsym : ∀ m ∈ ms, ∀ r < 2 * m.nodes.length, ∀ c < 2 * m.nodes.length, m.k r c = m.k c r)
    {L1 L2 : Table K} {p1 p2 : Bool} {r1 r2 : Gui.Result K}
    (h1 : Gui.solidsAuto sq sp de { d with loads := L1 } p1 = .ok r1)
    (h2 : Gui.solidsAuto sq sp de { d with loads := L2 } p2 = .ok r2) {F1 F2 : ℕ → ℕ → K}
    (hF1 : LoadField { d with loads := L1 } F1) (hF2 : LoadField { d with loads := L2 } F2) :
    ∑ p ∈ Finset.range d.nodes.length, ∑ j ∈ Finset.range 2, fieldOf r2.disp p j * F1 p j =
      ∑ p ∈ Finset.range d.nodes.length, ∑ j ∈ Finset.range 2, fieldOf r1.disp p j * F2 p j := by
  have w : ∀ L, WellFormed { d with loads := L } := fun L => ⟨hwf.codes, hwf.width, hwf.size⟩
  have m : ∀ L, Members sq { d with loads := L } ms := fun L => hms
  have e1 := (C18_nodal_equilibrium (w L1) hsp (m L1) hst h1).2
  have e2 := (C18_nodal_equilibrium (w L2) hsp (m L2) hst h2).2
  have a := load_work (w L1) (m L1) hF1 e1 e2.1
  have b := load_work (w L2) (m L2) hF2 e2 e1.1
  dsimp only at a b
  rw [a, b]
  congr 1
  refine List.map_congr_left fun x hx => ?_
  exact form_symm (hsym x hx) _ _

/-- C23. The work of the loads on their own displacements is non-negative when the element matrices are
positive semidefinite. -/
theorem C23_positive_work (hwf : WellFormed d) (hsp : SolverOk sp) (hms : Members sq d ms)
    (hst : Stable d.cons 2 ms) (hpsd : ∀ m ∈ ms, ∀ u, 0 ≤ m.form 2 u u)
    (h : Gui.solidsAuto sq sp de d plot = .ok res) {F : ℕ → ℕ → K} (hF : LoadField d F) :
    0 ≤ ∑ p ∈ Finset.range d.nodes.length, ∑ j ∈ Finset.range 2, fieldOf res.disp p j * F p j := by
  have e := (C18_nodal_equilibrium hwf hsp hms hst h).2
  rw [load_work hwf hms hF e e.1]
  apply List.sum_nonneg
  intro x hx
  obtain ⟨m, hm, rfl⟩ := List.mem_map.1 hx
  exact hpsd m hm _

/-- C25. If `solids_auto` prints no equilibrium warning then, whatever the solver returned, at every
free degree of freedom the internal force differs from the applied load `x` by at most
`1e-8 |max K| + 1e-5 |x|`, where `max K` is the largest entry of the assembled matrix. -/
theorem C25_silence_means_small_residual (hwf : WellFormed d) (hms : Members sq d ms)
    (h : Gui.solidsAuto sq sp de d plot = .ok res) (hquiet : res.warned = false)
    {op bc : List (List ℤ)} {neq : ℕ} {Kg Mg : Matrix (Fin neq) (Fin neq) K}
    (hd : dme d.cons d.elements = .ok (op, bc, neq))
    (ha : assembler (Uel.eleFun sq) d.elements d.mats d.nodes neq op = .ok (Kg, Mg)) :
    ∃ mx : K, (∃ i j, Kg i j = mx) ∧ (∀ i j, Kg i j ≤ mx) ∧
      ∀ p j x, Free d.cons 2 p j → IsLoad d.cons.length d.loads p j x →
        |internal 2 ms (fieldOf res.disp) p j - x| ≤ 1e-8 * |mx| + 1e-5 * |x| := by
  obtain ⟨neq', bc', Kg', Mg', op', ms', hms', s, hd', ha', rhs, x, ok, hl, hx, hb, hwarn, hc⟩ :=
    auto_solves hwf h
  obtain rfl := members_unique hms hms'
  rw [hd, Except.ok.injEq, Prod.mk.injEq, Prod.mk.injEq] at hd'
  obtain ⟨rfl, rfl, rfl⟩ := hd'
  rw [ha, Except.ok.injEq, Prod.mk.injEq] at ha'
  obtain ⟨rfl, rfl⟩ := ha'
  have hok : ok = true := by
    rw [hquiet] at hwarn
    cases ok
    · simp at hwarn
    · rfl
  subst hok
  unfold Gui.balanced at hb
  rw [bind_ok] at hb
  obtain ⟨mx, hmx, hb⟩ := hb
  have hmax : (∃ i j, Kg i j = mx) ∧ (∀ i j, Kg i j ≤ mx) := by
    unfold Gui.matMax at hmx
    have fold : ∀ (l : List K) (a : K), (l.foldl max a = a ∨ l.foldl max a ∈ l) ∧ a ≤ l.foldl max a ∧
        ∀ y ∈ l, y ≤ l.foldl max a := by
      intro l
      induction l with
      | nil => intro a; simp
      | cons b l ih =>
        intro a
        obtain ⟨i1, i2, i3⟩ := ih (max a b)
        rw [List.foldl_cons]
        refine ⟨?_, (le_max_left a b).trans i2, fun y hy => ?_⟩
        · rcases i1 with i1 | i1
          · rw [i1]
            rcases max_choice a b with hm | hm
            · exact Or.inl hm
            · rw [hm]; exact Or.inr (by simp)
          · exact Or.inr (by simp [i1])
        · rcases List.mem_cons.1 hy with rfl | hy
          · exact (le_max_right a y).trans i2
          · exact i3 y hy
    have key : ∀ (l : List K), Post.listMax l = .ok mx → mx ∈ l ∧ ∀ y ∈ l, y ≤ mx := by
      intro l hl
      cases l with
      | nil => simp [Post.listMax] at hl
      | cons a l =>
        simp only [Post.listMax, Except.ok.injEq] at hl
        obtain ⟨i1, i2, i3⟩ := fold l a
        rw [hl] at i1 i2 i3
        refine ⟨?_, fun y hy => ?_⟩
        · rcases i1 with i1 | i1
          · simp [i1]
          · simp [i1]
        · rcases List.mem_cons.1 hy with rfl | hy
          · exact i2
          · exact i3 y hy
    obtain ⟨k1, k2⟩ := key _ hmx
    simp only [List.mem_flatMap, List.mem_map, List.mem_finRange, true_and] at k1 k2
    exact ⟨k1, fun i j => k2 _ ⟨i, j, rfl⟩⟩
  refine ⟨mx, hmax.1, hmax.2, fun p j y hf hy => ?_⟩
  rcases free_or_fixed s.eq s.valid (free_lt hf) hf.1 with ⟨_, i, hi, _⟩ | ⟨hnf, _⟩
  · rw [← s.mul x _ hc p j i hf hi, isLoad_unique hy (rhs_isLoad s.eq s.valid hl hf hi)]
    split at hb
    · rw [pure_ok] at hb
      simp at hb
    · rename_i hne
      rw [pure_ok] at hb
      unfold Gui.allclose at hb
      rw [List.all_eq_true] at hb
      have hi' := hb i (List.mem_finRange i)
      unfold Fem.isclose at hi'
      rw [decide_eq_true_eq, div_sub_div_same, abs_div, abs_div] at hi'
      have hpos : 0 < |mx| := abs_pos.2 hne
      rw [div_le_iff₀ hpos, add_mul, mul_assoc, div_mul_cancel₀ _ hpos.ne'] at hi'
      exact hi'
  · exact absurd hf hnf

end

/-! ## Worked case for C11, C18 - C25: a two-bar truss solved with Cramer's rule -/

section demo

/-- Cramer's rule as a solver. -/
def cramerSolver : Sol.Solver ℚ := fun _ M b =>
  if M.det = 0 then .error .linAlg else .ok (M.det⁻¹ • M.cramer b)

theorem cramerSolver_ok : SolverOk cramerSolver := by
  intro n M b hM
  refine ⟨_, by unfold cramerSolver; rw [if_neg hM], ?_⟩
  rw [Matrix.mulVec_smul, Matrix.mulVec_cramer, smul_smul, inv_mul_cancel₀ hM, one_smul]

/-- A square root good enough for bars of length 5 and 3. -/
def demoSq (x : ℚ) : ℚ := if x = 25 then 5 else if x = 9 then 3 else 0

/-- A bar of length 5 and a bar of length 3 meeting at a loaded node. -/
def demoTruss : Gui.Data ℚ where
  nodes := [[0, 0, 0], [1, 4, 0], [2, 4, 3]]
  cons := [[-1, -1], [-1, -1], [0, 0]]
  elements := [[0, 6, 0, 0, 2], [1, 6, 1, 1, 2]]
  mats := [[125, 1], [9, 1]]
  loads := [[2, 4, -6]]

set_option maxRecDepth 100000 in
/-- The run succeeds without warning. -/
theorem demo_run : (Gui.solidsAuto demoSq cramerSolver cramerSolver demoTruss false).map
    (fun r => (r.disp, r.warned)) = .ok ([[0, 0], [0, 0], [5/2, -3]], false) := by
  decide +kernel

theorem demo_ok : ∃ res, Gui.solidsAuto demoSq cramerSolver cramerSolver demoTruss false = .ok res ∧
    res.disp = [[0, 0], [0, 0], [5/2, -3]] ∧ res.warned = false := by
  have h := demo_run
  cases hr : Gui.solidsAuto demoSq cramerSolver cramerSolver demoTruss false with
  | error e => rw [hr] at h; cases h
  | ok r =>
    rw [hr] at h
    simp only [Except.map, Except.ok.injEq, Prod.mk.injEq] at h
    exact ⟨r, rfl, h.1, h.2⟩

theorem demo_wf : WellFormed demoTruss where
  codes := by
    intro i j x hj hx
    obtain ⟨row, h1, h2⟩ := entry_some.1 hx
    have h1 := List.mem_of_getElem? h1
    have h2 := List.mem_of_getElem? h2
    simp only [demoTruss, List.mem_cons, List.not_mem_nil, or_false] at h1
    rcases h1 with rfl | rfl | rfl <;> simp at h2 <;> simp [h2]
  width := by decide
  size := rfl

/-- Case for C18 - C25: the truss is well formed, stable, and solved without warning. -/
theorem demo_stable : ∃ ms, Members demoSq demoTruss ms ∧ Stable demoTruss.cons 2 ms := by
  obtain ⟨res, h, _⟩ := demo_ok
  obtain ⟨neq, bc, Kg, Mg, op, ms, hms, s, h1, h2, rhs, x, ok, h3, h4, _⟩ := auto_solves demo_wf h
  refine ⟨ms, hms, stable_of_det_ne_zero s ?_⟩
  intro h0
  unfold cramerSolver at h4
  rw [if_pos h0] at h4
  cases h4

/-- Case for C20 and C21: the same truss with the bars swapped, and with nodes 0 and 2 exchanged. -/
example : (Gui.solidsAuto demoSq cramerSolver cramerSolver
      { demoTruss with elements := [[1, 6, 1, 1, 2], [0, 6, 0, 0, 2]] } false).map (fun r => r.disp) =
      .ok [[0, 0], [0, 0], [5/2, -3]] ∧
    (Gui.solidsAuto demoSq cramerSolver cramerSolver
      { demoTruss with nodes := [[0, 4, 3], [1, 4, 0], [2, 0, 0]], cons := [[0, 0], [-1, -1], [-1, -1]],
                       elements := [[0, 6, 0, 2, 0], [1, 6, 1, 1, 0]], loads := [[0, 4, -6]] } false).map
      (fun r => r.disp) = .ok [[5/2, -3], [0, 0], [0, 0]] := by decide +kernel

/-- Case for C21: the renumbering of the previous case. -/
example : Renumbered (fun p => if p = 0 then 2 else if p = 2 then 0 else p) demoTruss
    { demoTruss with nodes := [[0, 4, 3], [1, 4, 0], [2, 0, 0]], cons := [[0, 0], [-1, -1], [-1, -1]],
                     elements := [[0, 6, 0, 2, 0], [1, 6, 1, 1, 0]], loads := [[0, 4, -6]] } where
  maps := by decide
  inj := by decide
  size := rfl
  coords := by decide +kernel
  consSize := rfl
  cons := by decide +kernel
  mats := rfl
  elements := .cons ⟨rfl, .cons ⟨0, by decide, rfl, rfl⟩ (.cons ⟨2, by decide, rfl, rfl⟩ .nil)⟩
    (.cons ⟨rfl, .cons ⟨1, by decide, rfl, rfl⟩ (.cons ⟨2, by decide, rfl, rfl⟩ .nil)⟩ .nil)
  loads := .cons ⟨2, by decide, rfl, rfl, rfl⟩ .nil

/-- Case for C22: tripled and combined loads. -/
example : (Gui.solidsAuto demoSq cramerSolver cramerSolver
      { demoTruss with loads := [[2, 3 * 4 + 2 * 12, 3 * (-6) + 2 * 12]] } false).map (fun r => r.disp) =
      .ok [[0, 0], [0, 0], [3 * (5/2) + 2 * 0, 3 * (-3) + 2 * 1]] ∧
    (Gui.solidsAuto demoSq cramerSolver cramerSolver
      { demoTruss with loads := [[2, 12, 12]] } false).map (fun r => r.disp) =
      .ok [[0, 0], [0, 0], [0, 1]] := by decide +kernel

/-- Case for C23: the loads of the truss as a nodal field. -/
example : LoadField demoTruss (fun p j => if p = 2 then (if j = 0 then 4 else -6) else 0) := by
  intro p j hp hj
  have hp' : p = 0 ∨ p = 1 ∨ p = 2 := by
    simp only [demoTruss, List.length_cons, List.length_nil] at hp; omega
  have hn : ∀ q, Names demoTruss.nodes.length [2, (4 : ℚ), -6] q ↔ q = 2 := fun q => names_nat (by decide) rfl
  by_cases h2 : p = 2
  · subst h2
    refine Or.inr ⟨[], [2, 4, -6], [], rfl, (hn 2).2 rfl, by simp, ?_⟩
    have hj' : j = 0 ∨ j = 1 := by omega
    rcases hj' with rfl | rfl <;> rfl
  · refine Or.inl ⟨fun L hL hc => ?_, by simp [h2]⟩
    simp only [demoTruss, List.mem_singleton] at hL
    subst hL
    exact h2 ((hn p).1 hc)

end demo

/-! ## C24 -/

section
variable {K : Type} [Field K] [LinearOrder K] [IsStrictOrderedRing K]

/-- C24. `energy` is `-1/2 u^T K u`. -/
theorem C24_energy_quadratic {n : ℕ} (u : Fin n → K) (M : Matrix (Fin n) (Fin n) K) :
    Post.energy u M = -(1 / 2) * ∑ i, ∑ j, u i * M i j * u j := by
  unfold Post.energy Matrix.mulVec dotProduct
  have h : (-0.5 : K) = -(1 / 2) := by norm_num
  rw [h]
  show -(1 / 2) * ∑ i, (∑ j, M i j * u j) * u i = _
  congr 1
  refine Finset.sum_congr rfl fun i _ => ?_
  rw [Finset.sum_mul]
  refine Finset.sum_congr rfl fun j _ => ?_
  ring

/-- C24. For a solution of `K u = f` the energy is `-1/2 f.u`. -/
theorem C24_energy_of_solution {n : ℕ} {u f : Fin n → K} {M : Matrix (Fin n) (Fin n) K}
    (h : M.mulVec u = f) : Post.energy u M = -(1 / 2) * ∑ i, f i * u i := by
  have e : (-0.5 : K) = -(1 / 2) := by norm_num
  unfold Post.energy dotProduct
  rw [e, h]

/-- C24. The energy is non-positive for an assembled matrix with semidefinite elements. -/
theorem C24_energy_nonpos {eleFun : ℤ → Py (Uel K)} {elements : List (List ℤ)} {mats nodes : Table K}
    {neq : ℕ} {assemOp : List (List ℤ)} {uel : Option (Uel K)} {sparse : Bool}
    {Kg Mg : Matrix (Fin neq) (Fin neq) K}
    (h : assembler eleFun elements mats nodes neq assemOp sparse uel = .ok (Kg, Mg))
    (hpsd : ∀ e k m, e < elements.length → retriever eleFun elements mats nodes e uel = .ok (k, m) →
        ∀ x : ℕ → K, 0 ≤ bilin (rowsOf k) (cell k) x x) (u : Fin neq → K) :
    Post.energy u Kg ≤ 0 := by
  rw [C24_energy_quadratic]
  have := (C12_assembled_psd h).1 hpsd u
  linarith

/-- C24. The solution minimises the potential energy `1/2 v^T K v - f.v` over all reduced vectors, when
the matrix is symmetric and positive semidefinite; the minimum is `energy`. -/
theorem C24_minimum_potential {n : ℕ} {u f : Fin n → K} {M : Matrix (Fin n) (Fin n) K}
    (h : M.mulVec u = f) (hs : M.transpose = M) (hp : ∀ v : Fin n → K, 0 ≤ ∑ i, ∑ j, v i * M i j * v j)
    (v : Fin n → K) :
    (1 / 2) * (∑ i, ∑ j, u i * M i j * u j) - ∑ i, f i * u i ≤
      (1 / 2) * (∑ i, ∑ j, v i * M i j * v j) - ∑ i, f i * v i ∧
    (1 / 2) * (∑ i, ∑ j, u i * M i j * u j) - ∑ i, f i * u i = Post.energy u M := by
  have hf : ∀ i, f i = ∑ j, M i j * u j := fun i => by rw [← h]; rfl
  have hsym : ∀ i j, M i j = M j i := fun i j => by
    have := congrFun (congrFun hs j) i
    rw [Matrix.transpose_apply] at this
    exact this
  have e1 : ∀ w : Fin n → K, ∑ i, f i * w i = ∑ i, ∑ j, w i * M i j * u j := by
    intro w
    refine Finset.sum_congr rfl fun i _ => ?_
    rw [hf, Finset.sum_mul]
    refine Finset.sum_congr rfl fun j _ => ?_
    ring
  have e2 : ∑ i, ∑ j, u i * M i j * v j = ∑ i, ∑ j, v i * M i j * u j := by
    rw [Finset.sum_comm]
    refine Finset.sum_congr rfl fun i _ => Finset.sum_congr rfl fun j _ => ?_
    rw [hsym j i]
    ring
  have e3 : ∑ i, ∑ j, (v i - u i) * M i j * (v j - u j) =
      (∑ i, ∑ j, v i * M i j * v j) - (∑ i, ∑ j, v i * M i j * u j) -
      (∑ i, ∑ j, u i * M i j * v j) + ∑ i, ∑ j, u i * M i j * u j := by
    simp only [← Finset.sum_sub_distrib, ← Finset.sum_add_distrib]
    refine Finset.sum_congr rfl fun i _ => Finset.sum_congr rfl fun j _ => ?_
    ring
  have h0 := hp (fun i => v i - u i)
  rw [e3, e2] at h0
  refine ⟨?_, ?_⟩
  · rw [e1, e1]
    linarith
  · rw [C24_energy_of_solution h, e1]
    linarith

/-- Case for C24: the solved truss system. -/
example : (!![16, 12; 12, 12] : Matrix (Fin 2) (Fin 2) ℚ).mulVec ![5/2, -3] = ![4, -6] ∧
    Post.energy ![5/2, -3] (!![16, 12; 12, 12] : Matrix (Fin 2) (Fin 2) ℚ) = -14 := by
  constructor
  · funext i
    fin_cases i <;> decide +kernel
  · decide +kernel

end

end SolidsPy
