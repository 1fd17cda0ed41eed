import Verif.Props.SolidBodies
import Verif.Props.AxiBodies
import Verif.Props.FrameWork

/-! # C155: work and energy in models of the user's elements -/

set_option linter.unusedSectionVars false

namespace SolidsPy
open Spec Assem Matrix

section
variable {K : Type} [Field K] [LinearOrder K] [IsStrictOrderedRing K] [FloorRing K]

/-- What is needed for an analysis with the user's element `f`: the routine returns matrices of `n * nd` rows, the tables fit together,
`ndof_el` gives the size of the elements, `f` accepts every element, and the solvers solve. -/
structure Spec.UserCase (nd n m : ℕ) (f : Uel K) (count : ℤ → Py ℕ) (sp de : Sol.Solver K) (cons : Table K) (elements : List (List ℤ))
    (mats nodes : Table K) (ms : List (Member K)) : Prop where
  element : ElementOf nd n f
  model : UserModel nd n cons nodes elements
  counts : Counts count (n * nd) elements
  some_dofs : 0 < n * nd
  room : n * nd ≤ m
  members : List.Forall₂ (Describes f mats nodes) elements ms
  sparse : SolverOk sp
  dense : SolverOk de

/-- Every element matrix is symmetric. -/
def Spec.SymmetricElements (nd : ℕ) (ms : List (Member K)) : Prop :=
  ∀ m ∈ ms, ∀ r < nd * m.nodes.length, ∀ c < nd * m.nodes.length, m.k r c = m.k c r

/-- No displacement gives an element negative energy. -/
def Spec.ElasticElements (nd : ℕ) (ms : List (Member K)) : Prop := ∀ m ∈ ms, ∀ u, 0 ≤ m.form nd u u

/-- Energy the elements store: half of `uᵀ k u` for every element. -/
def Spec.storedEnergy (nd : ℕ) (ms : List (Member K)) (u : ℕ → ℕ → K) : K := (ms.map fun m => m.form nd u u / 2).sum

/-- Work of the nodal forces `F` on the displacements `v`. -/
def Spec.loadWork (nd n : ℕ) (F v : ℕ → ℕ → K) : K := ∑ p ∈ Finset.range n, ∑ j ∈ Finset.range nd, v p j * F p j

/-- `F` are the forces of the load table. -/
def Spec.UserLoads (nd n : ℕ) (loads : Table K) (F : ℕ → ℕ → K) : Prop := ∀ p < n, ∀ j < nd, IsLoad n loads p j (F p j)

variable {f f' : Uel K} {tab tab' : ℤ → Py (Uel K)} {nd n n' m m' : ℕ} {count count' : ℤ → Py ℕ} {sp de sp' de' : Sol.Solver K}
  {cons cons' mats mats' nodes nodes' loads loads' loads'' full full' full'' : Table K}
  {elements elements' : List (List ℤ)} {ms ms' : List (Member K)} {F F' U V : ℕ → ℕ → K} {sparse sparse' sparse'' : Bool}

theorem form_symm_of (h : SymmetricElements nd ms) : ∀ m ∈ ms, ∀ v u, m.form nd v u = m.form nd u v := by
  intro m hm v u
  simp only [Member.form, Member.force, Finset.mul_sum]
  have e : ∀ g : ℕ → ℕ → ℕ → ℕ → K, (∑ a ∈ Finset.range m.nodes.length, ∑ j ∈ Finset.range nd, ∑ b ∈ Finset.range m.nodes.length,
      ∑ c ∈ Finset.range nd, g a j b c) = ∑ b ∈ Finset.range m.nodes.length, ∑ c ∈ Finset.range nd, ∑ a ∈ Finset.range m.nodes.length,
      ∑ j ∈ Finset.range nd, g a j b c := fun g => by
    calc _ = ∑ a ∈ Finset.range m.nodes.length, ∑ b ∈ Finset.range m.nodes.length, ∑ c ∈ Finset.range nd, ∑ j ∈ Finset.range nd, g a j b c :=
          Finset.sum_congr rfl fun a _ => Finset.sum_comm.trans (Finset.sum_congr rfl fun b _ => Finset.sum_comm)
      _ = ∑ b ∈ Finset.range m.nodes.length, ∑ a ∈ Finset.range m.nodes.length, ∑ c ∈ Finset.range nd, ∑ j ∈ Finset.range nd, g a j b c :=
          Finset.sum_comm
      _ = _ := Finset.sum_congr rfl fun b _ => Finset.sum_comm
  rw [e]
  refine Finset.sum_congr rfl fun b hb => Finset.sum_congr rfl fun c hc => Finset.sum_congr rfl fun a ha => Finset.sum_congr rfl fun j hj => ?_
  rw [Finset.mem_range] at ha hb hc hj
  have lt : ∀ {a j : ℕ}, a < m.nodes.length → j < nd → nd * a + j < nd * m.nodes.length := fun {a j} ha hj =>
    calc nd * a + j < nd * a + nd := by omega
      _ = nd * (a + 1) := by ring
      _ ≤ _ := Nat.mul_le_mul_left _ ha
  rw [h m hm _ (lt ha hj) _ (lt hb hc)]
  ring

theorem stored_sum (ms : List (Member K)) (u : ℕ → ℕ → K) : (ms.map fun m => m.form nd u u).sum = 2 * storedEnergy nd ms u := by
  unfold storedEnergy
  rw [← List.sum_map_mul_left]
  congr 1
  exact List.map_congr_left fun m _ => by ring

theorem stored_nonneg (h : ElasticElements nd ms) (u : ℕ → ℕ → K) : 0 ≤ storedEnergy nd ms u := by
  refine List.sum_nonneg fun y hy => ?_
  obtain ⟨m, hm, rfl⟩ := List.mem_map.1 hy
  exact div_nonneg (h m hm u) zero_le_two

theorem adm_comb (c d : K) (hU : Admissible cons nd U) (hV : Admissible cons nd V) :
    Admissible cons nd fun p j => c * U p j + d * V p j := fun p j hp hj hf => by
  dsimp only
  rw [hU p j hp hj hf, hV p j hp hj hf]
  ring

theorem loadWork_fields (n : ℕ) (c d : K) (F U V : ℕ → ℕ → K) :
    loadWork nd n F (fun p j => c * U p j + d * V p j) = c * loadWork nd n F U + d * loadWork nd n F V := by
  unfold loadWork
  simp only [add_mul, Finset.sum_add_distrib, mul_assoc, ← Finset.mul_sum]

theorem loadWork_loads (n : ℕ) (c d : K) (F G V : ℕ → ℕ → K) :
    loadWork nd n (fun p j => c * F p j + d * G p j) V = c * loadWork nd n F V + d * loadWork nd n G V := by
  unfold loadWork
  simp only [mul_add, Finset.sum_add_distrib, mul_left_comm _ c, mul_left_comm _ d, ← Finset.mul_sum]

namespace Spec.UserCase

theorem virtual (h : UserCase nd n m f count sp de cons elements mats nodes ms) (hF : UserLoads nd nodes.length loads F) :
    Equilibrium cons nd loads ms U ↔ Admissible cons nd U ∧
      ∀ V, Admissible cons nd V → loadWork nd nodes.length F V = (ms.map fun m => m.form nd V U).sum :=
  weak_iff h.model.size (describes_inn h.members) hF

theorem equilibrium (h : UserCase nd n m f count sp de cons elements mats nodes ms) (hst : Stable cons nd ms)
    (hr : userRun tab f nd m count sp de sparse cons elements mats nodes loads = .ok full) : Equilibrium cons nd loads ms (fieldOf full) := by
  obtain ⟨op, bc, neq, Kg, Mg, rhs, x, h1, h2, h3, h4, h6⟩ := userRun_ok.1 hr
  obtain ⟨ms', s⟩ := user_setup h.element h.model h.counts h.some_dofs h.room h1 h2
  obtain rfl := describes_all_unique h.members s.mem
  have hso : SolverOk (if sparse then sp else de) := by
    cases sparse
    · exact h.dense
    · exact h.sparse
  obtain ⟨x', h4', h5⟩ := hso neq Kg rhs (det_ne_zero_of_stable s hst)
  rw [h4, Except.ok.injEq] at h4'
  subst h4'
  rw [← h.model.size] at h6
  exact (equilibrium_iff s h3 (completes_of_completeDisp h6)).2 h5

theorem unique (h : UserCase nd n m f count sp de cons elements mats nodes ms) (hst : Stable cons nd ms)
    (hr : userRun tab f nd m count sp de sparse cons elements mats nodes loads = .ok full) (hV : Equilibrium cons nd loads ms V) :
    ∀ p < nodes.length, ∀ j < nd, entry full p j = some (V p j) := fun p hp j hj =>
  C135_unique h.element h.model h.counts h.some_dofs h.room h.members hst h.sparse h.dense hr hV p j hp hj

end Spec.UserCase

/-- C155.  The displacements depend linearly on the loads. -/
theorem C155_superposition (h : UserCase nd n m f count sp de cons elements mats nodes ms) (hst : Stable cons nd ms) (c d : K)
    (hF : UserLoads nd nodes.length loads F) (hF' : UserLoads nd nodes.length loads' F')
    (hF'' : UserLoads nd nodes.length loads'' fun p j => c * F p j + d * F' p j)
    (hr : userRun tab f nd m count sp de sparse cons elements mats nodes loads = .ok full)
    (hr' : userRun tab f nd m count sp de sparse' cons elements mats nodes loads' = .ok full')
    (hr'' : userRun tab f nd m count sp de sparse'' cons elements mats nodes loads'' = .ok full'') :
    ∀ p < nodes.length, ∀ j < nd, entry full'' p j = some (c * fieldOf full p j + d * fieldOf full' p j) := by
  have e := (h.virtual hF).1 (h.equilibrium hst hr)
  have e' := (h.virtual hF').1 (h.equilibrium hst hr')
  refine h.unique hst hr'' (V := fun p j => c * fieldOf full p j + d * fieldOf full' p j)
    ((h.virtual hF'').2 ⟨adm_comb c d e.1 e'.1, fun V hV => ?_⟩)
  rw [loadWork_loads, forms_combination, e.2 V hV, e'.2 V hV]

/-- C155.  Betti: the first loads work on the displacements of the second as the second loads on those of the first. -/
theorem C155_reciprocity (h : UserCase nd n m f count sp de cons elements mats nodes ms) (hst : Stable cons nd ms)
    (hs : SymmetricElements nd ms) (hF : UserLoads nd nodes.length loads F) (hF' : UserLoads nd nodes.length loads' F')
    (hr : userRun tab f nd m count sp de sparse cons elements mats nodes loads = .ok full)
    (hr' : userRun tab f nd m count sp de sparse' cons elements mats nodes loads' = .ok full') :
    loadWork nd nodes.length F (fieldOf full') = loadWork nd nodes.length F' (fieldOf full) := by
  have e := (h.virtual hF).1 (h.equilibrium hst hr)
  have e' := (h.virtual hF').1 (h.equilibrium hst hr')
  rw [e.2 _ e'.1, e'.2 _ e.1]
  exact forms_symm ms (form_symm_of hs) _ _

theorem loadWork_unit {q i : ℕ} (hq : q < n) (hi : i < nd) (U : ℕ → ℕ → K) :
    loadWork nd n (fun a b => if a = q ∧ b = i then 1 else 0) U = U q i := by
  unfold loadWork
  rw [Finset.sum_eq_single q, Finset.sum_eq_single i]
  · simp
  · intro b _ hb
    simp [hb]
  · intro hc
    exact absurd (Finset.mem_range.2 hi) hc
  · intro b _ hb
    exact Finset.sum_eq_zero fun c _ => by simp [hb]
  · intro hc
    exact absurd (Finset.mem_range.2 hq) hc

theorem loadWork_comm (F U : ℕ → ℕ → K) : loadWork nd n F U = loadWork nd n U F := by
  unfold loadWork
  exact Finset.sum_congr rfl fun _ _ => Finset.sum_congr rfl fun _ _ => mul_comm _ _

/-- C155.  Maxwell: a unit load at component `i` of node `q` moves component `j` of node `p` as much as the other way round. -/
theorem C155_maxwell (h : UserCase nd n m f count sp de cons elements mats nodes ms) (hst : Stable cons nd ms)
    (hs : SymmetricElements nd ms) {p q i j : ℕ} (hp : p < nodes.length) (hq : q < nodes.length) (hi : i < nd) (hj : j < nd)
    (hF : UserLoads nd nodes.length loads fun a b => if a = q ∧ b = i then 1 else 0)
    (hF' : UserLoads nd nodes.length loads' fun a b => if a = p ∧ b = j then 1 else 0)
    (hr : userRun tab f nd m count sp de sparse cons elements mats nodes loads = .ok full)
    (hr' : userRun tab f nd m count sp de sparse' cons elements mats nodes loads' = .ok full') :
    fieldOf full' q i = fieldOf full p j := by
  rw [← loadWork_unit hq hi (fieldOf full'), ← loadWork_unit hp hj (fieldOf full)]
  exact C155_reciprocity h hst hs hF hF' hr hr'

/-- C155.  Clapeyron: the elements store half the work of the loads. -/
theorem C155_stored (h : UserCase nd n m f count sp de cons elements mats nodes ms) (hst : Stable cons nd ms)
    (hF : UserLoads nd nodes.length loads F) (hr : userRun tab f nd m count sp de sparse cons elements mats nodes loads = .ok full) :
    storedEnergy nd ms (fieldOf full) = loadWork nd nodes.length F (fieldOf full) / 2 := by
  have e := (h.virtual hF).1 (h.equilibrium hst hr)
  rw [e.2 _ e.1, stored_sum]
  ring

/-- C155.  The states in equilibrium are those of least stored energy less the work of the loads. -/
theorem C155_minimum_iff (h : UserCase nd n m f count sp de cons elements mats nodes ms) (hs : SymmetricElements nd ms)
    (he : ElasticElements nd ms) (hF : UserLoads nd nodes.length loads F) :
    Equilibrium cons nd loads ms U ↔ Admissible cons nd U ∧ ∀ V, Admissible cons nd V →
      storedEnergy nd ms U - loadWork nd nodes.length F U ≤ storedEnergy nd ms V - loadWork nd nodes.length F V := by
  have sy := form_symm_of hs
  rw [h.virtual hF]
  refine and_congr_right fun hU => ⟨fun H V hV => ?_, fun H V hV => ?_⟩
  · have g := forms_square ms sy 1 (-1) V U
    rw [stored_sum] at g
    have g0 := stored_nonneg he fun p j => 1 * V p j + -1 * U p j
    have a := H V hV
    have b := H U hU
    have c := stored_sum (nd := nd) ms V
    have d := stored_sum (nd := nd) ms U
    rw [forms_symm ms sy U V] at g
    linarith
  · by_contra hne
    have q : ∀ t : K, 0 ≤ t * ((ms.map fun m => m.form nd V U).sum - loadWork nd nodes.length F V) + t ^ 2 * storedEnergy nd ms V := fun t => by
      have g := forms_square ms sy 1 t U V
      rw [stored_sum] at g
      have a := H _ (adm_comb 1 t hU hV)
      rw [loadWork_fields] at a
      have c := stored_sum (nd := nd) ms V
      have d := stored_sum (nd := nd) ms U
      rw [c, d] at g
      linarith
    have hE := stored_nonneg he V
    generalize hr : (ms.map fun m => m.form nd V U).sum - loadWork nd nodes.length F V = r at q
    have hr0 : r ≠ 0 := fun h0 => hne (by linarith)
    obtain ⟨x, rfl⟩ : ∃ x, r = x * (storedEnergy nd ms V + 1) := ⟨r / (storedEnergy nd ms V + 1), by field_simp⟩
    have := q (-x)
    have hx : x ^ 2 ≤ 0 := by nlinarith
    have := pow_eq_zero_iff (two_ne_zero) |>.1 (le_antisymm hx (sq_nonneg x))
    exact hr0 (by rw [this, zero_mul])

/-- C155.  The analysis returns the only state of least potential energy. -/
theorem C155_minimum (h : UserCase nd n m f count sp de cons elements mats nodes ms) (hst : Stable cons nd ms) (hs : SymmetricElements nd ms)
    (he : ElasticElements nd ms) (hF : UserLoads nd nodes.length loads F)
    (hr : userRun tab f nd m count sp de sparse cons elements mats nodes loads = .ok full) (hV : Admissible cons nd V) :
    storedEnergy nd ms (fieldOf full) - loadWork nd nodes.length F (fieldOf full) ≤ storedEnergy nd ms V - loadWork nd nodes.length F V ∧
    (storedEnergy nd ms V - loadWork nd nodes.length F V ≤ storedEnergy nd ms (fieldOf full) - loadWork nd nodes.length F (fieldOf full) →
      ∀ p < nodes.length, ∀ j < nd, entry full p j = some (V p j)) := by
  have e := h.equilibrium hst hr
  have a := ((C155_minimum_iff h hs he hF).1 e).2
  exact ⟨a V hV, fun hle => h.unique hst hr ((C155_minimum_iff h hs he hF).2 ⟨hV, fun W hW => hle.trans (a W hW)⟩)⟩

/-- C155.  Loads of which one acts on a free component do positive work. -/
theorem C155_positive (h : UserCase nd n m f count sp de cons elements mats nodes ms) (hst : Stable cons nd ms) (hs : SymmetricElements nd ms)
    (he : ElasticElements nd ms) (hF : UserLoads nd nodes.length loads F)
    (hr : userRun tab f nd m count sp de sparse cons elements mats nodes loads = .ok full) {p j : ℕ} (hf : Free cons nd p j)
    (h0 : F p j ≠ 0) : 0 < loadWork nd nodes.length F (fieldOf full) := by
  have e1 := C155_stored h hst hF hr
  have e2 := stored_nonneg he (fieldOf full)
  refine lt_of_le_of_ne (by linarith) fun e0 => h0 ?_
  have z : ∀ G : ℕ → ℕ → K, loadWork nd nodes.length G (fun _ _ => 0) = 0 := fun G => by simp [loadWork]
  have zs : storedEnergy nd ms (fun _ _ => (0 : K)) = 0 := by
    unfold storedEnergy
    refine List.sum_eq_zero fun y hy => ?_
    obtain ⟨m, -, rfl⟩ := List.mem_map.1 hy
    simp [Member.form]
  have a := ((C155_minimum_iff h hs he hF).1 (h.equilibrium hst hr)).2
  have q := (h.virtual hF).1 ((C155_minimum_iff (U := fun _ _ => 0) h hs he hF).2 ⟨fun _ _ _ _ _ => rfl, fun V hV => by
    have := a V hV
    rw [z, zs]
    linarith⟩)
  have hp : p < nodes.length := by rw [← h.model.size]; exact free_lt hf
  rw [← loadWork_unit hp hf.1 F, loadWork_comm, q.2 _ fun p' j' _ _ hf' => if_neg ?_]
  · refine List.sum_eq_zero fun y hy => ?_
    obtain ⟨m, -, rfl⟩ := List.mem_map.1 hy
    simp [Member.form, Member.force]
  · rintro ⟨rfl, rfl⟩
    exact hf' hf

theorem stable_energy (h : UserCase nd n m f count sp de cons elements mats nodes ms) (hs : SymmetricElements nd ms)
    (he : ElasticElements nd ms) : Stable cons nd ms ↔ ∀ U, Admissible cons nd U → storedEnergy nd ms U = 0 →
      ∀ p j, p < cons.length → j < nd → U p j = 0 := by
  rw [stable_iff_energy (by rw [h.model.size]; exact describes_inn h.members) (form_symm_of hs) he]
  refine forall_congr' fun U => forall_congr' fun _ => imp_congr_left ?_
  rw [stored_sum, mul_eq_zero]
  simp

/-- C155.  Two models on as many nodes, perhaps with elements of different routines.  If no displacement stores less energy in the second
and the second has every support of the first, then the second is stable when the first is, and under the same loads its displacements
let the loads do no more work. -/
theorem C155_stiffer (h : UserCase nd n m f count sp de cons elements mats nodes ms)
    (h' : UserCase nd n' m' f' count' sp' de' cons' elements' mats' nodes' ms') (hn : nodes'.length = nodes.length)
    (hs : SymmetricElements nd ms) (hs' : SymmetricElements nd ms') (he : ElasticElements nd ms) (he' : ElasticElements nd ms')
    (hle : ∀ U, storedEnergy nd ms U ≤ storedEnergy nd ms' U) (hc : ∀ p j, Free cons' nd p j → Free cons nd p j)
    (hst : Stable cons nd ms) : Stable cons' nd ms' ∧ ∀ {loads full full' F sparse sparse'}, UserLoads nd nodes.length loads F →
      userRun tab f nd m count sp de sparse cons elements mats nodes loads = .ok full →
      userRun tab' f' nd m' count' sp' de' sparse' cons' elements' mats' nodes' loads = .ok full' →
      loadWork nd nodes.length F (fieldOf full') ≤ loadWork nd nodes.length F (fieldOf full) := by
  have hl : cons'.length = cons.length := h'.model.size.trans (hn.trans h.model.size.symm)
  have ha : ∀ u, Admissible cons' nd u → Admissible cons nd u := fun u hu p j hp hj hn =>
    hu p j (by rw [hl]; exact hp) hj fun hn' => hn (hc p j hn')
  have hst' : Stable cons' nd ms' := (stable_energy h' hs' he').2 fun U hU h0 => by
    rw [hl]
    exact (stable_energy h hs he).1 hst U (ha U hU) (le_antisymm ((hle U).trans h0.le) (stored_nonneg he U))
  refine ⟨hst', fun {loads full full' F sparse sparse'} hF hr hr' => ?_⟩
  have hF' : UserLoads nd nodes'.length loads F := by rw [hn]; exact hF
  have e1 := C155_stored h hst hF hr
  have e2 := C155_stored h' hst' hF' hr'
  have e3 := (C155_minimum h hst hs he hF hr (ha _ (h'.equilibrium hst' hr').1)).1
  have e4 := hle (fieldOf full')
  rw [hn] at e2
  linarith

/-- C155.  A further support, or a further element, never lets the loads do more work. -/
theorem C155_added {extra : List (List ℤ)} {ks : List (Member K)} (h : UserCase nd n m f count sp de cons elements mats nodes ms)
    (h' : UserCase nd n m f count sp de cons' (elements ++ extra) mats nodes (ms ++ ks))
    (hs : SymmetricElements nd (ms ++ ks)) (he : ElasticElements nd (ms ++ ks)) (hc : ∀ p j, Free cons' nd p j → Free cons nd p j)
    (hst : Stable cons nd ms) : Stable cons' nd (ms ++ ks) ∧ ∀ {loads full full' F sparse sparse'}, UserLoads nd nodes.length loads F →
      userRun tab f nd m count sp de sparse cons elements mats nodes loads = .ok full →
      userRun tab' f nd m count sp de sparse' cons' (elements ++ extra) mats nodes loads = .ok full' →
      loadWork nd nodes.length F (fieldOf full') ≤ loadWork nd nodes.length F (fieldOf full) := by
  refine C155_stiffer h h' rfl (fun m hm => hs m (by simp [hm])) hs (fun m hm => he m (by simp [hm])) he (fun U => ?_) hc hst
  have := stored_nonneg (ms := ks) (nd := nd) (fun m hm => he m (by simp [hm])) U
  unfold storedEnergy at this ⊢
  rw [List.map_append, List.sum_append]
  linarith

/-! ## The routines of `uelutil` that must be passed as `uel` -/

/-- A routine of `uelutil` that `ele_fun` does not list, with its numbers of degrees of freedom per node and of nodes. -/
inductive Spec.Unlisted : ℕ → ℕ → Uel K → Prop
  | quad8 : Unlisted 2 8 Uel.elastQuad8
  | axi : Unlisted 2 9 Uel.elastAxiQuad9
  | tet4 : Unlisted 3 4 Uel.elastTet4
  | hex8 : Unlisted 3 8 Uel.elastHex8

/-- The materials of the elements are elastic. -/
def Spec.ElasticMats (mats : Table K) (elements : List (List ℤ)) : Prop :=
  ∀ el ∈ elements, ∀ mi q params, el[2]? = some mi → Resolves mats.length mi q → mats[q]? = some params →
    ∃ E nu ρ, params = [E, nu, ρ] ∧ 0 ≤ E ∧ -1 < nu ∧ nu < 1 / 2 ∧ 0 ≤ ρ

theorem quad8_placed {el : List ℤ} {mb : Member K} (h : Describes Uel.elastQuad8 mats nodes el mb) :
    ∃ mi, ∃ q : ℕ, ∃ params, ∃ X : Matrix (Fin 8) (Fin 2) K, ∃ k mm, el[2]? = some mi ∧ Resolves mats.length mi q ∧
      mats[q]? = some params ∧ Returns Uel.elastQuad8 X params k mm ∧ Placed nodes mb X k := by
  obtain ⟨ty, mi, params, rows, f', kl, ml, a1, a2, ⟨q, a3, a4⟩, a5, a6, rfl, a8, a9⟩ := h
  obtain ⟨X, k, mm, hX, hk, -, hr⟩ := C38_plane_shape .quad8 a8
  exact ⟨mi, q, params, X, k, mm, a2, a3, a4, hr, placed_of_rows a6 hX a9 hk⟩

theorem symm_of_blocks {d : ℕ} {k : Matrix (Fin n × Fin d) (Fin n × Fin d) K} {mb : Member K} (hl : mb.nodes.length = n)
    (hk : ∀ p q, mb.k (d * p.1 + p.2) (d * q.1 + q.2) = k p q) (hs : k.IsSymm) (r : ℕ) (hr : r < d * mb.nodes.length)
    (c : ℕ) (hc : c < d * mb.nodes.length) : mb.k r c = mb.k c r := by
  have hd : 0 < d := Nat.pos_of_ne_zero (by rintro rfl; simp at hr)
  have at_ : ∀ {r}, r < d * mb.nodes.length → ∃ p : Fin n × Fin d, r = d * p.1 + p.2 := fun {r} hr =>
    ⟨(⟨r / d, hl ▸ Nat.div_lt_of_lt_mul hr⟩, ⟨r % d, Nat.mod_lt _ hd⟩), (Nat.div_add_mod r d).symm⟩
  obtain ⟨p, rfl⟩ := at_ hr
  obtain ⟨q, rfl⟩ := at_ hc
  rw [hk, hk, hs.apply]

/-- C155.  The four routines of `uelutil` that must be passed as `uel` return symmetric matrices, and with elastic materials no
displacement gives their elements negative energy. -/
theorem C155_library (hf : Unlisted nd n f) (hms : List.Forall₂ (Describes f mats nodes) elements ms) :
    ElementOf nd n f ∧ SymmetricElements nd ms ∧ (ElasticMats mats elements → ElasticElements nd ms) := by
  cases hf with
  | quad8 =>
    refine ⟨elementOf_quad8, fun mb hm => ?_, fun he mb hm u => ?_⟩ <;> obtain ⟨el, hel, hd⟩ := described hms hm <;>
      obtain ⟨mi, q, params, X, k, mm, a1, a2, a3, hr, hpl⟩ := quad8_placed hd
    · exact symm_of_blocks hpl.size hpl.stiff (C38_plane_symmetric .quad8 hr).1
    · obtain ⟨E, nu, ρ, rfl, hE, hn1, hn2, hρ⟩ := he el hel mi q params a1 a2 a3
      rw [hpl.form]
      exact (C39_plane_semidefinite .quad8 hr hE hn1 (by linarith) (by simpa using hρ) _).1
  | axi =>
    refine ⟨elementOf_axi, fun mb hm => ?_, fun he mb hm u => ?_⟩ <;> obtain ⟨el, hel, hd⟩ := described hms hm <;>
      obtain ⟨mi, q, params, X, k, mm, a1, a2, a3, hr, hpl⟩ := axi_placed hd
    · exact symm_of_blocks hpl.size hpl.stiff (C38_axi_symmetric hr).1
    · obtain ⟨E, nu, ρ, rfl, hE, hn1, hn2, hρ⟩ := he el hel mi q params a1 a2 a3
      rw [hpl.form]
      exact (C39_axi_semidefinite hr hE hn1 hn2 hρ _).1
  | tet4 =>
    refine ⟨elementOf_solid .tet4, fun mb hm => ?_, fun he mb hm u => ?_⟩ <;> obtain ⟨el, hel, hd⟩ := described hms hm <;>
      obtain ⟨mi, q, params, X, k, mm, a1, a2, a3, hr, hpl⟩ := member_placed3 .tet4 hd
    · exact symm_of_blocks hpl.size hpl.stiff (C38_solid_symmetric .tet4 hr).1
    · obtain ⟨E, nu, ρ, rfl, hE, hn1, hn2, hρ⟩ := he el hel mi q params a1 a2 a3
      rw [hpl.form]
      exact (C39_solid_semidefinite .tet4 hr hE hn1 hn2 hρ _).1
  | hex8 =>
    refine ⟨elementOf_solid .hex8, fun mb hm => ?_, fun he mb hm u => ?_⟩ <;> obtain ⟨el, hel, hd⟩ := described hms hm <;>
      obtain ⟨mi, q, params, X, k, mm, a1, a2, a3, hr, hpl⟩ := member_placed3 .hex8 hd
    · exact symm_of_blocks hpl.size hpl.stiff (C38_solid_symmetric .hex8 hr).1
    · obtain ⟨E, nu, ρ, rfl, hE, hn1, hn2, hρ⟩ := he el hel mi q params a1 a2 a3
      rw [hpl.form]
      exact (C39_solid_semidefinite .hex8 hr hE hn1 hn2 hρ _).1

end

section demo

/-- The two tetrahedra of C136. -/
theorem tet_case : ∃ ms, UserCase 3 4 12 Uel.elastTet4 (fun _ => .ok 12) cramerSolver cramerSolver tetCons tetEls tetMats tetNodes ms ∧
    SymmetricElements 3 ms ∧ ElasticElements 3 ms ∧ Stable tetCons 3 ms := by
  obtain ⟨ms, h⟩ := tet_body
  obtain ⟨a1, a2, a3⟩ := C155_library .tet4 h.members
  refine ⟨ms, ⟨a1, tet_model, ?_, by norm_num, by norm_num, h.members, cramerSolver_ok, cramerSolver_ok⟩, a2, a3 ?_,
    (C136_stable_iff (cons := tetCons) h rfl).2 tet_held⟩
  · intro el hel
    simp only [tetEls, List.mem_cons, List.not_mem_nil, or_false] at hel
    rcases hel with rfl | rfl <;> exact ⟨9, rfl, rfl⟩
  · intro el hel mi q params b1 b2 b3
    obtain ⟨E, nu, ρ, c1, c2, c3⟩ := h.elastic el hel mi q params b1 b2 b3
    exact ⟨E, nu, ρ, c1, c2.le, c3⟩

/-- A vertical unit load at node 4 and a horizontal one at node 3: Maxwell's equality, and the energy stored. -/
example (tab : ℤ → Py (Uel ℚ)) (sparse : Bool) : ∃ ms full full',
    userRun tab Uel.elastTet4 3 12 (fun _ => .ok 12) cramerSolver cramerSolver sparse tetCons tetEls tetMats tetNodes [[4, 0, 0, 1]] = .ok full ∧
    userRun tab Uel.elastTet4 3 12 (fun _ => .ok 12) cramerSolver cramerSolver sparse tetCons tetEls tetMats tetNodes [[3, 1, 0, 0]] = .ok full' ∧
    fieldOf full' 4 2 = fieldOf full 3 0 ∧ storedEnergy 3 ms (fieldOf full) = fieldOf full 4 2 / 2 ∧ 0 < fieldOf full 4 2 := by
  obtain ⟨ms, h, h1, h2, h3⟩ := tet_case
  have l4 : UserLoads (K := ℚ) 3 tetNodes.length [[4, 0, 0, 1]] (fun a b => if a = 4 ∧ b = 2 then 1 else 0) := fun p _ j hj => by
    have n1 : ∀ q, Names tetNodes.length ([4, 0, 0, 1] : List ℚ) q ↔ q = 4 := fun q => names_nat (p := 4) (q := q) (by decide) (by simp)
    by_cases hp : p = 4
    · subst hp
      refine .inr ⟨[], [4, 0, 0, 1], [], rfl, (n1 4).2 rfl, by simp, ?_⟩
      interval_cases j <;> simp
    · refine .inl ⟨fun L hL hN => ?_, by simp [hp]⟩
      rw [List.mem_singleton] at hL
      subst hL
      exact hp ((n1 p).1 hN)
  have l3 : UserLoads (K := ℚ) 3 tetNodes.length [[3, 1, 0, 0]] (fun a b => if a = 3 ∧ b = 0 then 1 else 0) := fun p _ j hj => by
    have n1 : ∀ q, Names tetNodes.length ([3, 1, 0, 0] : List ℚ) q ↔ q = 3 := fun q => names_nat (p := 3) (q := q) (by decide) (by simp)
    by_cases hp : p = 3
    · subst hp
      refine .inr ⟨[], [3, 1, 0, 0], [], rfl, (n1 3).2 rfl, by simp, ?_⟩
      interval_cases j <;> simp
    · refine .inl ⟨fun L hL hN => ?_, by simp [hp]⟩
      rw [List.mem_singleton] at hL
      subst hL
      exact hp ((n1 p).1 hN)
  obtain ⟨full, r, -⟩ := C135_solved (tab := tab) (loads := [[4, 0, 0, 1]]) h.element h.model h.counts h.some_dofs h.room h.members h3
    h.sparse h.dense sparse (by
      intro L hL
      rw [List.mem_singleton] at hL
      subst hL
      exact ⟨by simp, 4, (names_nat (p := 4) (q := 4) (by decide) (by simp)).2 rfl⟩)
  obtain ⟨full', r', -⟩ := C135_solved (tab := tab) (loads := [[3, 1, 0, 0]]) h.element h.model h.counts h.some_dofs h.room h.members h3
    h.sparse h.dense sparse (by
      intro L hL
      rw [List.mem_singleton] at hL
      subst hL
      exact ⟨by simp, 3, (names_nat (p := 3) (q := 3) (by decide) (by simp)).2 rfl⟩)
  have w := loadWork_unit (n := tetNodes.length) (nd := 3) (q := 4) (i := 2) (by decide) (by norm_num) (fieldOf full)
  refine ⟨ms, full, full', r, r', C155_maxwell h h3 h1 (by decide) (by decide) (by norm_num) (by norm_num) l4 l3 r r', ?_, ?_⟩
  · rw [C155_stored h h3 l4 r, w]
  · rw [← w]
    exact C155_positive h h3 h1 h2 l4 r (p := 4) (j := 2) ⟨by norm_num, by decide +kernel⟩ (by simp)

/-- With node 3 held as well, the vertical load at node 4 moves it no further down. -/
example (tab : ℤ → Py (Uel ℚ)) {ms : List (Member ℚ)} {cons' : Table ℚ}
    (hc : cons' = [[-1, -1, -1], [-1, -1, -1], [-1, -1, -1], [-1, -1, -1], [0, 0, 0]])
    (h : UserCase 3 4 12 Uel.elastTet4 (fun _ => .ok 12) cramerSolver cramerSolver tetCons tetEls tetMats tetNodes ms)
    (h1 : SymmetricElements 3 ms) (h2 : ElasticElements 3 ms) (h3 : Stable tetCons 3 ms) :
    UserCase 3 4 12 Uel.elastTet4 (fun _ => .ok 12) cramerSolver cramerSolver cons' tetEls tetMats tetNodes ms ∧ Stable cons' 3 ms := by
  subst hc
  have h' : UserCase 3 4 12 Uel.elastTet4 (fun _ => .ok 12) cramerSolver cramerSolver
      [[-1, -1, -1], [-1, -1, -1], [-1, -1, -1], [-1, -1, -1], [0, 0, 0]] tetEls tetMats tetNodes ms :=
    { h with model := {
        codes := by
          intro i j x hj hx
          by_cases hi : i < 5
          · interval_cases i <;> interval_cases j <;> simp [entry] at hx <;> simp [← hx]
          · obtain ⟨r, hr, -⟩ := entry_some.1 hx
            rw [List.getElem?_eq_none (by simp; omega)] at hr
            cases hr
        width := by decide
        size := rfl
        typed := h.model.typed } }
  refine ⟨h', (C155_stiffer (tab := tab) (tab' := tab) h h' rfl h1 h1 h2 h2 (fun _ => le_rfl) ?_ h3).1⟩
  rintro p j ⟨hj, x, hx, hf⟩
  refine ⟨hj, ?_⟩
  by_cases hp : p < 5
  · interval_cases p <;> interval_cases j <;> simp [entry] at hx <;> subst hx <;> first | exact ⟨0, rfl, by norm_num⟩ | (norm_num at hf)
  · obtain ⟨r, hr, -⟩ := entry_some.1 hx
    rw [List.getElem?_eq_none (by simp; omega)] at hr
    cases hr

end demo
end SolidsPy
