import Verif.Proofs.Moved
import Verif.Props.Success

/-! # Moving and turning the whole model (C109) -/

set_option linter.unusedSectionVars false

namespace SolidsPy
open Spec Assem Matrix

section
variable {K : Type} [Field K] [LinearOrder K] [IsStrictOrderedRing K] [FloorRing K]
variable {sq : K → K} {sp de : Sol.Solver K} {d d' : Gui.Data K} {ms ms' : List (Member K)}
variable {Q : Matrix (Fin 2) (Fin 2) K} {t : Fin 2 → K}

/-- The nodal field `u` with every nodal vector multiplied by `Q`. -/
def Spec.turned (Q : Matrix (Fin 2) (Fin 2) K) (u : ℕ → ℕ → K) (p i : ℕ) : K :=
  if h : i < 2 then Q ⟨i, h⟩ 0 * u p 0 + Q ⟨i, h⟩ 1 * u p 1 else 0

/-- A load row with its force multiplied by `Q`. -/
def Spec.turnLoad (Q : Matrix (Fin 2) (Fin 2) K) : List K → List K
  | [p, x, y] => [p, Q 0 0 * x + Q 0 1 * y, Q 1 0 * x + Q 1 1 * y]
  | L => L

/-- `d'` is the model `d` turned by `Q` and shifted by `t`: nodes, loads and supports; elements and materials are the same. -/
structure Spec.Replaced (Q : Matrix (Fin 2) (Fin 2) K) (t : Fin 2 → K) (d d' : Gui.Data K) : Prop where
  elements : d'.elements = d.elements
  mats : d'.mats = d.mats
  size : d'.nodes.length = d.nodes.length
  width : ∀ r ∈ d'.nodes, r.length = 3
  coord : ∀ p < d.nodes.length, ∀ i : Fin 2,
    coordOf d'.nodes p i = Q i 0 * coordOf d.nodes p 0 + Q i 1 * coordOf d.nodes p 1 + t i
  rows : ∀ L ∈ d.loads, L.length = 3
  loads : d'.loads = d.loads.map (turnLoad Q)
  supports : ∀ u, Admissible d.cons 2 u ↔ Admissible d'.cons 2 (turned Q u)

theorem turned_zero (Q : Matrix (Fin 2) (Fin 2) K) (u : ℕ → ℕ → K) (p : ℕ) : turned Q u p 0 = Q 0 0 * u p 0 + Q 0 1 * u p 1 := rfl
theorem turned_one (Q : Matrix (Fin 2) (Fin 2) K) (u : ℕ → ℕ → K) (p : ℕ) : turned Q u p 1 = Q 1 0 * u p 0 + Q 1 1 * u p 1 := rfl

theorem rot_cells (hQ : Q.transpose * Q = 1) : Q 0 0 * Q 0 0 + Q 1 0 * Q 1 0 = 1 ∧ Q 0 0 * Q 0 1 + Q 1 0 * Q 1 1 = 0 ∧
    Q 0 1 * Q 0 1 + Q 1 1 * Q 1 1 = 1 := by
  refine ⟨?_, ?_, ?_⟩
  · simpa [Matrix.mul_apply, Fin.sum_univ_two] using congrFun₂ hQ 0 0
  · simpa [Matrix.mul_apply, Fin.sum_univ_two] using congrFun₂ hQ 0 1
  · simpa [Matrix.mul_apply, Fin.sum_univ_two] using congrFun₂ hQ 1 1

theorem turned_dot (hQ : Q.transpose * Q = 1) (v u : ℕ → ℕ → K) (p : ℕ) :
    ∑ j ∈ Finset.range 2, turned Q v p j * turned Q u p j = ∑ j ∈ Finset.range 2, v p j * u p j := by
  obtain ⟨h1, h2, h3⟩ := rot_cells hQ
  simp only [Finset.sum_range_succ, Finset.sum_range_zero, zero_add, turned_zero, turned_one]
  linear_combination (v p 0 * u p 0) * h1 + (v p 0 * u p 1 + v p 1 * u p 0) * h2 + (v p 1 * u p 1) * h3

theorem turned_back (hQ : Q * Q.transpose = 1) (v : ℕ → ℕ → K) (p : ℕ) : ∀ j < 2, v p j = turned Q (turned Q.transpose v) p j := by
  have h1 : Q 0 0 * Q 0 0 + Q 0 1 * Q 0 1 = 1 := by
    simpa [Matrix.mul_apply, Fin.sum_univ_two] using congrFun₂ hQ 0 0
  have h2 : Q 0 0 * Q 1 0 + Q 0 1 * Q 1 1 = 0 := by
    simpa [Matrix.mul_apply, Fin.sum_univ_two] using congrFun₂ hQ 0 1
  have h3 : Q 1 0 * Q 1 0 + Q 1 1 * Q 1 1 = 1 := by
    simpa [Matrix.mul_apply, Fin.sum_univ_two] using congrFun₂ hQ 1 1
  intro j hj
  rcases (by omega : j = 0 ∨ j = 1) with rfl | rfl
  · rw [turned_zero, turned_zero, turned_one]
    simp only [transpose_apply]
    linear_combination -(v p 0) * h1 - v p 1 * h2
  · rw [turned_one, turned_zero, turned_one]
    simp only [transpose_apply]
    linear_combination -(v p 1) * h3 - v p 0 * h2

theorem admissible_congr {cons : List (List K)} {u v : ℕ → ℕ → K} (h : ∀ p, ∀ j < 2, u p j = v p j) :
    Admissible cons 2 u ↔ Admissible cons 2 v := by
  unfold Admissible
  refine forall₂_congr fun p j => forall_congr' fun _ => ?_
  constructor
  · intro H hj hf
    rw [← h p j hj]
    exact H hj hf
  · intro H hj hf
    rw [h p j hj]
    exact H hj hf

theorem pick_turned (m : Member K) (n : ℕ) (u : ℕ → ℕ → K) : m.pick n (turned Q u) = (turn n Q).mulVec (m.pick n u) := by
  funext ⟨a, i⟩
  rw [turn_mulVec, Fin.sum_univ_two]
  unfold Member.pick
  fin_cases i <;> rfl

theorem turn_mul (n : ℕ) (P R : Matrix (Fin 2) (Fin 2) K) (u : Fin n × Fin 2 → K) :
    (turn n P).mulVec ((turn n R).mulVec u) = (turn n (P * R)).mulVec u := by
  funext ⟨a, i⟩
  rw [turn_mulVec, turn_mulVec]
  simp only [turn_mulVec, Matrix.mul_apply, Fin.sum_univ_two]
  ring

theorem turn_one' (n : ℕ) (u : Fin n × Fin 2 → K) : (turn n (1 : Matrix (Fin 2) (Fin 2) K)).mulVec u = u := by
  funext ⟨a, i⟩
  rw [turn_mulVec]
  simp [Matrix.one_apply]

theorem turn_form {n : ℕ} (hQ : Q.transpose * Q = 1) (k : Matrix (Fin n × Fin 2) (Fin n × Fin 2) K) (v u : Fin n × Fin 2 → K) :
    (turn n Q).mulVec v ⬝ᵥ (turn n Q * k * (turn n Q).transpose).mulVec ((turn n Q).mulVec u) = v ⬝ᵥ k.mulVec u := by
  rw [← mulVec_mulVec, ← mulVec_mulVec, turn_transpose, turn_mul, hQ, turn_one', ← vecMul_transpose,
    ← dotProduct_mulVec, turn_transpose, turn_mul, hQ, turn_one']

/-- The routine of a plane element or bar at the moved nodes. -/
theorem Structural.placed {n : ℕ} (hs : SqrtFn sq) {f : Uel K} (hf : Structural sq n f) {X : Matrix (Fin n) (Fin 2) K} {params : List K}
    {k m} (h : Returns f X params k m) (hQ : Q.transpose * Q = 1) (hd : Q.det = 1) (t : Fin 2 → K) :
    Returns f (shifted (X * Q.transpose) t) params (turn n Q * k * (turn n Q).transpose) (turn n Q * m * (turn n Q).transpose) := by
  rcases hf with hf | ⟨rfl, rfl⟩
  · exact (C44_plane hf _ t _ _ _).2 (C45_plane_rotation hf h hQ hd)
  · exact C44_truss hs (C45_truss_rotation hs h hQ) t

theorem coord_entry {nodes : Table K} (h3 : ∀ r ∈ nodes, r.length = 3) {p : ℕ} (hp : p < nodes.length) (i : Fin 2) :
    entry nodes p (i + 1) = some (coordOf nodes p i) := by
  have hr := h3 _ (List.getElem_mem hp)
  unfold coordOf fieldOf
  have : entry nodes p (i + 1) = some (nodes[p][(i : ℕ) + 1]'(by omega)) := by
    rw [entry_some]
    exact ⟨_, List.getElem?_eq_getElem hp, List.getElem?_eq_getElem _⟩
  rw [this]
  rfl

theorem member_replaced {el : List ℤ} {m : Member K} (hs : SqrtFn sq) (hp : PlaneModel d) (hr : Replaced Q t d d')
    (hQ : Q.transpose * Q = 1) (hd : Q.det = 1) (hel : el ∈ d.elements) (h : IsMember (Routine sq) d.mats d.nodes el m) :
    ∃ m', IsMember (Routine sq) d'.mats d'.nodes el m' ∧ ∀ V U, m'.form 2 (turned Q V) (turned Q U) = m.form 2 V U := by
  obtain ⟨ty, mi, q, params, n, f, X, k, mm, a1, a2, a3, a4, a5, a6, a7, a8⟩ := member_placed h hp.nodes (hp.types _ hel)
  obtain ⟨_, _, _, _, _, _, _, -, -, -, b5, -, -⟩ := id h
  have hin : ∀ p ∈ m.nodes, p < d.nodes.length := by
    intro p hp
    obtain ⟨i, hi, rfl⟩ := List.mem_iff_getElem.1 hp
    exact (b5.get (i := i) (by rw [b5.length_eq]; exact hi) hi).1
  have hX : ∀ (a : Fin n) (i : Fin 2), X a i = coordOf d.nodes (m.nodes.getD a 0) i := by
    intro a i
    have := a8.coord a i
    unfold coordOf fieldOf
    rw [this]
    rfl
  obtain ⟨m', c1, c2, c3⟩ := member_moved h hr.size hr.width a1 a2 a3 a4 a5 a8 (a6.placed hs a7 hQ hd t) (by
    intro a i
    have ha : (a : ℕ) < m.nodes.length := by rw [a8.size]; exact a.2
    have hp' : m.nodes.getD a 0 < d.nodes.length := by
      rw [List.getD_eq_getElem?_getD, List.getElem?_eq_getElem ha, Option.getD_some]
      exact hin _ (List.getElem_mem ha)
    rw [coord_entry hr.width (by rw [hr.size]; exact hp') i, hr.coord _ hp' i]
    simp only [shifted, Matrix.of_apply, Matrix.mul_apply, Fin.sum_univ_two, transpose_apply, hX]
    congr 1
    simp only [Fin.val_zero, Fin.val_one]
    ring)
  refine ⟨m', by rw [hr.mats]; exact c1, fun V U => ?_⟩
  rw [c3.form, a8.form, pick_turned, pick_turned, turn_form hQ]
  unfold Member.pick
  rw [c2]

theorem members_replaced (hs : SqrtFn sq) (hp : PlaneModel d) (hr : Replaced Q t d d') (hQ : Q.transpose * Q = 1) (hd : Q.det = 1)
    (hms : Members sq d ms) : ∃ ms', Members sq d' ms' ∧
      ∀ V U, (ms'.map fun m => m.form 2 (turned Q V) (turned Q U)).sum = (ms.map fun m => m.form 2 V U).sum := by
  unfold Members at *
  rw [hr.elements]
  have key : ∀ els : List (List ℤ), (∀ el ∈ els, el ∈ d.elements) → ∀ ms,
      List.Forall₂ (IsMember (Routine sq) d.mats d.nodes) els ms → ∃ ms',
      List.Forall₂ (IsMember (Routine sq) d'.mats d'.nodes) els ms' ∧
      ∀ V U, (ms'.map fun m => m.form 2 (turned Q V) (turned Q U)).sum = (ms.map fun m => m.form 2 V U).sum := by
    intro els hels ms h
    induction h with
    | nil => exact ⟨[], .nil, fun _ _ => rfl⟩
    | cons h _ ih =>
      obtain ⟨ms', h1, h2⟩ := ih fun el hel => hels el (List.mem_cons_of_mem _ hel)
      obtain ⟨m', c1, c2⟩ := member_replaced hs hp hr hQ hd (hels _ List.mem_cons_self) h
      refine ⟨m' :: ms', .cons c1 h1, fun V U => ?_⟩
      rw [List.map_cons, List.map_cons, List.sum_cons, List.sum_cons, h2, c2]
  exact key _ (fun _ h => h) _ hms

theorem names_turnLoad (n : ℕ) (L : List K) (p : ℕ) : Names n (turnLoad Q L) p ↔ Names n L p := by
  unfold Names turnLoad
  split <;> rfl

theorem Spec.Replaced.load (hr : Replaced Q t d d') {F : ℕ → ℕ → K} (hF : LoadField d F) : LoadField d' (turned Q F) := by
  have key : ∀ loads : List (List K), (∀ L ∈ loads, L.length = 3) → ∀ p (x : ℕ → K), (∀ j < 2, IsLoad d.nodes.length loads p j (x j)) →
      ∀ j < 2, IsLoad d.nodes.length (loads.map (turnLoad Q)) p j (turned Q (fun _ => x) p j) := by
    intro loads hw p x hx j hj
    rcases hx 0 (by omega) with ⟨h0, e0⟩ | ⟨pre, L, post, e, h1, h2, h3⟩
    · have e1 : x 1 = 0 := by
        rcases hx 1 (by omega) with ⟨_, e1⟩ | ⟨pre, L, post, e, h1, -⟩
        · exact e1
        · exact absurd h1 (h0 L (by rw [e]; simp))
      refine .inl ⟨fun L hL => ?_, ?_⟩
      · obtain ⟨L', hL', rfl⟩ := List.mem_map.1 hL
        rw [names_turnLoad]
        exact h0 L' hL'
      · unfold turned
        rw [dif_pos hj]
        dsimp only
        rw [e0, e1]
        ring
    · have h4 : L[2]? = some (x 1) := by
        rcases hx 1 (by omega) with ⟨h0, _⟩ | ⟨pre', L', post', e', h1', h2', h3'⟩
        · exact absurd h1 (h0 L (by rw [e]; simp))
        · have hLL : L = L' := by
            rw [e] at e'
            rcases List.append_eq_append_iff.1 e' with ⟨as, h5, h6⟩ | ⟨bs, h5, h6⟩
            · cases as with
              | nil => simpa using (List.cons_eq_cons.1 h6).1
              | cons a as =>
                rw [List.cons_append, List.cons_eq_cons] at h6
                exact absurd h1' (h2 L' (by rw [h6.2]; simp))
            · cases bs with
              | nil => simpa using (List.cons_eq_cons.1 h6).1.symm
              | cons b bs =>
                rw [List.cons_append, List.cons_eq_cons] at h6
                exact absurd h1 (h2' L (by rw [h6.2]; simp))
          rw [hLL]
          exact h3'
      refine .inr ⟨pre.map (turnLoad Q), turnLoad Q L, post.map (turnLoad Q), by rw [e]; simp, (names_turnLoad _ _ _).2 h1, ?_, ?_⟩
      · intro L' hL'
        obtain ⟨L'', hL'', rfl⟩ := List.mem_map.1 hL'
        rw [names_turnLoad]
        exact h2 _ hL''
      · have hl := hw L (by rw [e]; simp)
        match L, hl with
        | [q, fx, fy], _ =>
          simp at h3 h4
          subst h3 h4
          rcases (by omega : j = 0 ∨ j = 1) with rfl | rfl <;> rfl
  intro p j hp hj
  rw [hr.loads, hr.size]
  rw [hr.size] at hp
  exact key d.loads hr.rows p (F p) (fun j hj => hF p j hp hj) j hj

theorem Spec.Replaced.carries (hs : SqrtFn sq) (hp : PlaneModel d) (hr : Replaced Q t d d') (hQ : Q.transpose * Q = 1)
    (hd : Q.det = 1) (hms : Members sq d ms) (hms' : Members sq d' ms') : Carries (turned Q) 1 d d' ms ms' where
  size := hr.size
  adm V hV := (hr.supports V).1 hV
  onto V' hV' := by
    have hb : ∀ p, ∀ j < 2, V' p j = turned Q (turned Q.transpose V') p j := fun p =>
      turned_back (mul_eq_one_comm.1 hQ) V' p
    exact ⟨turned Q.transpose V', (hr.supports _).2 ((admissible_congr hb).1 hV'), fun p _ => hb p⟩
  zero V hV p hp j hj := by
    unfold turned
    rw [dif_pos hj, hV p hp 0 (by omega), hV p hp 1 (by omega)]
    ring
  form V U := by
    obtain ⟨ms'', h1, h2⟩ := members_replaced hs hp hr hQ hd hms
    obtain rfl := members_unique hms' h1
    rw [h2, one_mul]

/-- All elements are accepted in the new place. -/
theorem C109_accepted (hs : SqrtFn sq) (hp : PlaneModel d) (hr : Replaced Q t d d') (hQ : Q.transpose * Q = 1) (hd : Q.det = 1)
    (hms : Members sq d ms) : ∃ ms', Members sq d' ms' := by
  obtain ⟨ms', h, -⟩ := members_replaced hs hp hr hQ hd hms
  exact ⟨ms', h⟩

/-- The supports hold the model in the new place if they hold it in the old one. -/
theorem C109_stable (hs : SqrtFn sq) (hp : PlaneModel d) (hr : Replaced Q t d d') (hQ : Q.transpose * Q = 1) (hd : Q.det = 1)
    (hwf : WellFormed d) (hwf' : WellFormed d') (hms : Members sq d ms) (hms' : Members sq d' ms') (hst : Stable d.cons 2 ms) :
    Stable d'.cons 2 ms' :=
  (hr.carries hs hp hQ hd hms hms').stable one_ne_zero hwf hwf' hms hms' hst

theorem isLoad_exists {n : ℕ} {loads : List (List K)} {p j : ℕ} (hj : j < 2) (hw : ∀ L ∈ loads, L.length = 3) :
    ∃ x, IsLoad n loads p j x := by
  classical
  induction loads using List.reverseRecOn with
  | nil => exact ⟨0, .inl ⟨fun L hL => by simp at hL, rfl⟩⟩
  | append_singleton l L ih =>
    by_cases hL : Names n L p
    · have h3 := hw L (by simp)
      exact ⟨L[j + 1]'(by omega), .inr ⟨l, L, [], rfl, hL, fun _ h => by simp at h, List.getElem?_eq_getElem _⟩⟩
    · obtain ⟨x, hx⟩ := ih fun L hL => hw L (by simp [hL])
      refine ⟨x, ?_⟩
      rcases hx with ⟨h0, e⟩ | ⟨pre, L', post, e, h1, h2, h3⟩
      · refine .inl ⟨fun L' hL' => ?_, e⟩
        rcases List.mem_append.1 hL' with h | h
        · exact h0 L' h
        · rw [List.mem_singleton.1 h]
          exact hL
      · refine .inr ⟨pre, L', post ++ [L], by rw [e]; simp, h1, fun L'' hL'' => ?_, h3⟩
        rcases List.mem_append.1 hL'' with h | h
        · exact h2 L'' h
        · rw [List.mem_singleton.1 h]
          exact hL

/-- The displacements are the old ones, turned. -/
theorem C109_displacements (hs : SqrtFn sq) (hp : PlaneModel d) (hr : Replaced Q t d d') (hQ : Q.transpose * Q = 1) (hd : Q.det = 1)
    (hwf : WellFormed d) (hwf' : WellFormed d') (hsp : SolverOk sp) (hms : Members sq d ms) (hst : Stable d.cons 2 ms)
    {plot plot' : Bool} {res res' : Gui.Result K} (h : Gui.solidsAuto sq sp de d plot = .ok res)
    (h' : Gui.solidsAuto sq sp de d' plot' = .ok res') {p : ℕ} (hpn : p < d.nodes.length) (i : Fin 2) :
    ∃ x y, entry res.disp p 0 = some x ∧ entry res.disp p 1 = some y ∧ entry res'.disp p i = some (Q i 0 * x + Q i 1 * y) := by
  obtain ⟨ms', hms'⟩ := C109_accepted hs hp hr hQ hd hms
  obtain ⟨F, hF⟩ : ∃ F, LoadField d F := by
    choose F hF using fun p : ℕ => fun j : ℕ => isLoad_exists (n := d.nodes.length) (p := p) (j := j) (loads := d.loads)
    exact ⟨fun p j => if h : j < 2 then F p j h hr.rows else 0, fun p j _ hj => by
      dsimp only
      rw [dif_pos hj]
      exact hF p j hj hr.rows⟩
  have hc := hr.carries hs hp hQ hd hms hms'
  have := hc.disp one_ne_zero hwf hwf' hms hms' hsp hst hF (hr.load hF) (fun V _ => by
    rw [one_mul]
    exact Finset.sum_congr rfl fun p _ => turned_dot hQ V F p) h h' p hpn i i.2
  obtain ⟨⟨hl, hw⟩, -⟩ := C18_nodal_equilibrium hwf hsp hms hst h
  have he : ∀ j < 2, entry res.disp p j = some (fieldOf res.disp p j) := by
    intro j hj
    have hp' : p < res.disp.length := by rw [hl]; exact hpn
    have hr := hw _ (List.getElem_mem hp')
    have : entry res.disp p j = some (res.disp[p][j]'(by omega)) := by
      rw [entry_some]
      exact ⟨_, List.getElem?_eq_getElem hp', List.getElem?_eq_getElem _⟩
    unfold fieldOf
    rw [this]
    rfl
  refine ⟨_, _, he 0 (by omega), he 1 (by omega), ?_⟩
  rw [this]
  unfold turned
  rw [dif_pos i.2]

theorem disp_eq {t t' : Table K} {n : ℕ} (hl : t.length = n) (hw : ∀ r ∈ t, r.length = 2) (hl' : t'.length = n)
    (hw' : ∀ r ∈ t', r.length = 2) (h : ∀ p < n, ∀ j < 2, entry t p j = entry t' p j) : t = t' := by
  apply List.ext_getElem (by omega)
  intro p hp hp'
  have e1 := hw _ (List.getElem_mem hp)
  have e2 := hw' _ (List.getElem_mem hp')
  apply List.ext_getElem (by omega)
  intro j hj hj'
  have := h p (by omega) j (by omega)
  unfold entry at this
  rw [List.getElem?_eq_getElem hp, List.getElem?_eq_getElem hp'] at this
  simpa [List.getElem?_eq_getElem hj, List.getElem?_eq_getElem hj'] using this

/-- A run on the model in its new place returns. -/
theorem C109_returns (hs : SqrtFn sq) (hp : PlaneModel d) (hr : Replaced Q t d d') (hQ : Q.transpose * Q = 1) (hd : Q.det = 1)
    (hwf : WellFormed d) (hwf' : WellFormed d') (hsp : SolverOk sp) (hms : Members sq d ms) (hst : Stable d.cons 2 ms)
    (hfree : ∃ p j, Free d.cons 2 p j) (hl : ∀ L ∈ d.loads, ∃ p, Names d.nodes.length L p) :
    ∃ res, Gui.solidsAuto sq sp de d' false = .ok res := by
  obtain ⟨ms', hms'⟩ := C109_accepted hs hp hr hQ hd hms
  refine C93_solids_auto_returns ⟨hr.width, by rw [hr.elements]; exact hp.types⟩ hwf' hsp hms'
    (C109_stable hs hp hr hQ hd hwf hwf' hms hms' hst) ?_ ?_
  · by_contra hno
    push Not at hno
    obtain ⟨p, j, hf⟩ := hfree
    let u : ℕ → ℕ → K := fun p' j' => if p' = p ∧ j' = j then 1 else 0
    have hu : Admissible d.cons 2 u := by
      intro p' j' _ _ hnf
      dsimp only [u]
      rw [if_neg]
      rintro ⟨rfl, rfl⟩
      exact hnf hf
    have hv := (hr.supports u).1 hu
    have hpn : p < d'.cons.length := by
      have := free_lt hf
      rw [hwf'.size, hr.size, ← hwf.size]
      exact this
    have h0 := hv p 0 hpn (by omega) (hno p 0)
    have h1 := hv p 1 hpn (by omega) (hno p 1)
    have := turned_dot hQ u u p
    rw [Finset.sum_range_succ, Finset.sum_range_one, Finset.sum_range_succ, Finset.sum_range_one, h0, h1] at this
    have hj := hf.1
    rcases (by omega : j = 0 ∨ j = 1) with rfl | rfl <;> simp [u] at this
  · intro L hL
    rw [hr.loads] at hL
    obtain ⟨L', hL', rfl⟩ := List.mem_map.1 hL
    obtain ⟨p, hp⟩ := hl L' hL'
    refine ⟨?_, p, by rw [hr.size, names_turnLoad]; exact hp⟩
    have := hr.rows L' hL'
    match L', this with
    | [_, _, _], _ => simp [turnLoad]

/-- Shifted without turning, the model gives the same table of displacements. -/
theorem C109_shifted (hs : SqrtFn sq) (hp : PlaneModel d) (hr : Replaced 1 t d d') (hwf : WellFormed d) (hwf' : WellFormed d')
    (hsp : SolverOk sp) (hms : Members sq d ms) (hst : Stable d.cons 2 ms)
    {plot plot' : Bool} {res res' : Gui.Result K} (h : Gui.solidsAuto sq sp de d plot = .ok res)
    (h' : Gui.solidsAuto sq sp de d' plot' = .ok res') : res'.disp = res.disp := by
  have hQ : (1 : Matrix (Fin 2) (Fin 2) K).transpose * 1 = 1 := by simp
  have hd : (1 : Matrix (Fin 2) (Fin 2) K).det = 1 := by simp
  obtain ⟨ms', hms'⟩ := C109_accepted hs hp hr hQ hd hms
  obtain ⟨⟨hl, hw⟩, -⟩ := C18_nodal_equilibrium hwf hsp hms hst h
  obtain ⟨⟨hl', hw'⟩, -⟩ := C18_nodal_equilibrium hwf' hsp hms' (C109_stable hs hp hr hQ hd hwf hwf' hms hms' hst) h'
  refine disp_eq hl' hw' (by rw [hl, hr.size]) hw fun p hpn j hj => ?_
  rw [hr.size] at hpn
  obtain ⟨x, y, e1, e2, e3⟩ := C109_displacements hs hp hr hQ hd hwf hwf' hsp hms hst h h' hpn ⟨j, hj⟩
  rcases (by omega : j = 0 ∨ j = 1) with rfl | rfl
  · rw [e1, e3]
    simp [Matrix.one_apply]
  · rw [e2, e3]
    simp [Matrix.one_apply]

/-! ## When supports turn with the model -/

/-- Without turning, the same constraints will do. -/
theorem supports_one (cons : Table K) (u : ℕ → ℕ → K) : Admissible cons 2 u ↔ Admissible cons 2 (turned 1 u) := by
  refine admissible_congr fun p j hj => ?_
  rcases (by omega : j = 0 ∨ j = 1) with rfl | rfl
  · simp [turned_zero]
  · simp [turned_one]

/-- Where every node is free or held in both directions, the same constraints will do for any turn. -/
theorem supports_pinned {cons : Table K} (hQ : Q.transpose * Q = 1)
    (h : ∀ p < cons.length, Free cons 2 p 0 ↔ Free cons 2 p 1) (u : ℕ → ℕ → K) :
    Admissible cons 2 u ↔ Admissible cons 2 (turned Q u) := by
  have hz : ∀ p, (u p 0 = 0 ∧ u p 1 = 0) ↔ (turned Q u p 0 = 0 ∧ turned Q u p 1 = 0) := by
    intro p
    constructor
    · rintro ⟨h0, h1⟩
      simp [turned_zero, turned_one, h0, h1]
    · rintro ⟨h0, h1⟩
      have := turned_dot hQ u u p
      simp only [Finset.sum_range_succ, Finset.sum_range_zero, zero_add, h0, h1, mul_zero] at this
      constructor <;> nlinarith [mul_self_nonneg (u p 0), mul_self_nonneg (u p 1)]
  have hp : ∀ v : ℕ → ℕ → K, Admissible cons 2 v ↔ ∀ p < cons.length, ¬ Free cons 2 p 0 → v p 0 = 0 ∧ v p 1 = 0 := by
    intro v
    constructor
    · intro H p hp hf
      exact ⟨H p 0 hp (by omega) hf, H p 1 hp (by omega) (by rw [← h p hp]; exact hf)⟩
    · intro H p j hp hj hf
      rcases (by omega : j = 0 ∨ j = 1) with rfl | rfl
      · exact (H p hp hf).1
      · exact (H p hp (by rw [h p hp]; exact hf)).2
  rw [hp, hp]
  exact forall₂_congr fun p _ => forall_congr' fun _ => hz p

/-- The quarter turn. -/
def quarter : Matrix (Fin 2) (Fin 2) K := !![0, -1; 1, 0]

/-- For a quarter turn the two constraint codes of each node change places. -/
theorem supports_quarter {cons cons' : Table K} (hl : cons'.length = cons.length)
    (h : ∀ p < cons.length, (Free cons' 2 p 0 ↔ Free cons 2 p 1) ∧ (Free cons' 2 p 1 ↔ Free cons 2 p 0)) (u : ℕ → ℕ → K) :
    Admissible cons 2 u ↔ Admissible cons' 2 (turned quarter u) := by
  have h0 : ∀ p, turned quarter u p 0 = - u p 1 := fun p => by simp [turned_zero, quarter]
  have h1 : ∀ p, turned quarter u p 1 = u p 0 := fun p => by simp [turned_one, quarter]
  constructor
  · intro H p j hp hj hf
    rw [hl] at hp
    rcases (by omega : j = 0 ∨ j = 1) with rfl | rfl
    · rw [h0, H p 1 hp (by omega) (by rw [← (h p hp).1]; exact hf), neg_zero]
    · rw [h1, H p 0 hp (by omega) (by rw [← (h p hp).2]; exact hf)]
  · intro H p j hp hj hf
    rcases (by omega : j = 0 ∨ j = 1) with rfl | rfl
    · rw [← h1]
      exact H p 1 (by omega) (by omega) (by rw [(h p hp).2]; exact hf)
    · rw [← neg_eq_zero, ← h0]
      exact H p 0 (by omega) (by omega) (by rw [(h p hp).1]; exact hf)

end

/-! ## A truss in another place -/

/-- Rotation with cosine 3/5 and sine 4/5. -/
noncomputable def slant : Matrix (Fin 2) (Fin 2) ℝ := !![3/5, -(4/5); 4/5, 3/5]

theorem slant_rot : slant.transpose * slant = 1 ∧ slant.det = 1 := by
  constructor
  · ext i j
    fin_cases i <;> fin_cases j <;> simp [slant, Matrix.mul_apply, Fin.sum_univ_two] <;> norm_num
  · simp [slant, Matrix.det_fin_two]
    norm_num

/-- The truss `trussR`, slanted and moved. -/
noncomputable def trussSlant : Gui.Data ℝ where
  nodes := (trussR.nodes.mapIdx fun p r => [r.getD 0 0, 3/5 * coordOf trussR.nodes p 0 - 4/5 * coordOf trussR.nodes p 1 + 7,
    4/5 * coordOf trussR.nodes p 0 + 3/5 * coordOf trussR.nodes p 1 - 2])
  cons := trussR.cons
  mats := trussR.mats
  elements := trussR.elements
  loads := trussR.loads.map (turnLoad slant)

theorem trussSlant_replaced : Replaced slant ![7, -2] trussR trussSlant where
  elements := rfl
  mats := rfl
  size := by simp [trussSlant]
  width r hr := by
    obtain ⟨i, hi, rfl⟩ := List.mem_mapIdx.1 hr
    rfl
  coord p hp i := by
    unfold coordOf fieldOf
    have : entry trussSlant.nodes p (i + 1) = some (slant i 0 * coordOf trussR.nodes p 0 + slant i 1 * coordOf trussR.nodes p 1 +
        (![7, -2] : Fin 2 → ℝ) i) := by
      rw [entry_some]
      refine ⟨_, by rw [trussSlant, List.getElem?_mapIdx, List.getElem?_eq_getElem hp]; rfl, ?_⟩
      fin_cases i <;> simp [slant] <;> ring
    rw [this]
    rfl
  rows := by simp [trussR]
  loads := rfl
  supports := supports_pinned slant_rot.1 (by
    intro p hp
    simp only [trussR, List.length_cons, List.length_nil] at hp
    unfold Free entry
    rcases (by omega : p = 0 ∨ p = 1 ∨ p = 2) with rfl | rfl | rfl <;> simp [trussR])

example : ∃ res res', Gui.solidsAuto Real.sqrt cramerR cramerR trussR false = .ok res ∧
    Gui.solidsAuto Real.sqrt cramerR cramerR trussSlant false = .ok res' ∧
    ∃ x y, entry res.disp 2 0 = some x ∧ entry res.disp 2 1 = some y ∧
      entry res'.disp 2 0 = some (3/5 * x + -(4/5) * y) ∧ entry res'.disp 2 1 = some (4/5 * x + 3/5 * y) := by
  obtain ⟨ms, hms⟩ := truss_members sqrtFn_real trussR_bars
  have hst := trussR_stable hms
  have hwf' : WellFormed trussSlant := ⟨trussR_wf.codes, trussR_wf.width, by simp [trussSlant, trussR]⟩
  have hl : ∀ L ∈ trussR.loads, ∃ p, Names trussR.nodes.length L p := by
    intro L hL
    simp only [trussR, List.mem_singleton] at hL
    subst hL
    exact ⟨2, (names_nat (by decide) rfl).2 rfl⟩
  obtain ⟨res, h⟩ := C93_solids_auto_returns (de := cramerR) trussR_plane trussR_wf cramerR_ok hms hst ⟨2, 0, trussR_free 0 (by omega)⟩
    fun L hL => ⟨(trussSlant_replaced.rows L hL).ge, hl L hL⟩
  obtain ⟨res', h'⟩ := C109_returns (de := cramerR) sqrtFn_real trussR_plane trussSlant_replaced slant_rot.1 slant_rot.2 trussR_wf hwf'
    cramerR_ok hms hst ⟨2, 0, trussR_free 0 (by omega)⟩ hl
  refine ⟨res, res', h, h', ?_⟩
  obtain ⟨x, y, e1, e2, e3⟩ := C109_displacements sqrtFn_real trussR_plane trussSlant_replaced slant_rot.1 slant_rot.2 trussR_wf hwf'
    cramerR_ok hms hst h h' (p := 2) (by simp [trussR]) 0
  obtain ⟨x', y', e1', e2', e3'⟩ := C109_displacements sqrtFn_real trussR_plane trussSlant_replaced slant_rot.1 slant_rot.2 trussR_wf hwf'
    cramerR_ok hms hst h h' (p := 2) (by simp [trussR]) 1
  rw [e1, Option.some.injEq] at e1'
  rw [e2, Option.some.injEq] at e2'
  subst e1' e2'
  exact ⟨x, y, e1, e2, by simpa [slant] using e3, by simpa [slant] using e3'⟩

end SolidsPy
