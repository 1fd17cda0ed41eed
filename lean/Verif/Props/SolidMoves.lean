import Verif.Props.SolidOrder
import Verif.Props.SolidPatch
import Verif.Props.SolidBodies

/-! # C154: solid bodies turned, mirrored, shifted and enlarged, with the corners of their elements in another order -/

set_option linter.unusedSectionVars false
set_option linter.unusedSimpArgs false

namespace SolidsPy
open Spec Fem Uel Gauss Assem Matrix Equiv

section
variable {K : Type} [Field K] [LinearOrder K] [IsStrictOrderedRing K] [FloorRing K] {n m : ℕ}
variable {f : Uel K} {tab : ℤ → Py (Uel K)} {cons cons' mats nodes nodes' loads loads' : Table K} {elements elements' : List (List ℤ)}
  {ms ms' : List (Member K)} {count : ℤ → Py ℕ}
variable {ε : ℤˣ} {s : K} {Q : Matrix (Fin 3) (Fin 3) K} {t : Fin 3 → K}

/-- The nodal field `u` in space with every nodal vector multiplied by `Q`. -/
def Spec.turned3 (Q : Matrix (Fin 3) (Fin 3) K) (u : ℕ → ℕ → K) (p i : ℕ) : K :=
  if h : i < 3 then ∑ j : Fin 3, Q ⟨i, h⟩ j * u p j else 0

/-- The element with the same material and the same corners, listed in another order. -/
def Spec.SameCorners (n : ℕ) (ε : ℤˣ) (el el' : List ℤ) : Prop :=
  el'[2]? = el[2]? ∧ (el'.drop 3).length = n ∧ ∃ σ : Perm (Fin n), Reorders n ε σ ∧ ∀ a : Fin n, (el'.drop 3)[(a : ℕ)]? = (el.drop 3)[(σ a : ℕ)]?

/-- The body enlarged `s` times, turned or mirrored by `Q` and shifted by `t`: nodes, supports and loads; its elements have the same
materials and corners, the latter in other orders, all of which exchange right and left if `ε = -1`. -/
structure Spec.SolidMoved (n : ℕ) (ε : ℤˣ) (s : K) (Q : Matrix (Fin 3) (Fin 3) K) (t : Fin 3 → K) (cons cons' nodes nodes' loads loads' : Table K)
    (elements elements' : List (List ℤ)) : Prop where
  size : nodes'.length = nodes.length
  width : ∀ r ∈ nodes', r.length = 4
  coord : ∀ p < nodes.length, ∀ i : Fin 3, coordOf nodes' p i = s * (∑ j : Fin 3, Q i j * coordOf nodes p j) + t i
  elements : List.Forall₂ (SameCorners n ε) elements elements'
  supports : ∀ u, Admissible cons 3 u ↔ Admissible cons' 3 (turned3 Q u)
  rows : ∀ L ∈ loads, 4 ≤ L.length
  loads : ∀ p < nodes.length, ∀ F : Fin 3 → K, (∀ j : Fin 3, IsLoad nodes.length loads p j (F j)) →
    ∀ i : Fin 3, IsLoad nodes.length loads' p i (∑ j, Q i j * F j)

theorem turned3_fin (u : ℕ → ℕ → K) (p : ℕ) (i : Fin 3) : turned3 Q u p i = ∑ j : Fin 3, Q i j * u p j := by
  unfold turned3
  rw [dif_pos i.2]

theorem turned3_turned3 (A B : Matrix (Fin 3) (Fin 3) K) (u : ℕ → ℕ → K) : turned3 A (turned3 B u) = turned3 (A * B) u := by
  funext p i
  unfold turned3
  split
  · simp only [Fin.is_lt, dif_pos, Fin.eta, Matrix.mul_apply, Fin.sum_univ_three]
    simp [turned3]
    ring
  · rfl

theorem turned3_one (u : ℕ → ℕ → K) (p : ℕ) {i : ℕ} (hi : i < 3) : turned3 (1 : Matrix (Fin 3) (Fin 3) K) u p i = u p i := by
  unfold turned3
  rw [dif_pos hi]
  simp [Matrix.one_apply]

/-- Magnifying an accepted solid element keeps it accepted. -/
theorem solid_magnify (hf : SolidElement n f) {X : Matrix (Fin n) (Fin 3) K} {params : List K} {k mm} (hs : 1 ≤ s)
    (h : Returns f X params k mm) : Returns f (s • X) params (s • k) (s ^ 3 • mm) := by
  obtain ⟨R, hR⟩ := solid_rule hf
  obtain ⟨hg, hr⟩ := returns_solid hR
  obtain ⟨C, ρ, hm, ha, rfl, rfl⟩ := (hr _ _ _ _).1 h
  refine (hr _ _ _ _).2 ⟨C, ρ, hm, ?_, (stiff_scaled3 (by linarith) ha).symm, mass_scaled.symm⟩
  intro x hx
  rw [jdet_scaled]
  have h1 := ha x hx
  have h2 : (1 : K) ≤ s ^ 3 := one_le_pow₀ hs
  have h3 := tol_pos.trans h1
  nlinarith

theorem turn_mul3 (P R : Matrix (Fin 3) (Fin 3) K) (u : Fin n × Fin 3 → K) :
    (turn n P).mulVec ((turn n R).mulVec u) = (turn n (P * R)).mulVec u := by
  funext ⟨a, i⟩
  rw [turn_mulVec, turn_mulVec]
  simp only [turn_mulVec, Matrix.mul_apply, Fin.sum_univ_three]
  ring

theorem turn_one3 (u : Fin n × Fin 3 → K) : (turn n (1 : Matrix (Fin 3) (Fin 3) K)).mulVec u = u := by
  funext ⟨a, i⟩
  rw [turn_mulVec]
  simp [Matrix.one_apply]

theorem coord_entry3 {nodes : Table K} (h3 : ∀ r ∈ nodes, r.length = 4) {p : ℕ} (hp : p < nodes.length) (i : Fin 3) :
    entry nodes p (i + 1) = some (coordOf nodes p i) := by
  have hr := h3 _ (List.getElem_mem hp)
  unfold coordOf fieldOf
  have : entry nodes p (i + 1) = some (nodes[p][(i : ℕ) + 1]'(by omega)) := by
    rw [entry_some]
    exact ⟨_, List.getElem?_eq_getElem hp, List.getElem?_eq_getElem _⟩
  rw [this]
  rfl

/-- A list of corners in another order. -/
theorem reordered_resolves {N : ℕ} {σ : Perm (Fin n)} {g g' : List ℤ} {ps : List ℕ} (h : List.Forall₂ (Resolves N) g ps)
    (hn : ps.length = n) (hl : g'.length = n) (hg : ∀ a : Fin n, g'[(a : ℕ)]? = g[(σ a : ℕ)]?) :
    List.Forall₂ (Resolves N) g' (List.ofFn fun a : Fin n => ps.getD (σ a) 0) := by
  rw [List.forall₂_iff_get]
  refine ⟨by simp [hl], fun i h1 h2 => ?_⟩
  have hi : i < n := by omega
  have ha := hg ⟨i, hi⟩
  have hs : ((σ ⟨i, hi⟩ : Fin n) : ℕ) < ps.length := by rw [hn]; exact (σ ⟨i, hi⟩).2
  have hs' : ((σ ⟨i, hi⟩ : Fin n) : ℕ) < g.length := by rw [h.length_eq]; exact hs
  have := h.get (i := (σ ⟨i, hi⟩ : Fin n)) hs' hs
  simp only [List.get_eq_getElem] at this ⊢
  rw [List.getElem?_eq_getElem h1, List.getElem?_eq_getElem hs', Option.some.injEq] at ha
  rw [ha]
  simpa [List.getElem?_eq_getElem hs] using this

theorem rows_exist {ps : List ℕ} (h : ∀ p ∈ ps, p < nodes'.length) : ∃ rows, List.Forall₂ (fun p row => nodes'[p]? = some row) ps rows := by
  induction ps with
  | nil => exact ⟨[], .nil⟩
  | cons p l ih =>
    obtain ⟨rows, hrows⟩ := ih fun q hq => h q (List.mem_cons_of_mem _ hq)
    exact ⟨_, .cons (List.getElem?_eq_getElem (h p List.mem_cons_self)) hrows⟩

theorem rows_matRows {ps : List ℕ} {rows : Table K} (hw : ∀ r ∈ nodes', r.length = 4) {X : Matrix (Fin n) (Fin 3) K}
    (h : List.Forall₂ (fun p row => nodes'[p]? = some row) ps rows) (hn : ps.length = n)
    (hX : ∀ (a : Fin n) (i : Fin 3), entry nodes' (ps.getD a 0) (i + 1) = some (X a i)) : rows.map (List.drop 1) = matRows X := by
  have hlen : rows.length = n := h.length_eq.symm.trans hn
  apply List.ext_getElem
  · simp [matRows, hlen]
  · intro a ha ha'
    have ha : a < rows.length := by simpa using ha
    have han : a < n := by omega
    have hm : a < ps.length := by omega
    have e1 := h.get (i := a) hm ha
    simp only [List.get_eq_getElem] at e1
    have hw := hw _ (List.mem_of_getElem? e1)
    have c := hX ⟨a, han⟩
    simp only [List.getD_eq_getElem?_getD, List.getElem?_eq_getElem hm, Option.getD_some] at c
    have c' : ∀ i : Fin 3, rows[a][(i : ℕ) + 1]? = some (X ⟨a, han⟩ i) := by
      intro i
      obtain ⟨r, hr, x⟩ := entry_some.1 (c i)
      rw [e1, Option.some.injEq] at hr
      subst hr
      exact x
    simp only [List.getElem_map, matRows, List.getElem_ofFn]
    generalize rows[a] = r at hw c'
    match r, hw with
    | [i, x, y, z], _ =>
      have x0 := c' 0
      have x1 := c' 1
      have x2 := c' 2
      simp at x0 x1 x2
      simp [List.ofFn_succ, x0, x1, x2]

/-- The element in its new place, size and order. -/
theorem member_moved3 (hf : SolidElement n f) {el el' : List ℤ} {mb : Member K} (h : Describes f mats nodes el mb)
    (hsz : nodes'.length = nodes.length) (hw : ∀ r ∈ nodes', r.length = 4)
    (hco : ∀ p < nodes.length, ∀ i : Fin 3, coordOf nodes' p i = s * (∑ j : Fin 3, Q i j * coordOf nodes p j) + t i)
    (hel : SameCorners n ε el el') (hQ : Q.transpose * Q = 1) (hd : Q.det = ((ε : ℤ) : K)) (hs : 0 < s) :
    (1 ≤ s → ∃ mb', Describes f mats nodes' el' mb') ∧ ∀ mb', Describes f mats nodes' el' mb' →
      ∀ V U, mb'.form 3 (turned3 Q V) (turned3 Q U) = s * mb.form 3 V U := by
  obtain ⟨e2, en, σ, hσ, hc⟩ := hel
  obtain ⟨ty, mi, params, rows, f', kl, ml, a1, a2, ⟨q, a3, a4⟩, a5, a6, rfl, a8, a9⟩ := id h
  obtain ⟨mi', q', params', X, k, mm, b1, b2, b3, b4, b5⟩ := member_placed3 hf h
  obtain ⟨Y, _, _, hX, -, -, -⟩ := C38_solid_shape hf a8
  have hin : ∀ p ∈ mb.nodes, p < nodes.length := by
    intro p hp
    obtain ⟨i, hi, rfl⟩ := List.mem_iff_getElem.1 hp
    exact (a5.get (i := i) (by rw [a5.length_eq]; exact hi) hi).1
  have hna : ∀ a : Fin n, mb.nodes.getD a 0 < nodes.length := by
    intro a
    have ha : (a : ℕ) < mb.nodes.length := by rw [b5.size]; exact a.2
    rw [List.getD_eq_getElem?_getD, List.getElem?_eq_getElem ha, Option.getD_some]
    exact hin _ (List.getElem_mem ha)
  have hXc : ∀ (a : Fin n) (i : Fin 3), X a i = coordOf nodes (mb.nodes.getD a 0) i := by
    intro a i
    unfold coordOf fieldOf
    rw [b5.coord a i]
    rfl
  -- the new corners and their coordinates
  have hres : List.Forall₂ (Resolves nodes'.length) (el'.drop 3) (List.ofFn fun a : Fin n => mb.nodes.getD (σ a) 0) := by
    rw [hsz]
    exact reordered_resolves a5 b5.size en hc
  have hps : ∀ a : Fin n, (List.ofFn fun a : Fin n => mb.nodes.getD (σ a) 0).getD a 0 = mb.nodes.getD (σ a) 0 := by
    intro a
    simp [List.getD_eq_getElem?_getD]
  have hent : ∀ (a : Fin n) (i : Fin 3), entry nodes' ((List.ofFn fun a : Fin n => mb.nodes.getD (σ a) 0).getD a 0) (i + 1) =
      some (shifted (s • ((X * Q.transpose).submatrix σ id)) t a i) := by
    intro a i
    rw [hps, coord_entry3 hw (by rw [hsz]; exact hna _), hco _ (hna _)]
    simp only [shifted, Matrix.of_apply, Matrix.smul_apply, Matrix.submatrix_apply, Matrix.mul_apply, Matrix.transpose_apply, id, hXc, smul_eq_mul]
    congr 3
    exact Finset.sum_congr rfl fun j _ => mul_comm _ _
  have hret := C153_reordered hf hσ b4 hQ hd
  have hmi : el'[2]? = some mi' := e2.trans b1
  have hty : ∃ ty', el'[1]? = some ty' := by
    have h3 : 2 < el'.length := (List.getElem?_eq_some_iff.1 hmi).1
    exact ⟨_, List.getElem?_eq_getElem (by omega)⟩
  refine ⟨fun hs1 => ?_, fun mb' h' V U => ?_⟩
  · obtain ⟨A, B, hAB, hA, hB⟩ := (C44_solid hf _ t _ _ _).2 (solid_magnify hf hs1 hret)
    obtain ⟨ty', hty⟩ := hty
    obtain ⟨rows', hr'⟩ := rows_exist (nodes' := nodes') (ps := List.ofFn fun a : Fin n => mb.nodes.getD (σ a) 0) (by
      intro p hp
      obtain ⟨a, rfl⟩ := List.mem_ofFn.1 hp
      rw [hsz]
      exact hna _)
    refine ⟨⟨_, cell A⟩, ty', mi', params', rows', f', A, B, hty, hmi, ⟨q', b2, b3⟩, hres, hr', rfl, ?_, rfl⟩
    rw [rows_matRows hw hr' (by simp) hent]
    exact hAB
  · obtain ⟨mi'', q'', params'', X', k', mm', c1, c2, c3, c4, c5⟩ := member_placed3 hf h'
    obtain ⟨_, _, _, _, _, _, _, -, -, -, d5, -, -, -, -⟩ := id h'
    have hnodes : mb'.nodes = List.ofFn fun a : Fin n => mb.nodes.getD (σ a) 0 := by
      apply List.ext_getElem
      · rw [c5.size]; simp
      · intro i h1 h2
        have g1 : i < (el'.drop 3).length := by rw [d5.length_eq]; exact h1
        exact resolves_unique (d5.get (i := i) g1 h1) (hres.get (i := i) g1 h2)
    rw [c1, Option.some.injEq] at hmi
    subst hmi
    obtain rfl := resolves_unique c2 b2
    rw [c3, Option.some.injEq] at b3
    subst b3
    have hX' : X' = shifted (s • ((X * Q.transpose).submatrix σ id)) t := by
      ext a i
      have := c5.coord a i
      rw [hnodes, hent, Option.some.injEq] at this
      exact this.symm
    rw [hX', C44_solid hf] at c4
    obtain ⟨hk, -⟩ := C46_solid_size hf hs.ne' hret c4
    rw [c5.form, b5.form, hk]
    have hp : ∀ V, mb'.pick3 n (turned3 Q V) = (turn n Q).mulVec (mb.pick3 n V) ∘ relabel σ := by
      intro V
      funext ⟨a, i⟩
      simp only [Function.comp_apply, relabel, Equiv.prodCongr_apply, Prod.map_apply, Equiv.refl_apply]
      rw [turn_mulVec]
      unfold Member.pick3
      dsimp only
      rw [turned3_fin, hnodes, hps]
    rw [hp, hp, Matrix.smul_mulVec, dotProduct_smul, smul_eq_mul, form_reorder]
    congr 1
    have hcomp : ∀ w : Fin n × Fin 3 → K, (w ∘ relabel σ) ∘ (relabel σ).symm = w := by
      intro w
      funext x
      simp
    rw [hcomp, hcomp, conj_form, turn_transpose, turn_mul3, turn_mul3, hQ, turn_one3, turn_one3]

theorem bodies_moved3 (hf : SolidElement n f) (hms : List.Forall₂ (Describes f mats nodes) elements ms)
    (hr : SolidMoved n ε s Q t cons cons' nodes nodes' loads loads' elements elements') (hQ : Q.transpose * Q = 1)
    (hd : Q.det = ((ε : ℤ) : K)) (hs : 0 < s) :
    (1 ≤ s → ∃ ms', List.Forall₂ (Describes f mats nodes') elements' ms') ∧
      ∀ ms', List.Forall₂ (Describes f mats nodes') elements' ms' → ∀ V U,
        (ms'.map fun mb => mb.form 3 (turned3 Q V) (turned3 Q U)).sum = s * (ms.map fun mb => mb.form 3 V U).sum := by
  have key : ∀ els els' ms, List.Forall₂ (SameCorners n ε) els els' → List.Forall₂ (Describes f mats nodes) els ms →
      (1 ≤ s → ∃ ms', List.Forall₂ (Describes f mats nodes') els' ms') ∧
      ∀ ms', List.Forall₂ (Describes f mats nodes') els' ms' → ∀ V U,
        (ms'.map fun mb => mb.form 3 (turned3 Q V) (turned3 Q U)).sum = s * (ms.map fun mb => mb.form 3 V U).sum := by
    intro els els' ms h1
    induction h1 generalizing ms with
    | nil =>
      intro h2
      cases h2
      exact ⟨fun _ => ⟨[], .nil⟩, fun ms' h V U => by cases h; simp⟩
    | cons h1 _ ih =>
      intro h2
      cases h2 with
      | cons a b =>
        obtain ⟨i1, i2⟩ := ih _ b
        obtain ⟨j1, j2⟩ := member_moved3 hf a hr.size hr.width hr.coord h1 hQ hd hs
        refine ⟨fun hs1 => ?_, fun ms' h V U => ?_⟩
        · obtain ⟨ms', h⟩ := i1 hs1
          obtain ⟨mb', h'⟩ := j1 hs1
          exact ⟨_, .cons h' h⟩
        · cases h with
          | cons a' b' =>
            rw [List.map_cons, List.map_cons, List.sum_cons, List.sum_cons, i2 _ b', j2 _ a', mul_add]
  exact key _ _ _ hr.elements hms

/-- C154.  A body enlarged, turned, mirrored and shifted is accepted. -/
theorem C154_accepted (hf : SolidElement n f) (hms : List.Forall₂ (Describes f mats nodes) elements ms)
    (hr : SolidMoved n ε s Q t cons cons' nodes nodes' loads loads' elements elements') (hQ : Q.transpose * Q = 1)
    (hd : Q.det = ((ε : ℤ) : K)) (hs : 1 ≤ s) : ∃ ms', List.Forall₂ (Describes f mats nodes') elements' ms' :=
  (bodies_moved3 hf hms hr hQ hd (by linarith)).1 hs

/-- C154.  The internal forces in the turned field are `s` times the old ones, turned. -/
theorem C154_forces (hf : SolidElement n f) (hms : List.Forall₂ (Describes f mats nodes) elements ms)
    (hms' : List.Forall₂ (Describes f mats nodes') elements' ms')
    (hr : SolidMoved n ε s Q t cons cons' nodes nodes' loads loads' elements elements') (hQ : Q.transpose * Q = 1)
    (hd : Q.det = ((ε : ℤ) : K)) (hs : 0 < s) (U : ℕ → ℕ → K) {p : ℕ} (hp : p < nodes.length) (i : Fin 3) :
    internal 3 ms' (turned3 Q U) p i = s * ∑ j : Fin 3, Q i j * internal 3 ms U p j := by
  have hform := (bodies_moved3 hf hms hr hQ hd hs).2 _ hms'
  have hQ' : Q * Q.transpose = 1 := mul_eq_one_comm.1 hQ
  have hn' : ∀ m ∈ ms', ∀ p ∈ m.nodes, p < nodes.length := by
    have := describes_inn hms'
    rwa [hr.size] at this
  let δ : ℕ → ℕ → K := fun p' j' => if p' = p ∧ j' = i then 1 else 0
  have h1 := hform (turned3 Q.transpose δ) U
  rw [← virtual_work hn', ← virtual_work (describes_inn hms), turned3_turned3, hQ'] at h1
  have hl : ∀ (w w' : ℕ → ℕ → K), (∀ p', p' ≠ p → ∀ j < 3, w p' j = 0) →
      ∑ p' ∈ Finset.range nodes.length, ∑ j ∈ Finset.range 3, w p' j * w' p' j = ∑ j ∈ Finset.range 3, w p j * w' p j := by
    intro w w' hw
    rw [Finset.sum_eq_single p]
    · intro b _ hb
      exact Finset.sum_eq_zero fun j hj => by rw [hw b hb j (Finset.mem_range.1 hj), zero_mul]
    · intro hc
      exact absurd (Finset.mem_range.2 hp) hc
  rw [hl, hl] at h1
  · have e1 : ∑ j ∈ Finset.range 3, turned3 1 δ p j * internal 3 ms' (turned3 Q U) p j = internal 3 ms' (turned3 Q U) p i := by
      rw [Finset.sum_eq_single (i : ℕ)]
      · rw [turned3_one _ _ i.2]
        simp [δ]
      · intro b hb hbi
        rw [turned3_one _ _ (Finset.mem_range.1 hb)]
        simp [δ, hbi]
      · intro hc
        exact absurd (Finset.mem_range.2 i.2) hc
    have e2 : ∀ j : Fin 3, turned3 Q.transpose δ p j = Q i j := by
      intro j
      rw [turned3_fin]
      simp only [δ, true_and, Matrix.transpose_apply, mul_ite, mul_one, mul_zero, Fin.val_inj]
      simp
    rw [← e1, h1, Finset.sum_range]
    simp only [e2]
  · intro p' hp' j hj
    have := turned3_fin (Q := Q.transpose) δ p' ⟨j, hj⟩
    dsimp only at this
    rw [this]
    simp [δ, hp']
  · intro p' hp' j hj
    rw [turned3_one _ _ hj]
    simp [δ, hp']

theorem admissible_congr3 {cons : Table K} {u v : ℕ → ℕ → K} (h : ∀ p < cons.length, ∀ j < 3, u p j = v p j) :
    Admissible cons 3 u ↔ Admissible cons 3 v := by
  unfold Admissible
  refine forall₂_congr fun p j => forall_congr' fun hp => ?_
  constructor
  · intro H hj hf
    rw [← h p hp j hj]
    exact H hj hf
  · intro H hj hf
    rw [h p hp j hj]
    exact H hj hf

theorem isLoad_exists3 {N : ℕ} {loads : List (List K)} {p j : ℕ} (hj : j < 3) (hw : ∀ L ∈ loads, 4 ≤ L.length) :
    ∃ x, IsLoad N loads p j x := by
  classical
  induction loads using List.reverseRecOn with
  | nil => exact ⟨0, .inl ⟨fun L hL => by simp at hL, rfl⟩⟩
  | append_singleton l L ih =>
    by_cases hL : Names N L p
    · have h3 := hw L (by simp)
      exact ⟨L[j + 1]'(by omega), .inr ⟨l, L, [], rfl, hL, fun _ h => by simp at h, List.getElem?_eq_getElem _⟩⟩
    · obtain ⟨x, hx⟩ := ih fun L hL => hw L (by simp [hL])
      refine ⟨x, ?_⟩
      rcases hx with ⟨h0, e⟩ | ⟨pre, L', post, e, h1, h2, h3⟩
      · refine .inl ⟨fun L' hL' => ?_, e⟩
        rcases List.mem_append.1 hL' with h | h
        · exact h0 L' h
        · rw [List.mem_singleton.1 h]
          exact hL
      · refine .inr ⟨pre, L', post ++ [L], by rw [e]; simp, h1, fun L'' hL'' => ?_, h3⟩
        rcases List.mem_append.1 hL'' with h | h
        · exact h2 L'' h
        · rw [List.mem_singleton.1 h]
          exact hL

/-- A free component of the moved body involves no held component of the old one. -/
theorem Spec.SolidMoved.held (hr : SolidMoved n ε s Q t cons cons' nodes nodes' loads loads' elements elements') (hQ : Q.transpose * Q = 1)
    {p : ℕ} (hp : p < cons.length) {i : Fin 3} (hi : Free cons' 3 p i) {j : Fin 3} (hj : ¬ Free cons 3 p j) : Q i j = 0 := by
  have hQ' : Q * Q.transpose = 1 := mul_eq_one_comm.1 hQ
  let δ : ℕ → ℕ → K := fun p' j' => if p' = p ∧ j' = i then 1 else 0
  have hδ : Admissible cons' 3 δ := by
    intro p' j' _ _ hf
    show (if _ then _ else _) = _
    rw [if_neg]
    rintro ⟨rfl, rfl⟩
    exact hf hi
  have h1 : Admissible cons 3 (turned3 Q.transpose δ) := by
    rw [hr.supports, turned3_turned3, hQ']
    exact (admissible_congr3 fun p' _ j' hj' => turned3_one _ _ hj').2 hδ
  have := h1 p j hp j.2 hj
  rw [turned3_fin] at this
  simp only [δ, true_and, Matrix.transpose_apply, mul_ite, mul_one, mul_zero, Fin.val_inj] at this
  simpa using this

/-- C154.  A body in equilibrium: with the field turned and divided by `s` the moved body is in equilibrium. -/
theorem C154_equilibrium (hf : SolidElement n f) (hu : UserModel 3 n cons nodes elements) (hu' : UserModel 3 n cons' nodes' elements')
    (hms : List.Forall₂ (Describes f mats nodes) elements ms) (hms' : List.Forall₂ (Describes f mats nodes') elements' ms')
    (hr : SolidMoved n ε s Q t cons cons' nodes nodes' loads loads' elements elements') (hQ : Q.transpose * Q = 1)
    (hd : Q.det = ((ε : ℤ) : K)) (hs : 0 < s) {U : ℕ → ℕ → K} (hU : Equilibrium cons 3 loads ms U) :
    Equilibrium cons' 3 loads' ms' (turned3 Q fun p j => s⁻¹ * U p j) := by
  refine ⟨(hr.supports _).1 fun p j hp hj hf => by rw [hU.1 p j hp hj hf, mul_zero], fun p j hfr => ?_⟩
  have hp : p < cons.length := by
    have := free_lt hfr
    rw [hu'.size, hr.size] at this
    rw [hu.size]
    exact this
  have hp' : p < nodes.length := by rw [← hu.size]; exact hp
  obtain ⟨i, rfl⟩ : ∃ i : Fin 3, (i : ℕ) = j := ⟨⟨j, hfr.1⟩, rfl⟩
  have hlen : cons'.length = nodes.length := by rw [hu'.size, hr.size]
  rw [C154_forces hf hms hms' hr hQ hd hs _ hp' i, hlen]
  have hlin : ∀ j : ℕ, internal 3 ms (fun p j => s⁻¹ * U p j) p j = s⁻¹ * internal 3 ms U p j := by
    intro j
    unfold internal
    rw [← List.sum_map_mul_left]
    congr 1
    refine List.map_congr_left fun m _ => ?_
    rw [Finset.mul_sum]
    refine Finset.sum_congr rfl fun a _ => ?_
    split
    · unfold Member.force
      rw [Finset.mul_sum]
      refine Finset.sum_congr rfl fun b _ => ?_
      rw [Finset.mul_sum]
      exact Finset.sum_congr rfl fun c _ => by ring
    · rw [mul_zero]
  have hF : ∀ j : Fin 3, ∃ x, IsLoad nodes.length loads p j x ∧ (Free cons 3 p j → x = internal 3 ms U p j) := by
    intro j
    by_cases h : Free cons 3 p j
    · have := hU.2 p j h
      rw [hu.size] at this
      exact ⟨_, this, fun _ => rfl⟩
    · obtain ⟨x, hx⟩ := isLoad_exists3 (N := nodes.length) (loads := loads) (p := p) j.2 hr.rows
      exact ⟨x, hx, fun h' => absurd h' h⟩
  choose F hF1 hF2 using hF
  have e : s * ∑ j : Fin 3, Q i j * internal 3 ms (fun p j => s⁻¹ * U p j) p j = ∑ j : Fin 3, Q i j * F j := by
    rw [Finset.mul_sum]
    refine Finset.sum_congr rfl fun j _ => ?_
    rw [hlin]
    by_cases h : Free cons 3 p j
    · rw [hF2 j h]
      field_simp
    · rw [hr.held hQ hp hfr h]
      ring
  rw [e]
  exact hr.loads p hp' F hF1 i

/-- C154.  The moved body is held exactly if the body is. -/
theorem C154_stable (hf : SolidElement n f) (hu : UserModel 3 n cons nodes elements) (hu' : UserModel 3 n cons' nodes' elements')
    (hms : List.Forall₂ (Describes f mats nodes) elements ms) (hms' : List.Forall₂ (Describes f mats nodes') elements' ms')
    (hr : SolidMoved n ε s Q t cons cons' nodes nodes' loads loads' elements elements') (hQ : Q.transpose * Q = 1)
    (hd : Q.det = ((ε : ℤ) : K)) (hs : 0 < s) : Stable cons 3 ms ↔ Stable cons' 3 ms' := by
  have hQ' : Q * Q.transpose = 1 := mul_eq_one_comm.1 hQ
  have hlen : cons'.length = cons.length := by rw [hu'.size, hr.size, hu.size]
  have hform := (bodies_moved3 hf hms hr hQ hd hs).2 _ hms'
  have hn' : ∀ m ∈ ms', ∀ p ∈ m.nodes, p < nodes.length := by
    have := describes_inn hms'
    rwa [hr.size] at this
  -- forces vanish at the free components exactly if the work of all admissible fields does
  have weak : ∀ (cons : Table K) (ms : List (Member K)) (U : ℕ → ℕ → K), cons.length = nodes.length →
      (∀ m ∈ ms, ∀ p ∈ m.nodes, p < nodes.length) →
      ((∀ p j, Free cons 3 p j → internal 3 ms U p j = 0) ↔ ∀ V, Admissible cons 3 V → (ms.map fun m => m.form 3 V U).sum = 0) := by
    intro cons ms U hl hn
    constructor
    · intro H V hV
      rw [← virtual_work hn]
      refine Finset.sum_eq_zero fun p hp => Finset.sum_eq_zero fun j hj => ?_
      rw [Finset.mem_range] at hp hj
      by_cases h : Free cons 3 p j
      · rw [H p j h, mul_zero]
      · rw [hV p j (by rw [hl]; exact hp) hj h, zero_mul]
    · intro H p j hfr
      have := H (fun p' j' => if p' = p ∧ j' = j then 1 else 0) (by
        intro p' j' _ _ hf'
        dsimp only
        rw [if_neg]
        rintro ⟨rfl, rfl⟩
        exact hf' hfr)
      rw [← virtual_work hn, Finset.sum_eq_single p, Finset.sum_eq_single j] at this
      · simpa using this
      · intro b _ hb
        simp [hb]
      · intro hc
        exact absurd (Finset.mem_range.2 hfr.1) hc
      · intro b _ hb
        simp [hb]
      · intro hc
        have := free_lt hfr
        rw [hl] at this
        exact absurd (Finset.mem_range.2 this) hc
  have congr3 : ∀ (V V' U U' : ℕ → ℕ → K), (∀ p, ∀ j < 3, V p j = V' p j) → (∀ p, ∀ j < 3, U p j = U' p j) →
      (ms'.map fun m => m.form 3 V U).sum = (ms'.map fun m => m.form 3 V' U').sum := by
    intro V V' U U' hV hU
    rw [← virtual_work hn', ← virtual_work hn']
    refine Finset.sum_congr rfl fun p _ => Finset.sum_congr rfl fun j hj => ?_
    rw [hV p j (Finset.mem_range.1 hj), internal_congr hn' fun p _ j hj => hU p j hj]
  have back : ∀ V : ℕ → ℕ → K, ∀ p, ∀ j < 3, V p j = turned3 Q (turned3 Q.transpose V) p j := by
    intro V p j hj
    rw [turned3_turned3, hQ', turned3_one _ _ hj]
  have admb : ∀ V, Admissible cons' 3 V → Admissible cons 3 (turned3 Q.transpose V) := by
    intro V hV
    rw [hr.supports]
    exact (admissible_congr3 fun p _ => back V p).1 hV
  constructor
  · intro hst U' hU' H p j hp hj
    rw [weak cons' ms' U' (by rw [hlen, hu.size]) hn'] at H
    have h0 := hst (turned3 Q.transpose U') (admb _ hU') (by
      rw [weak cons ms _ hu.size (describes_inn hms)]
      intro V hV
      have h1 := H (turned3 Q V) ((hr.supports V).1 hV)
      rw [congr3 _ _ _ _ (fun _ _ _ => rfl) (back U'), hform] at h1
      exact (mul_eq_zero.1 h1).resolve_left hs.ne')
    rw [back U' p j hj, turned3, dif_pos hj]
    exact Finset.sum_eq_zero fun k _ => by rw [h0 p k (by rw [← hlen]; exact hp) k.2, mul_zero]
  · intro hst U hU H p j hp hj
    rw [weak cons ms U hu.size (describes_inn hms)] at H
    have h0 := hst (turned3 Q U) ((hr.supports U).1 hU) (by
      rw [weak cons' ms' _ (by rw [hlen, hu.size]) hn']
      intro V hV
      rw [congr3 _ _ _ _ (back V) (fun _ _ _ => rfl), hform, H _ (admb V hV), mul_zero])
    have h2 : U p j = turned3 Q.transpose (turned3 Q U) p j := by
      rw [turned3_turned3, hQ, turned3_one _ _ hj]
    rw [h2, turned3, dif_pos hj]
    exact Finset.sum_eq_zero fun k _ => by rw [h0 p k (by rw [hlen]; exact hp) k.2, mul_zero]

/-- C154.  The displacements of the moved body under the turned loads are the old ones, turned and divided by `s`. -/
theorem C154_displacements (hf : SolidElement n f) (hu : UserModel 3 n cons nodes elements) (hu' : UserModel 3 n cons' nodes' elements')
    {count' : ℤ → Py ℕ} {m' : ℕ} {tab' : ℤ → Py (Uel K)} (hc : Counts count (n * 3) elements) (hc' : Counts count' (n * 3) elements')
    (hm : n * 3 ≤ m) (hm' : n * 3 ≤ m')
    (hms : List.Forall₂ (Describes f mats nodes) elements ms) (hms' : List.Forall₂ (Describes f mats nodes') elements' ms')
    (hr : SolidMoved n ε s Q t cons cons' nodes nodes' loads loads' elements elements') (hQ : Q.transpose * Q = 1)
    (hd : Q.det = ((ε : ℤ) : K)) (hs : 0 < s) (hst : Stable cons 3 ms) {sp de sp' de' : Sol.Solver K} (hsp : SolverOk sp) (hde : SolverOk de)
    (hsp' : SolverOk sp') (hde' : SolverOk de') {sparse sparse' : Bool} {full full' : Table K}
    (hl : ∀ L ∈ loads, ∃ p, Names nodes.length L p)
    (h : userRun tab f 3 m count sp de sparse cons elements mats nodes loads = .ok full)
    (h' : userRun tab' f 3 m' count' sp' de' sparse' cons' elements' mats nodes' loads' = .ok full') {p : ℕ} (hp : p < nodes.length) (i : Fin 3) :
    ∃ u : Fin 3 → K, (∀ j : Fin 3, entry full p j = some (u j)) ∧ entry full' p i = some (s⁻¹ * ∑ j, Q i j * u j) := by
  have h0 : 0 < n * 3 := by cases hf <;> norm_num
  obtain ⟨full₀, h1, h2⟩ := C135_solved (tab := tab) (loads := loads) (elementOf_solid hf) hu hc h0 hm hms hst hsp hde sparse
    fun L hL => ⟨hr.rows L hL, hl L hL⟩
  rw [h, Except.ok.injEq] at h1
  subst h1
  have e1 := C135_unique (elementOf_solid hf) hu hc h0 hm hms hst hsp hde h h2
  have e2 := C135_unique (elementOf_solid hf) hu' hc' h0 hm' hms' ((C154_stable hf hu hu' hms hms' hr hQ hd hs).1 hst) hsp' hde' h'
    (C154_equilibrium hf hu hu' hms hms' hr hQ hd hs h2)
  refine ⟨fun j => fieldOf full p j, fun j => e1 p j hp j.2, ?_⟩
  rw [e2 p i (by rw [hr.size]; exact hp) i.2, turned3_fin, Finset.mul_sum]
  congr 1
  exact Finset.sum_congr rfl fun j _ => by ring

/-- A load row in space with its force multiplied by `Q`. -/
def Spec.turnLoad3 (Q : Matrix (Fin 3) (Fin 3) K) : List K → List K
  | [p, x, y, z] => [p, Q 0 0 * x + Q 0 1 * y + Q 0 2 * z, Q 1 0 * x + Q 1 1 * y + Q 1 2 * z, Q 2 0 * x + Q 2 1 * y + Q 2 2 * z]
  | L => L

theorem names_turnLoad3 (N : ℕ) (L : List K) (p : ℕ) : Names N (turnLoad3 Q L) p ↔ Names N L p := by
  unfold Names turnLoad3
  split <;> rfl

/-- C154.  The table with the force of every row turned gives the turned loads. -/
theorem C154_loads {N : ℕ} (hw : ∀ L ∈ loads, L.length = 4) {p : ℕ} {F : Fin 3 → K}
    (hF : ∀ j : Fin 3, IsLoad N loads p j (F j)) (i : Fin 3) : IsLoad N (loads.map (turnLoad3 Q)) p i (∑ j, Q i j * F j) := by
  have same : ∀ {pre pre' post post' : List (List K)} {L L' : List K}, pre ++ L :: post = pre' ++ L' :: post' →
      Names N L p → Names N L' p → (∀ x ∈ post, ¬ Names N x p) → (∀ x ∈ post', ¬ Names N x p) → L = L' := by
    intro pre pre' post post' L L' e h1 h1' h2 h2'
    rcases List.append_eq_append_iff.1 e with ⟨as, h5, h6⟩ | ⟨bs, h5, h6⟩
    · cases as with
      | nil => simpa using (List.cons_eq_cons.1 h6).1
      | cons a as =>
        rw [List.cons_append, List.cons_eq_cons] at h6
        exact absurd h1' (h2 L' (by rw [h6.2]; simp))
    · cases bs with
      | nil => simpa using (List.cons_eq_cons.1 h6).1.symm
      | cons b bs =>
        rw [List.cons_append, List.cons_eq_cons] at h6
        exact absurd h1 (h2' L (by rw [h6.2]; simp))
  rcases hF 0 with ⟨h0, e0⟩ | ⟨pre, L, post, e, h1, h2, h3⟩
  · have hz : ∀ j, F j = 0 := by
      intro j
      rcases hF j with ⟨_, e1⟩ | ⟨pre, L, post, e, h1, -⟩
      · exact e1
      · exact absurd h1 (h0 L (by rw [e]; simp))
    refine .inl ⟨fun L hL => ?_, by simp [hz]⟩
    obtain ⟨L', hL', rfl⟩ := List.mem_map.1 hL
    rw [names_turnLoad3]
    exact h0 L' hL'
  · have hj : ∀ j : Fin 3, L[(j : ℕ) + 1]? = some (F j) := by
      intro j
      rcases hF j with ⟨h0, _⟩ | ⟨pre', L', post', e', h1', h2', h3'⟩
      · exact absurd h1 (h0 L (by rw [e]; simp))
      · rw [same (e.symm.trans e') h1 h1' h2 h2']
        exact h3'
    refine .inr ⟨pre.map (turnLoad3 Q), turnLoad3 Q L, post.map (turnLoad3 Q), by rw [e]; simp, (names_turnLoad3 _ _ _).2 h1, ?_, ?_⟩
    · intro L' hL'
      obtain ⟨L'', hL'', rfl⟩ := List.mem_map.1 hL'
      rw [names_turnLoad3]
      exact h2 _ hL''
    · have hl := hw L (by rw [e]; simp)
      match L, hl with
      | [q, x, y, z], _ =>
        have x0 := hj 0
        have x1 := hj 1
        have x2 := hj 2
        simp at x0 x1 x2
        subst x0 x1 x2
        rw [Fin.sum_univ_three]
        fin_cases i <;> rfl

end

/-! ## A body and its mirror image of twice the size -/

section

/-- The two tetrahedra of `tetNodes`, mirrored in the first direction, enlarged twice and shifted. -/
def tetNodes' : Table ℚ := [[0, 1, 0, 0], [1, -1, 0, 0], [2, 1, 2, 0], [3, 1, 0, 2], [4, -1, 2, 2]]
def tetEls' : List (List ℤ) := [[0, 9, 0, 1, 0, 2, 3], [1, 9, 0, 1, 3, 2, 4]]
def tetMirror : Matrix (Fin 3) (Fin 3) ℚ := !![-1, 0, 0; 0, 1, 0; 0, 0, 1]

theorem tetMirror_turned (u : ℕ → ℕ → ℚ) (p : ℕ) {j : ℕ} (hj : j < 3) : turned3 tetMirror u p j = 0 ↔ u p j = 0 := by
  unfold turned3
  rw [dif_pos hj]
  interval_cases j <;> simp [tetMirror, Fin.sum_univ_three]

theorem tet_moved : SolidMoved 4 (-1) 2 tetMirror ![1, 0, 0] tetCons tetCons tetNodes tetNodes' [[4, 1, 0, -1]] [[4, -1, 0, -1]]
    tetEls tetEls' where
  size := rfl
  width := by decide
  coord := by
    intro p hp i
    have hp : p < 5 := hp
    interval_cases p <;> fin_cases i <;> rw [Fin.sum_univ_three] <;> decide +kernel
  elements := by
    refine .cons ⟨rfl, rfl, Equiv.swap 0 1, ?_, by decide⟩ (.cons ⟨rfl, rfl, Equiv.swap 1 2, ?_, by decide⟩ .nil)
    · show Equiv.Perm.sign _ = _
      decide
    · show Equiv.Perm.sign _ = _
      decide
  supports u := by
    unfold Admissible
    refine forall₂_congr fun p j => forall_congr' fun _ => forall_congr' fun hj => forall_congr' fun _ => ?_
    rw [tetMirror_turned u p hj]
  rows := by decide
  loads := by
    intro p _ F hF i
    have := C154_loads (Q := tetMirror) (by decide) hF i
    have e : ([[4, 1, 0, -1]] : Table ℚ).map (turnLoad3 tetMirror) = [[4, -1, 0, -1]] := by decide +kernel
    rwa [e] at this

theorem tet_model' : UserModel 3 4 tetCons tetNodes' tetEls' where
  codes := tet_model.codes
  width := tet_model.width
  size := rfl
  typed := by decide

/-- C154 on it: both are solved, and the displacements of the second are the mirrored halves of those of the first. -/
example (tab : ℤ → Py (Uel ℚ)) : ∃ full full',
    userRun tab Uel.elastTet4 3 12 (fun _ => .ok 12) cramerSolver cramerSolver true tetCons tetEls tetMats tetNodes [[4, 1, 0, -1]] = .ok full ∧
    userRun tab Uel.elastTet4 3 12 (fun _ => .ok 12) cramerSolver cramerSolver false tetCons tetEls' tetMats tetNodes' [[4, -1, 0, -1]] = .ok full' ∧
    ∃ u : Fin 3 → ℚ, (∀ j : Fin 3, entry full 4 j = some (u j)) ∧ entry full' 4 0 = some (-(1 / 2) * u 0) ∧
      entry full' 4 2 = some (1 / 2 * u 2) := by
  obtain ⟨ms, h⟩ := tet_body
  have hQ : tetMirror.transpose * tetMirror = 1 := by decide +kernel
  have hd : tetMirror.det = (((-1 : ℤˣ) : ℤ) : ℚ) := by simp [tetMirror, Matrix.det_fin_three]
  have hc : ∀ els : List (List ℤ), (∀ el ∈ els, el[1]? = some 9) → Counts (fun _ => .ok 12) (4 * 3) els := fun els h el hel => ⟨9, h el hel, rfl⟩
  have hn : ∀ x : ℚ, ∀ L ∈ ([[4, x, 0, -1]] : Table ℚ), ∃ p, Names 5 L p := by
    intro x L hL
    simp only [List.mem_cons, List.not_mem_nil, or_false] at hL
    subst hL
    exact ⟨4, 4, 4, rfl, ⟨by decide, .inl rfl⟩, .inl ⟨by norm_num, by norm_num, by norm_num⟩⟩
  have hst : Stable tetCons 3 ms := (C136_stable_iff (cons := tetCons) h rfl).2 tet_held
  obtain ⟨ms', hms'⟩ := C154_accepted .tet4 h.members tet_moved hQ hd (by norm_num)
  have hst' := (C154_stable .tet4 tet_model tet_model' h.members hms' tet_moved hQ hd (by norm_num)).1 hst
  obtain ⟨full, h1, -⟩ := C135_solved (tab := tab) (loads := [[4, 1, 0, -1]]) (elementOf_solid .tet4) tet_model (hc tetEls (by decide)) (by norm_num)
    (le_refl (4 * 3)) h.members hst cramerSolver_ok cramerSolver_ok true fun L hL => ⟨tet_moved.rows L hL, hn 1 L hL⟩
  obtain ⟨full', h2, -⟩ := C135_solved (tab := tab) (loads := [[4, -1, 0, -1]]) (elementOf_solid .tet4) tet_model' (hc tetEls' (by decide)) (by norm_num)
    (le_refl (4 * 3)) hms' hst' cramerSolver_ok cramerSolver_ok false fun L hL => ⟨by
      simp only [List.mem_cons, List.not_mem_nil, or_false] at hL
      subst hL
      simp, hn (-1) L hL⟩
  have key := fun i => C154_displacements .tet4 tet_model tet_model' (hc tetEls (by decide)) (hc tetEls' (by decide)) (le_refl (4 * 3)) (le_refl (4 * 3))
    h.members hms' tet_moved hQ hd (by norm_num) hst cramerSolver_ok cramerSolver_ok cramerSolver_ok cramerSolver_ok (hn 1) h1 h2
    (p := 4) (by decide) i
  refine ⟨full, full', h1, h2, ?_⟩
  obtain ⟨u, u1, u2⟩ := key 0
  obtain ⟨v, v1, v2⟩ := key 2
  have : v = u := by
    funext j
    have := (v1 j).symm.trans (u1 j)
    simpa using this
  subst this
  refine ⟨v, u1, ?_, ?_⟩
  · refine u2.trans (congrArg some ?_)
    rw [Fin.sum_univ_three]
    simp [tetMirror]
  · refine v2.trans (congrArg some ?_)
    rw [Fin.sum_univ_three]
    simp [tetMirror]

end
end SolidsPy
