import Verif.Props.StrainMatrix
import Verif.Props.TrussStatics
import Verif.Props.Mirror

/-! # Bar stresses as a function of the displacements (C174) -/

set_option linter.unusedSectionVars false

namespace SolidsPy
open Spec Assem Matrix

section
variable {K : Type} [Field K] [LinearOrder K] [IsStrictOrderedRing K] [FloorRing K]
variable {sq : K → K} {sp de : Sol.Solver K} {d d' : Gui.Data K} {ms : List (Member K)} {bars : List (Bar K)}
  {nodes mats : Table K} {els : List (List ℤ)}

theorem stress_length {disp : Table K} {σ : List K} (hb : List.Forall₂ (IsBar nodes mats) els bars)
    (hσ : Post.stressTruss sq nodes els mats disp = .ok σ) : σ.length = bars.length := by
  rw [mapM_length hσ, hb.length_eq]

theorem bar_coord {el : List ℤ} {b : Bar K} (h : IsBar nodes mats el b) (e j : Fin 2) : coordOf nodes (b.ends e) j = b.X e j := by
  obtain ⟨_, _, id, _, _, _, b3, _⟩ := h
  unfold coordOf fieldOf entry
  rw [b3 e]
  fin_cases j <;> rfl

theorem bars_coord (hb : List.Forall₂ (IsBar nodes mats) els bars) {b : Bar K} (h : b ∈ bars) (e j : Fin 2) :
    coordOf nodes (b.ends e) j = b.X e j := by
  obtain ⟨i, hi, rfl⟩ := List.mem_iff_getElem.1 h
  exact bar_coord (hb.get (i := i) (by rw [hb.length_eq]; exact hi) hi) e j

/-- C174.  Whether `stress_truss` returns does not depend on the displacements: it does if and only if no bar has zero area. -/
theorem C174_returns_iff (hs : SqrtFn sq) (hb : List.Forall₂ (IsBar nodes mats) els bars) {u : Table K}
    (hu : u.length = nodes.length ∧ ∀ r ∈ u, r.length = 2) :
    (∃ σ, Post.stressTruss sq nodes els mats u = .ok σ) ↔ ∀ b ∈ bars, b.A ≠ 0 := by
  have hget : ∀ e < els.length, ∃ b ∈ bars, bars[e]? = some b ∧ IsBar nodes mats (els.getD e []) b := by
    intro e he
    have he' : e < bars.length := by rw [← hb.length_eq]; exact he
    refine ⟨bars[e], List.getElem_mem _, List.getElem?_eq_getElem he', ?_⟩
    have := hb.get (i := e) he he'
    rwa [List.getD_eq_getElem?_getD, List.getElem?_eq_getElem he, Option.getD_some]
  classical
  let B : ℕ → Bar K := fun e => bars.getD e ⟨0, 0, 0, 0, 0⟩
  have hB : ∀ e < els.length, IsBar nodes mats (els.getD e []) (B e) ∧ B e ∈ bars := by
    intro e he
    obtain ⟨b, hm, h1, h2⟩ := hget e he
    have : B e = b := by simp only [B, List.getD_eq_getElem?_getD, h1, Option.getD_some]
    rw [this]
    exact ⟨h2, hm⟩
  have hm : ∀ e < els.length, BarMember nodes els mats u e (B e).X (B e).E (B e).A fun q => fieldOf u ((B e).ends q.1) q.2 := by
    intro e he
    obtain ⟨eid, mi, id, more, h1, b2, b3, -⟩ := (hB e he).1
    have hel : els[e]? = some (els.getD e []) := by
      rw [List.getD_eq_getElem?_getD, List.getElem?_eq_getElem he, Option.getD_some]
    rw [h1] at hel
    refine ⟨_, mi, (B e).ends, id, fun _ => [], more, hel, rfl, rfl, rfl, b2, fun a => ⟨b3 a, ?_⟩⟩
    obtain ⟨hlt, _⟩ := List.getElem?_eq_some_iff.1 (b3 a)
    rw [← hu.1] at hlt
    have hl := hu.2 _ (List.getElem_mem hlt)
    unfold fieldOf entry
    dsimp only
    rw [List.getElem?_eq_getElem hlt]
    generalize u[(B e).ends a]'hlt = r at hl
    match r, hl with
    | [x, y], _ => rfl
  rw [C53_returns_iff hs hm]
  constructor
  · intro h b hbm
    obtain ⟨e, he, rfl⟩ := List.mem_iff_getElem.1 hbm
    have he' : e < els.length := by rw [hb.length_eq]; exact he
    have := (h e he').2
    simpa only [B, List.getD_eq_getElem?_getD, List.getElem?_eq_getElem he, Option.getD_some] using this
  · intro h e he
    refine ⟨fun h0 => ?_, h _ (hB e he).2⟩
    obtain ⟨_, _, _, _, _, _, _, hp, hq⟩ := (hB e he).1
    rw [h0, sub_self, sub_self] at hq
    nlinarith

/-- C174.  If the displacements of the two ends of a bar are combined from those of two tables, so is the stress of the bar,
whatever happens at the other nodes. -/
theorem C174_combination (hs : SqrtFn sq) (hb : List.Forall₂ (IsBar nodes mats) els bars) {u v w : Table K}
    (hu : u.length = nodes.length ∧ ∀ r ∈ u, r.length = 2) (hv : v.length = nodes.length ∧ ∀ r ∈ v, r.length = 2)
    (hw : w.length = nodes.length ∧ ∀ r ∈ w, r.length = 2) {σ τ ρ : List K}
    (hσ : Post.stressTruss sq nodes els mats u = .ok σ) (hτ : Post.stressTruss sq nodes els mats v = .ok τ)
    (hρ : Post.stressTruss sq nodes els mats w = .ok ρ) (a b : K) (i : Fin bars.length)
    (h : ∀ e, ∀ j < 2, fieldOf w (bars[i].ends e) j = a * fieldOf u (bars[i].ends e) j + b * fieldOf v (bars[i].ends e) j) :
    ∃ x y, σ[(i : ℕ)]? = some x ∧ τ[(i : ℕ)]? = some y ∧ ρ[(i : ℕ)]? = some (a * x + b * y) := by
  refine ⟨_, _, bars_stress hs hb hu.1 hu.2 hσ i, bars_stress hs hb hv.1 hv.2 hτ i, ?_⟩
  rw [bars_stress hs hb hw.1 hw.2 hρ i]
  simp only [Bar.stretch, elongation, Fin.val_zero, Fin.val_one]
  rw [h 0 0 (by norm_num), h 0 1 (by norm_num), h 1 0 (by norm_num), h 1 1 (by norm_num)]
  congr 1
  ring

/-- C174.  The stress of a bar does not change if the displacements change elsewhere only, or if a translation is added to both
ends, or a small rotation about any point. -/
theorem C174_rigid (hs : SqrtFn sq) (hb : List.Forall₂ (IsBar nodes mats) els bars) {u v : Table K}
    (hu : u.length = nodes.length ∧ ∀ r ∈ u, r.length = 2) (hv : v.length = nodes.length ∧ ∀ r ∈ v, r.length = 2) {σ τ : List K}
    (hσ : Post.stressTruss sq nodes els mats u = .ok σ) (hτ : Post.stressTruss sq nodes els mats v = .ok τ) (i : Fin bars.length)
    (t0 t1 θ : K) (h0 : ∀ e, fieldOf v (bars[i].ends e) 0 = fieldOf u (bars[i].ends e) 0 + t0 - θ * coordOf nodes (bars[i].ends e) 1)
    (h1 : ∀ e, fieldOf v (bars[i].ends e) 1 = fieldOf u (bars[i].ends e) 1 + t1 + θ * coordOf nodes (bars[i].ends e) 0) :
    τ[(i : ℕ)]? = σ[(i : ℕ)]? := by
  rw [bars_stress hs hb hu.1 hu.2 hσ i, bars_stress hs hb hv.1 hv.2 hτ i]
  have c := bars_coord hb (List.getElem_mem i.2)
  simp only [Bar.stretch, elongation, Fin.val_zero, Fin.val_one]
  rw [h0 0, h0 1, h1 0, h1 1]
  have c0 : coordOf nodes (bars[i].ends 0) 0 = bars[i].X 0 0 := c 0 0
  have c1 : coordOf nodes (bars[i].ends 0) 1 = bars[i].X 0 1 := c 0 1
  have c2 : coordOf nodes (bars[i].ends 1) 0 = bars[i].X 1 0 := c 1 0
  have c3 : coordOf nodes (bars[i].ends 1) 1 = bars[i].X 1 1 := c 1 1
  rw [c0, c1, c2, c3]
  congr 1
  ring

/-- C174.  Superposition: the stresses of the bars of a stable truss under combined loads are the combined stresses. -/
theorem C174_superposition (hs : SqrtFn sq) (hwf : WellFormed d) (hsp : SolverOk sp) (hms : Members sq d ms) (hst : Stable d.cons 2 ms)
    (hb : List.Forall₂ (IsBar d.nodes d.mats) d.elements bars) (a b : K) (rows : List (K × List K × List K))
    (hlen : ∀ t ∈ rows, t.2.1.length = t.2.2.length) {p1 p2 p3 : Bool} {r1 r2 r3 : Gui.Result K}
    (h1 : Gui.solidsAuto sq sp de { d with loads := rows.map fun t => t.1 :: t.2.1 } p1 = .ok r1)
    (h2 : Gui.solidsAuto sq sp de { d with loads := rows.map fun t => t.1 :: t.2.2 } p2 = .ok r2)
    (h3 : Gui.solidsAuto sq sp de { d with loads := (rows.map fun t =>
      t.1 :: List.zipWith (fun x y => a * x + b * y) t.2.1 t.2.2) } p3 = .ok r3) {σ τ ρ : List K}
    (hσ : Post.stressTruss sq d.nodes d.elements d.mats r1.disp = .ok σ)
    (hτ : Post.stressTruss sq d.nodes d.elements d.mats r2.disp = .ok τ)
    (hρ : Post.stressTruss sq d.nodes d.elements d.mats r3.disp = .ok ρ) :
    ρ = List.zipWith (fun x y => a * x + b * y) σ τ := by
  have hc := C22_linear_response hwf hsp hms hst a b rows hlen h1 h2 h3
  have s1 := disp_shape h1
  have s2 := disp_shape h2
  have s3 := disp_shape h3
  have lσ := stress_length hb hσ
  have lτ := stress_length hb hτ
  have lρ := stress_length hb hρ
  refine List.ext_getElem (by simp [lσ, lτ, lρ]) fun i g1 g2 => ?_
  obtain ⟨x, y, e1, e2, e3⟩ := C174_combination hs hb s1 s2 s3 hσ hτ hρ a b ⟨i, by omega⟩
    fun e j hj => entry_field (hc _ j (bars_ends hb _ (List.getElem_mem _) e) hj)
  dsimp only at e1 e2 e3
  rw [List.getElem?_eq_some_iff] at e1 e2 e3
  obtain ⟨_, e1⟩ := e1
  obtain ⟨_, e2⟩ := e2
  obtain ⟨_, e3⟩ := e3
  rw [e3, List.getElem_zipWith, e1, e2]

/-- C174.  For every stable truss there is a number `c` such that, whatever the solver and the loads, unbalanced forces of at most `ε`
mean bar stresses within `c ε` of those computed with exact solutions. -/
theorem C174_solver (hs : SqrtFn sq) (hwf : WellFormed d) (hms : Members sq d ms) (hst : Stable d.cons 2 ms)
    (hb : List.Forall₂ (IsBar d.nodes d.mats) d.elements bars) : ∃ c : K, 0 ≤ c ∧
    ∀ (sp de sp' de' : Sol.Solver K) (L : Table K) (ε : K) (p p' : Bool) res res' σ σ', SolverOk sp' → 0 ≤ ε →
      Gui.solidsAuto sq sp de { d with loads := L } p = .ok res → Gui.solidsAuto sq sp' de' { d with loads := L } p' = .ok res' →
      NearEquilibrium d.cons 2 L ms ε (fieldOf res.disp) →
      Post.stressTruss sq d.nodes d.elements d.mats res.disp = .ok σ → Post.stressTruss sq d.nodes d.elements d.mats res'.disp = .ok σ' →
      ∀ i : Fin bars.length, ∃ x x', σ[(i : ℕ)]? = some x ∧ σ'[(i : ℕ)]? = some x' ∧ |x - x'| ≤ c * ε := by
  obtain ⟨C, hC, h1⟩ := C162_error_bound hwf hms hst
  have hpos : ∀ b : Bar K, 0 ≤ |b.E / b.L / b.L| * (2 * |b.X 1 0 - b.X 0 0| + 2 * |b.X 1 1 - b.X 0 1|) := fun b => by positivity
  refine ⟨(∑ i : Fin bars.length, |bars[i].E / bars[i].L / bars[i].L| * (2 * |bars[i].X 1 0 - bars[i].X 0 0| + 2 * |bars[i].X 1 1 - bars[i].X 0 1|)) * C,
    mul_nonneg (Finset.sum_nonneg fun i _ => hpos _) hC, ?_⟩
  intro sp de sp' de' L ε p p' res res' σ σ' hsp hε h h' hN hσ hσ' i
  have hV := (C18_nodal_equilibrium (d := { d with loads := L }) ⟨hwf.codes, hwf.width, hwf.size⟩ hsp hms hst h').2
  have hd := disp_shape h
  have hd' := disp_shape h'
  refine ⟨_, _, bars_stress hs hb hd.1 hd.2 hσ i, bars_stress hs hb hd'.1 hd'.2 hσ' i, ?_⟩
  have key : ∀ e j, j < 2 → |fieldOf res.disp (bars[i].ends e) j - fieldOf res'.disp (bars[i].ends e) j| ≤ C * ε := fun e j hj =>
    h1 sp de L p res ε _ h hV hN hε _ j (bars_ends hb _ (List.getElem_mem _) e) hj
  rw [mul_assoc]
  refine le_trans ?_ (mul_le_mul_of_nonneg_right (Finset.single_le_sum (fun i _ => hpos bars[i]) (Finset.mem_univ i)) (mul_nonneg hC hε))
  generalize bars[i] = b at key
  have k00 := key 0 0 (by norm_num)
  have k01 := key 0 1 (by norm_num)
  have k10 := key 1 0 (by norm_num)
  have k11 := key 1 1 (by norm_num)
  have e : b.E * b.stretch (fieldOf res.disp) / b.L - b.E * b.stretch (fieldOf res'.disp) / b.L = b.E / b.L / b.L *
      ((b.X 1 0 - b.X 0 0) * ((fieldOf res.disp (b.ends 1) 0 - fieldOf res'.disp (b.ends 1) 0) - (fieldOf res.disp (b.ends 0) 0 - fieldOf res'.disp (b.ends 0) 0)) +
       (b.X 1 1 - b.X 0 1) * ((fieldOf res.disp (b.ends 1) 1 - fieldOf res'.disp (b.ends 1) 1) - (fieldOf res.disp (b.ends 0) 1 - fieldOf res'.disp (b.ends 0) 1))) := by
    simp only [Bar.stretch, elongation, Fin.val_zero, Fin.val_one]
    ring
  rw [e, abs_mul, mul_assoc]
  refine mul_le_mul_of_nonneg_left ?_ (abs_nonneg _)
  refine (abs_add_le _ _).trans ?_
  rw [abs_mul, abs_mul, add_mul]
  have t : ∀ {x y : K}, |x| ≤ C * ε → |y| ≤ C * ε → |x - y| ≤ 2 * (C * ε) := fun hx hy => (abs_sub _ _).trans (by linarith)
  have m0 := mul_le_mul_of_nonneg_left (t k10 k00) (abs_nonneg (b.X 1 0 - b.X 0 0))
  have m1 := mul_le_mul_of_nonneg_left (t k11 k01) (abs_nonneg (b.X 1 1 - b.X 0 1))
  linarith

/-- The bar `b` moved by `Q` and `t`. -/
def Spec.Bar.moved (Q : Matrix (Fin 2) (Fin 2) K) (t : Fin 2 → K) (b : Bar K) : Bar K :=
  { b with X := fun e i => Q i 0 * b.X e 0 + Q i 1 * b.X e 1 + t i }

variable {Q : Matrix (Fin 2) (Fin 2) K} {t : Fin 2 → K}

theorem bars_moved (hr : Replaced Q t d d') (hQ : Q.transpose * Q = 1)
    (hb : List.Forall₂ (IsBar d.nodes d.mats) d.elements bars) :
    List.Forall₂ (IsBar d'.nodes d'.mats) d'.elements (bars.map (Bar.moved Q t)) := by
  rw [hr.elements, hr.mats, List.forall₂_map_right_iff]
  refine hb.imp fun el b h => ?_
  have hc := bar_coord h
  obtain ⟨eid, mi, id, more, h1, h2, h3, h4⟩ := h
  have hlt : ∀ e, b.ends e < d.nodes.length := fun e => (List.getElem?_eq_some_iff.1 (h3 e)).1
  have row : ∀ e, ∃ x, d'.nodes[b.ends e]? = some [x, (b.moved Q t).X e 0, (b.moved Q t).X e 1] := by
    intro e
    have hl' : b.ends e < d'.nodes.length := by rw [hr.size]; exact hlt e
    have hw := hr.width _ (List.getElem_mem hl')
    have c0 := hr.coord _ (hlt e) 0
    have c1 := hr.coord _ (hlt e) 1
    have d0 : coordOf d.nodes (b.ends e) 0 = b.X e 0 := hc e 0
    have d1 : coordOf d.nodes (b.ends e) 1 = b.X e 1 := hc e 1
    rw [d0, d1] at c0 c1
    simp only [coordOf, fieldOf, entry, List.getElem?_eq_getElem hl'] at c0 c1
    rw [List.getElem?_eq_getElem hl']
    generalize d'.nodes[b.ends e] = r at hw c0 c1
    match r, hw with
    | [x, y, z], _ =>
      refine ⟨x, ?_⟩
      have e0 : y = (b.moved Q t).X e 0 := c0
      have e1 : z = (b.moved Q t).X e 1 := c1
      rw [e0, e1]
  choose x hx using row
  refine ⟨eid, mi, x, more, h1, h2, hx, h4.1, ?_⟩
  obtain ⟨q1, q2, q3⟩ := rot_cells hQ
  have := h4.2
  change b.L * b.L = (Q 0 0 * b.X 1 0 + Q 0 1 * b.X 1 1 + t 0 - (Q 0 0 * b.X 0 0 + Q 0 1 * b.X 0 1 + t 0)) ^ 2 +
    (Q 1 0 * b.X 1 0 + Q 1 1 * b.X 1 1 + t 1 - (Q 1 0 * b.X 0 0 + Q 1 1 * b.X 0 1 + t 1)) ^ 2
  rw [this]
  linear_combination -(b.X 1 0 - b.X 0 0) ^ 2 * q1 - 2 * (b.X 1 0 - b.X 0 0) * (b.X 1 1 - b.X 0 1) * q2 - (b.X 1 1 - b.X 0 1) ^ 2 * q3

/-- C174.  The stresses of a truss do not change when it is turned, shifted or reflected together with its supports and loads. -/
theorem C174_placement (hs : SqrtFn sq) (hp : PlaneModel d) (hr : Replaced Q t d d') (hQ : Q.transpose * Q = 1) (hwf : WellFormed d)
    (hwf' : WellFormed d') (hsp : SolverOk sp) (hms : Members sq d ms) (hst : Stable d.cons 2 ms)
    (hb : List.Forall₂ (IsBar d.nodes d.mats) d.elements bars) {plot plot' : Bool} {res res' : Gui.Result K}
    (h : Gui.solidsAuto sq sp de d plot = .ok res) (h' : Gui.solidsAuto sq sp de d' plot' = .ok res') {σ σ' : List K}
    (hσ : Post.stressTruss sq d.nodes d.elements d.mats res.disp = .ok σ)
    (hσ' : Post.stressTruss sq d'.nodes d'.elements d'.mats res'.disp = .ok σ') : σ' = σ := by
  have hrow : d'.elements = d.elements.map reverseRow := by
    rw [hr.elements]
    conv_lhs => rw [← List.map_id d.elements]
    refine List.map_congr_left fun el hel => ?_
    obtain ⟨i, hi, rfl⟩ := List.mem_iff_getElem.1 hel
    obtain ⟨eid, mi, id, more, h1, -⟩ := hb.get (i := i) hi (by rw [← hb.length_eq]; exact hi)
    simp only [List.get_eq_getElem] at h1
    rw [h1]
    rfl
  have hm : Mirrored Q t d d' := ⟨by rw [← hr.elements]; exact hr, hrow⟩
  have hdet : Q.det = 1 ∨ Q.det = -1 := by
    have := congrArg Matrix.det hQ
    rw [Matrix.det_mul, Matrix.det_transpose, Matrix.det_one] at this
    exact mul_self_eq_one_iff.1 this
  have hd : ∀ p < d.nodes.length, ∀ i : Fin 2, fieldOf res'.disp p i = Q i 0 * fieldOf res.disp p 0 + Q i 1 * fieldOf res.disp p 1 := by
    intro p hpn i
    obtain ⟨x, y, hx, hy, hz⟩ : ∃ x y, entry res.disp p 0 = some x ∧ entry res.disp p 1 = some y ∧
        entry res'.disp p i = some (Q i 0 * x + Q i 1 * y) := by
      rcases hdet with hd | hd
      · exact C109_displacements hs hp hr hQ hd hwf hwf' hsp hms hst h h' hpn i
      · exact C138_displacements hs hp hm hQ hd hwf hwf' hsp hms hst h h' hpn i
    rw [entry_field hx, entry_field hy, entry_field hz]
  have hb' := bars_moved hr hQ hb
  have l := stress_length hb hσ
  have l' := stress_length hb' hσ'
  rw [List.length_map] at l'
  refine List.ext_getElem? fun i => ?_
  by_cases hi : i < bars.length
  · have g := bars_stress hs hb (disp_shape h).1 (disp_shape h).2 hσ ⟨i, hi⟩
    have g' := bars_stress hs hb' (disp_shape h').1 (disp_shape h').2 hσ' ⟨i, by rw [List.length_map]; exact hi⟩
    rw [g, g']
    have hn := bars_ends hb _ (List.getElem_mem hi)
    simp only [Fin.getElem_fin, List.getElem_map]
    generalize bars[i] = b at hn
    obtain ⟨q1, q2, q3⟩ := rot_cells hQ
    have d00 : fieldOf res'.disp (b.ends 0) 0 = _ := hd _ (hn 0) 0
    have d01 : fieldOf res'.disp (b.ends 0) 1 = _ := hd _ (hn 0) 1
    have d10 : fieldOf res'.disp (b.ends 1) 0 = _ := hd _ (hn 1) 0
    have d11 : fieldOf res'.disp (b.ends 1) 1 = _ := hd _ (hn 1) 1
    simp only [Bar.stretch, Bar.moved, elongation, Fin.val_zero, Fin.val_one]
    rw [d00, d01, d10, d11]
    congr 4
    generalize fieldOf res.disp (b.ends 0) 0 = a
    generalize fieldOf res.disp (b.ends 0) 1 = a'
    generalize fieldOf res.disp (b.ends 1) 0 = c
    generalize fieldOf res.disp (b.ends 1) 1 = c'
    linear_combination (b.X 1 0 - b.X 0 0) * (c - a) * q1 + ((b.X 1 0 - b.X 0 0) * (c' - a') + (b.X 1 1 - b.X 0 1) * (c - a)) * q2 +
      (b.X 1 1 - b.X 0 1) * (c' - a') * q3
  · rw [List.getElem?_eq_none (by omega), List.getElem?_eq_none (by omega)]

end

/-! ## Cases -/

section demo

theorem trussR_stressed (f : List ℝ) (h2 : f.length = 2) {ms : List (Member ℝ)} (hms : Members Real.sqrt trussR ms) :
    ∃ res σ, Gui.solidsAuto Real.sqrt cramerR cramerR { trussR with loads := [2 :: f] } false = .ok res ∧
      Post.stressTruss Real.sqrt trussR.nodes trussR.elements trussR.mats res.disp = .ok σ := by
  have hw : WellFormed { trussR with loads := [2 :: f] } := ⟨trussR_wf.codes, trussR_wf.width, trussR_wf.size⟩
  have hpl : PlaneModel { trussR with loads := [2 :: f] } := ⟨trussR_plane.nodes, trussR_plane.types⟩
  obtain ⟨res, h⟩ := C93_solids_auto_returns (de := cramerR) hpl hw cramerR_ok (ms := ms) hms (trussR_stable hms)
    ⟨2, 0, trussR_free 0 (by omega)⟩ (by
      intro L hL
      simp only [List.mem_singleton] at hL
      subst hL
      exact ⟨by simp [h2], 2, (names_nat (by simp [trussR]) rfl).2 rfl⟩)
  obtain ⟨σ, hσ⟩ := C92_stress_exists sqrtFn_real (d := { trussR with loads := [2 :: f] }) trussR_bars (by
    intro b hb
    simp only [trussBars, List.mem_cons, List.not_mem_nil, or_false] at hb
    rcases hb with rfl | rfl <;> norm_num) h
  exact ⟨res, σ, h, hσ⟩

/-- Case for C174: the stress of the first bar notices neither a rotation of the bar nor the displacements of the other support. -/
example : ∃ σ τ, Post.stressTruss Real.sqrt trussR.nodes trussR.elements trussR.mats [[0, 0], [0, 0], [1, 2]] = .ok σ ∧
    Post.stressTruss Real.sqrt trussR.nodes trussR.elements trussR.mats [[5, 7], [100, 100], [3, 13]] = .ok τ ∧ τ[0]? = σ[0]? := by
  have hA : ∀ b ∈ trussBars, b.A ≠ 0 := by
    intro b hb
    simp only [trussBars, List.mem_cons, List.not_mem_nil, or_false] at hb
    rcases hb with rfl | rfl <;> norm_num
  have s1 : ([[0, 0], [0, 0], [1, 2]] : Table ℝ).length = trussR.nodes.length ∧ ∀ r ∈ ([[0, 0], [0, 0], [1, 2]] : Table ℝ), r.length = 2 := by
    simp [trussR]
  have s2 : ([[5, 7], [100, 100], [3, 13]] : Table ℝ).length = trussR.nodes.length ∧
      ∀ r ∈ ([[5, 7], [100, 100], [3, 13]] : Table ℝ), r.length = 2 := by
    simp [trussR]
  obtain ⟨σ, hσ⟩ := (C174_returns_iff sqrtFn_real trussR_bars s1).2 hA
  obtain ⟨τ, hτ⟩ := (C174_returns_iff sqrtFn_real trussR_bars s2).2 hA
  refine ⟨σ, τ, hσ, hτ, ?_⟩
  refine C174_rigid sqrtFn_real trussR_bars s1 s2 hσ hτ ⟨0, by simp [trussBars]⟩ 5 7 1 ?_ ?_ <;>
  · intro e
    fin_cases e <;> norm_num [trussBars, fieldOf, entry, coordOf, trussR]

/-- Case for C174: the stresses of the truss of two bars under a load in both directions are those under its components. -/
example : ∃ r1 r2 r3 σ τ ρ,
    Gui.solidsAuto Real.sqrt cramerR cramerR { trussR with loads := [[2, 1, 0]] } false = .ok r1 ∧
    Gui.solidsAuto Real.sqrt cramerR cramerR { trussR with loads := [[2, 0, 1]] } false = .ok r2 ∧
    Gui.solidsAuto Real.sqrt cramerR cramerR { trussR with loads := [[2, 4, -6]] } false = .ok r3 ∧
    Post.stressTruss Real.sqrt trussR.nodes trussR.elements trussR.mats r1.disp = .ok σ ∧
    Post.stressTruss Real.sqrt trussR.nodes trussR.elements trussR.mats r2.disp = .ok τ ∧
    Post.stressTruss Real.sqrt trussR.nodes trussR.elements trussR.mats r3.disp = .ok ρ ∧
    ρ = List.zipWith (fun x y => 4 * x + (-6) * y) σ τ := by
  obtain ⟨ms, hms⟩ := truss_members sqrtFn_real trussR_bars
  obtain ⟨r1, σ, h1, hσ⟩ := trussR_stressed [1, 0] rfl hms
  obtain ⟨r2, τ, h2, hτ⟩ := trussR_stressed [0, 1] rfl hms
  obtain ⟨r3, ρ, h3, hρ⟩ := trussR_stressed [4, -6] rfl hms
  refine ⟨r1, r2, r3, σ, τ, ρ, h1, h2, h3, hσ, hτ, hρ, ?_⟩
  exact C174_superposition (d := trussR) sqrtFn_real trussR_wf cramerR_ok hms (trussR_stable hms) trussR_bars 4 (-6) [(2, [1, 0], [0, 1])]
    (by simp) h1 h2 (by simpa using h3) hσ hτ hρ

/-- Case for C174: the slanted truss has the stresses of the upright one. -/
example : ∃ res res' σ, Gui.solidsAuto Real.sqrt cramerR cramerR trussR false = .ok res ∧
    Gui.solidsAuto Real.sqrt cramerR cramerR trussSlant false = .ok res' ∧
    Post.stressTruss Real.sqrt trussR.nodes trussR.elements trussR.mats res.disp = .ok σ ∧
    Post.stressTruss Real.sqrt trussSlant.nodes trussSlant.elements trussSlant.mats res'.disp = .ok σ := by
  obtain ⟨ms, hms⟩ := truss_members sqrtFn_real trussR_bars
  have hst := trussR_stable hms
  have hwf' : WellFormed trussSlant := ⟨trussR_wf.codes, trussR_wf.width, by simp [trussSlant, trussR]⟩
  have hl : ∀ L ∈ trussR.loads, ∃ p, Names trussR.nodes.length L p := by
    intro L hL
    simp only [trussR, List.mem_singleton] at hL
    subst hL
    exact ⟨2, (names_nat (by decide) rfl).2 rfl⟩
  obtain ⟨res, σ, h, hσ⟩ := trussR_stressed [4, -6] rfl hms
  obtain ⟨res', h'⟩ := C109_returns (de := cramerR) sqrtFn_real trussR_plane trussSlant_replaced slant_rot.1 slant_rot.2 trussR_wf hwf'
    cramerR_ok hms hst ⟨2, 0, trussR_free 0 (by omega)⟩ hl
  obtain ⟨σ', hσ'⟩ := C92_stress_exists sqrtFn_real (bars_moved trussSlant_replaced slant_rot.1 trussR_bars) (by
    intro b hb
    simp only [trussBars, List.map_cons, List.map_nil, List.mem_cons, List.not_mem_nil, or_false] at hb
    rcases hb with rfl | rfl <;> norm_num [Bar.moved]) h'
  have := C174_placement sqrtFn_real trussR_plane trussSlant_replaced slant_rot.1 trussR_wf hwf' cramerR_ok hms hst trussR_bars h h' hσ hσ'
  exact ⟨res, res', σ, h, h', hσ, this ▸ hσ'⟩

/-- Case for C174: a solver which errs by little gives the stresses of the truss of two bars within a thousandth. -/
example : ∃ η > 0, ∃ ms, Members Real.sqrt trussR ms ∧ ∀ sp res σ res' σ',
    Gui.solidsAuto Real.sqrt sp cramerR trussR false = .ok res → Gui.solidsAuto Real.sqrt cramerR cramerR trussR false = .ok res' →
    SolverWithin η sp → Post.stressTruss Real.sqrt trussR.nodes trussR.elements trussR.mats res.disp = .ok σ →
    Post.stressTruss Real.sqrt trussR.nodes trussR.elements trussR.mats res'.disp = .ok σ' →
    ∃ x x', σ[0]? = some x ∧ σ'[0]? = some x' ∧ |x - x'| ≤ 1 / 1000 := by
  obtain ⟨ms, hms⟩ := truss_members sqrtFn_real trussR_bars
  have hst := trussR_stable hms
  obtain ⟨c, hc, hb⟩ := C174_solver sqrtFn_real trussR_wf hms hst trussR_bars
  refine ⟨1 / 1000 / (c + 1), by positivity, ms, hms, fun sp res σ res' σ' h h' hw hσ hσ' => ?_⟩
  obtain ⟨x, x', e, e', hx⟩ := hb sp cramerR cramerR cramerR trussR.loads (1 / 1000 / (c + 1)) false false res res' σ σ' cramerR_ok
    (by positivity) h h' (C162_residual trussR_wf hw hms hst h) hσ hσ' ⟨0, by simp [trussBars]⟩
  refine ⟨x, x', e, e', hx.trans ?_⟩
  rw [mul_div_assoc', div_le_iff₀ (by positivity)]
  nlinarith

end demo

end SolidsPy
