import Verif.Props.Continuity
import Verif.Props.FrameWork
import Verif.Props.Compare

/-! # C168: the natural frequencies depend continuously on coordinates and materials -/

set_option linter.unusedSectionVars false

namespace SolidsPy
open Filter Topology
open Spec Fem Uel Assem Matrix Gauss

/-! ## Pairs of matrices -/

section
variable {N : ℕ} {K M K' M' : Matrix (Fin N) (Fin N) ℝ} {w w' : Fin N → ℝ} {φ φ' : Fin N → Fin N → ℝ}

/-- A form is bounded by the mass. -/
theorem form_le_mass (h : Modes K M w φ) (A : Matrix (Fin N) (Fin N) ℝ) (x : Fin N → ℝ) :
    |x ⬝ᵥ A.mulVec x| ≤ (∑ k, ∑ l, |φ k ⬝ᵥ A.mulVec (φ l)|) * (x ⬝ᵥ M.mulVec x) := by
  set y : Fin N → ℝ := fun k => φ k ⬝ᵥ M.mulVec x with hy
  have hq : x ⬝ᵥ M.mulVec x = ∑ k, y k ^ 2 := h.form_mass x
  have hx : x = ∑ k, y k • φ k := h.expand x
  have e : x ⬝ᵥ A.mulVec x = ∑ k, ∑ l, y k * y l * (φ k ⬝ᵥ A.mulVec (φ l)) := by
    conv_lhs => rw [hx]
    rw [Matrix.mulVec_sum, sum_dotProduct]
    refine Finset.sum_congr rfl fun k _ => ?_
    rw [dotProduct_sum]
    refine Finset.sum_congr rfl fun l _ => ?_
    rw [Matrix.mulVec_smul, smul_dotProduct, dotProduct_smul, smul_eq_mul, smul_eq_mul]
    ring
  have hle : ∀ k, y k ^ 2 ≤ ∑ k, y k ^ 2 := fun k => Finset.single_le_sum (f := fun k => y k ^ 2) (fun _ _ => sq_nonneg _) (Finset.mem_univ k)
  rw [e, hq, Finset.sum_mul]
  refine (Finset.abs_sum_le_sum_abs _ _).trans (Finset.sum_le_sum fun k _ => ?_)
  rw [Finset.sum_mul]
  refine (Finset.abs_sum_le_sum_abs _ _).trans (Finset.sum_le_sum fun l _ => ?_)
  rw [abs_mul, mul_comm]
  refine mul_le_mul_of_nonneg_left ?_ (abs_nonneg _)
  have h1 := hle k
  have h2 := hle l
  rw [abs_le]
  constructor <;> nlinarith [sq_nonneg (y k + y l), sq_nonneg (y k - y l)]

theorem mass_form_nonneg (h : Modes K M w φ) (x : Fin N → ℝ) : 0 ≤ x ⬝ᵥ M.mulVec x := by
  rw [h.form_mass]
  exact Finset.sum_nonneg fun _ _ => sq_nonneg _

/-- If the energies of springs and of masses change by no more than the fraction `ε` of the kinetic energy, no squared frequency changes
by more than `2 ε (1 + |w|)`. -/
theorem frequencies_close (h : Modes K M w φ) (hM : M.IsSymm) (h' : Modes K' M' w' φ') (hM' : M'.IsSymm) {ε : ℝ} (h0 : 0 ≤ ε) (h1 : ε ≤ 1 / 2)
    (hK : ∀ x, |x ⬝ᵥ K'.mulVec x - x ⬝ᵥ K.mulVec x| ≤ ε * (x ⬝ᵥ M.mulVec x))
    (hm : ∀ x, |x ⬝ᵥ M'.mulVec x - x ⬝ᵥ M.mulVec x| ≤ ε * (x ⬝ᵥ M.mulVec x)) (k : Fin N) : |w' k - w k| ≤ 2 * ε * (1 + |w k|) := by
  have up : w' k ≤ w k + 2 * ε * (1 + |w k|) := by
    obtain ⟨u, hu, hb⟩ := (h.minmax hM k _).1 le_rfl
    refine (h'.minmax hM' k _).2 ⟨u, hu, fun c => ?_⟩
    have b := hb c
    have q := mass_form_nonneg h (∑ a, c a • u a)
    have a1 := abs_le.1 (hK (∑ a, c a • u a))
    have a2 := abs_le.1 (hm (∑ a, c a • u a))
    generalize (∑ a, c a • u a) ⬝ᵥ K.mulVec (∑ a, c a • u a) = A at *
    generalize (∑ a, c a • u a) ⬝ᵥ M.mulVec (∑ a, c a • u a) = q0 at *
    generalize (∑ a, c a • u a) ⬝ᵥ K'.mulVec (∑ a, c a • u a) = A' at *
    generalize (∑ a, c a • u a) ⬝ᵥ M'.mulVec (∑ a, c a • u a) = q' at *
    have half : q0 / 2 ≤ q' := by nlinarith
    have g1 : w k * q0 - |w k| * (ε * q0) ≤ w k * q' := by
      rcases le_total 0 (w k) with hw | hw
      · rw [abs_of_nonneg hw]
        nlinarith
      · rw [abs_of_nonpos hw]
        nlinarith
    have g2 : 2 * ε * (1 + |w k|) * (q0 / 2) ≤ 2 * ε * (1 + |w k|) * q' :=
      mul_le_mul_of_nonneg_left half (by positivity)
    have : (w k + 2 * ε * (1 + |w k|)) * q' = w k * q' + 2 * ε * (1 + |w k|) * q' := by ring
    rw [this]
    nlinarith
  have down : w k ≤ w' k + ε * (1 + |w' k|) := by
    obtain ⟨u, hu, hb⟩ := (h'.minmax hM' k _).1 le_rfl
    refine (h.minmax hM k _).2 ⟨u, hu, fun c => ?_⟩
    have b := hb c
    have q := mass_form_nonneg h (∑ a, c a • u a)
    have a1 := abs_le.1 (hK (∑ a, c a • u a))
    have a2 := abs_le.1 (hm (∑ a, c a • u a))
    generalize (∑ a, c a • u a) ⬝ᵥ K.mulVec (∑ a, c a • u a) = A at *
    generalize (∑ a, c a • u a) ⬝ᵥ M.mulVec (∑ a, c a • u a) = q0 at *
    generalize (∑ a, c a • u a) ⬝ᵥ K'.mulVec (∑ a, c a • u a) = A' at *
    generalize (∑ a, c a • u a) ⬝ᵥ M'.mulVec (∑ a, c a • u a) = q' at *
    have g1 : w' k * q' ≤ w' k * q0 + |w' k| * (ε * q0) := by
      rcases le_total 0 (w' k) with hw | hw
      · rw [abs_of_nonneg hw]
        nlinarith
      · rw [abs_of_nonpos hw]
        nlinarith
    nlinarith
  rw [abs_le]
  refine ⟨?_, by linarith⟩
  have h2 : |w' k| ≤ |w k| + |w' k - w k| := by
    have := abs_add_le (w k) (w' k - w k)
    simpa using this
  rcases le_total (w k) (w' k) with hh | hh
  · have : 0 ≤ 2 * ε * (1 + |w k|) := by positivity
    linarith
  · rw [abs_of_nonpos (by linarith : w' k - w k ≤ 0)] at h2
    have : ε * |w' k| ≤ ε * (|w k| + (w k - w' k)) := mul_le_mul_of_nonneg_left (by linarith) h0
    have hd : 0 ≤ w k - w' k := by linarith
    nlinarith [mul_le_mul_of_nonneg_right h1 hd, abs_nonneg (w k), mul_nonneg h0 (abs_nonneg (w k))]

theorem frequencies_tendsto {ι : Type} {l : Filter ι} {A B : ι → Matrix (Fin N) (Fin N) ℝ} {wi : ι → Fin N → ℝ} (hA : Tendsto A l (𝓝 K))
    (hB : Tendsto B l (𝓝 M)) (h : Modes K M w φ) (hM : M.IsSymm)
    (hi : ∀ᶠ i in l, (B i).IsSymm ∧ ∃ φ, Modes (A i) (B i) (wi i) φ) (k : Fin N) : Tendsto (fun i => wi i k) l (𝓝 (w k)) := by
  let S : Matrix (Fin N) (Fin N) ℝ → ℝ := fun A => ∑ k, ∑ l, |φ k ⬝ᵥ A.mulVec (φ l)|
  have hS : Continuous S := by
    refine continuous_finsetSum _ fun k _ => continuous_finsetSum _ fun l _ => Continuous.abs ?_
    unfold Matrix.mulVec dotProduct
    fun_prop
  have S0 : S 0 = 0 := by simp [S]
  have t : ∀ {A : ι → Matrix (Fin N) (Fin N) ℝ} {A0}, Tendsto A l (𝓝 A0) → Tendsto (fun i => S (A i - A0)) l (𝓝 0) := fun {A A0} hA => by
    have h1 : Tendsto (fun i => A i - A0) l (𝓝 0) := by
      have := hA.sub_const A0
      rwa [sub_self] at this
    rw [← S0]
    exact (hS.tendsto 0).comp h1
  have tε : Tendsto (fun i => S (A i - K) + S (B i - M)) l (𝓝 0) := by simpa using (t hA).add (t hB)
  have S_nonneg : ∀ A, 0 ≤ S A := fun A => Finset.sum_nonneg fun _ _ => Finset.sum_nonneg fun _ _ => abs_nonneg _
  have bound : ∀ (A A0 : Matrix (Fin N) (Fin N) ℝ) (ε : ℝ), S (A - A0) ≤ ε → ∀ x, |x ⬝ᵥ A.mulVec x - x ⬝ᵥ A0.mulVec x| ≤
      ε * (x ⬝ᵥ M.mulVec x) := fun A A0 ε hε x => by
    rw [← dotProduct_sub, ← Matrix.sub_mulVec]
    exact (form_le_mass h (A - A0) x).trans (mul_le_mul_of_nonneg_right hε (mass_form_nonneg h x))
  rw [tendsto_iff_dist_tendsto_zero]
  have t2 : Tendsto (fun i => 2 * (S (A i - K) + S (B i - M)) * (1 + |w k|)) l (𝓝 0) := by
    simpa using (tε.const_mul 2).mul_const (1 + |w k|)
  refine squeeze_zero' (Eventually.of_forall fun _ => dist_nonneg) ?_ t2
  filter_upwards [hi, tε.eventually (gt_mem_nhds (by norm_num : (0 : ℝ) < 1 / 2))] with i ⟨h1, φi, h2⟩ h3
  rw [Real.dist_eq]
  exact frequencies_close h hM h2 h1 (add_nonneg (S_nonneg _) (S_nonneg _)) h3.le
    (bound _ _ _ (le_add_of_nonneg_right (S_nonneg _))) (bound _ _ _ (le_add_of_nonneg_left (S_nonneg _))) k

end

/-! ## Assembled pairs -/

section
variable {ι : Type} {l : Filter ι} {d n nd neq : ℕ} {fn fn' : ℤ → Uel ℝ → Prop} {elements : List (List ℤ)} {nodes mats : ι → Table ℝ}
  {nodes0 mats0 cons : Table ℝ}

theorem members_unique_of {mats nodes : Table ℝ} {ms ms' : List (Member ℝ)} (hfn : ∀ ty f f', fn ty f → fn ty f' → f = f')
    (h : List.Forall₂ (IsMember fn mats nodes) elements ms) (h' : List.Forall₂ (IsMember fn mats nodes) elements ms') : ms = ms' := by
  induction h generalizing ms' with
  | nil => cases h'; rfl
  | cons a _ ih =>
    cases h' with
    | cons b t => rw [isMember_unique_of hfn a b, ih t]

/-- The assembled matrix follows coordinates and materials. -/
theorem assembled_tendsto (hfn : ∀ ty f f', fn ty f → fn ty f' → f = f') (hN : TableTends l nodes nodes0) (hM : TableTends l mats mats0)
    (hn : ∀ r ∈ nodes0, r.length = d + 1)
    (hc : ∀ el ∈ elements, ∀ ty f, el[1]? = some ty → fn ty f → ContinuousElement d (el.drop 3).length f)
    {bc : List (List ℤ)} {K0 : Matrix (Fin neq) (Fin neq) ℝ} {ms0 : List (Member ℝ)} (s0 : Setup fn cons elements mats0 nodes0 nd neq bc K0 ms0)
    {A : ι → Matrix (Fin neq) (Fin neq) ℝ} (hA : ∀ᶠ i in l, ∃ bc' ms, Setup fn cons elements (mats i) (nodes i) nd neq bc' (A i) ms) :
    Tendsto A l (𝓝 K0) := by
  obtain ⟨ms, h1, h2⟩ := members_tends (nd := nd) hN hM hn hc s0.mem
  obtain ⟨B, hB, hB'⟩ := setups_tendsto (mats := mats) (nodes := nodes) s0 h2
  refine hB.congr' ?_
  filter_upwards [hA, h1] with i ⟨bc', ms', s⟩ hi
  obtain rfl := members_unique_of hfn hi s.mem
  have e := s.eq
  rw [s0.eq, Except.ok.injEq, Prod.mk.injEq] at e
  obtain ⟨-, rfl⟩ := e
  exact (hB' i _ s).symm

theorem setups_frequencies (hfn : ∀ ty f f', fn ty f → fn ty f' → f = f') (hfn' : ∀ ty f f', fn' ty f → fn' ty f' → f = f')
    (hN : TableTends l nodes nodes0) (hM : TableTends l mats mats0) (hn : ∀ r ∈ nodes0, r.length = d + 1)
    (hc : ∀ el ∈ elements, ∀ ty f, el[1]? = some ty → fn ty f → ContinuousElement d (el.drop 3).length f)
    (hc' : ∀ el ∈ elements, ∀ ty f, el[1]? = some ty → fn' ty f → ContinuousElement d (el.drop 3).length f)
    {bc : List (List ℤ)} {K0 M0 : Matrix (Fin neq) (Fin neq) ℝ} {ks0 μs0 : List (Member ℝ)}
    (s0 : Setup fn cons elements mats0 nodes0 nd neq bc K0 ks0) (s0' : Setup fn' cons elements mats0 nodes0 nd neq bc M0 μs0)
    {w0 φ0} (hm : Modes K0 M0 w0 φ0) (hsym : M0.IsSymm) {w : ι → Fin neq → ℝ}
    (h : ∀ᶠ i in l, ∃ A B ks μs φ bc', Setup fn cons elements (mats i) (nodes i) nd neq bc' A ks ∧
      Setup fn' cons elements (mats i) (nodes i) nd neq bc' B μs ∧ B.IsSymm ∧ Modes A B (w i) φ) (k : Fin neq) :
    Tendsto (fun i => w i k) l (𝓝 (w0 k)) := by
  classical
  let P : ι → Matrix (Fin neq) (Fin neq) ℝ × Matrix (Fin neq) (Fin neq) ℝ → Prop := fun i AB => ∃ ks μs φ bc',
    Setup fn cons elements (mats i) (nodes i) nd neq bc' AB.1 ks ∧ Setup fn' cons elements (mats i) (nodes i) nd neq bc' AB.2 μs ∧
      AB.2.IsSymm ∧ Modes AB.1 AB.2 (w i) φ
  let AB : ι → Matrix (Fin neq) (Fin neq) ℝ × Matrix (Fin neq) (Fin neq) ℝ := fun i => if hi : ∃ AB, P i AB then hi.choose else 0
  have hAB : ∀ᶠ i in l, P i (AB i) := by
    filter_upwards [h] with i ⟨A, B, ks, μs, φ, bc', h1⟩
    have hi : ∃ AB, P i AB := ⟨(A, B), ks, μs, φ, bc', h1⟩
    simp only [AB, dif_pos hi]
    exact hi.choose_spec
  clear_value AB
  refine frequencies_tendsto (A := fun i => (AB i).1) (B := fun i => (AB i).2)
    (assembled_tendsto hfn hN hM hn hc s0 (hAB.mono fun i ⟨ks, μs, φ, bc', h1, _⟩ => ⟨bc', ks, h1⟩))
    (assembled_tendsto hfn' hN hM hn hc' s0' (hAB.mono fun i ⟨ks, μs, φ, bc', _, h1, _⟩ => ⟨bc', μs, h1⟩)) hm hsym
    (hAB.mono fun i ⟨ks, μs, φ, bc', _, _, h1, h2⟩ => ⟨h1, φ, h2⟩) k

theorem ContinuousElement.swapped {f : Uel ℝ} (h : ContinuousElement d n f) : ContinuousElement d n (swapped f) := by
  intro ι l X X0 par par0 k0 m0 hX hpar h1
  obtain ⟨k, m, a1, a2, a3⟩ := h hX hpar (swapped_ok.1 h1)
  exact ⟨m, k, a1.mono fun i hi => swapped_ok.2 hi, a3, a2⟩

/-- C168.  Frequencies of models of the user's elements near a given model. -/
theorem C168_user {f : Uel ℝ} {tab : ℤ → Py (Uel ℝ)} {tab' : ι → ℤ → Py (Uel ℝ)} {m : ℕ} {count : ℤ → Py ℕ}
    {K0 M0 : Matrix (Fin neq) (Fin neq) ℝ} {ks0 μs0 : List (Member ℝ)}
    (h0 : UserVibration tab nd n m f count cons elements mats0 nodes0 ks0 μs0 K0 M0) (hcf : ContinuousElement d n f)
    (hn : ∀ r ∈ nodes0, r.length = d + 1) (hN : TableTends l nodes nodes0) (hM : TableTends l mats mats0) {w0 φ0} (hm : Modes K0 M0 w0 φ0)
    {w : ι → Fin neq → ℝ} (h : ∀ᶠ i in l, ∃ (A B : Matrix (Fin neq) (Fin neq) ℝ) (ks μs : _) (φ : _),
      UserVibration (tab' i) nd n m f count cons elements (mats i) (nodes i) ks μs A B ∧ Modes A B (w i) φ) (k : Fin neq) :
    Tendsto (fun i => w i k) l (𝓝 (w0 k)) := by
  obtain ⟨bc, s0, s0'⟩ := h0.setups
  refine setups_frequencies (fun _ _ _ a b => a.trans b.symm) (fun _ _ _ a b => a.trans b.symm) hN hM hn ?_ ?_ s0 s0' hm h0.mass.2.1 ?_ k
  · rintro el hel ty g - rfl
    rw [h0.model.typed el hel]
    exact hcf
  · rintro el hel ty g - rfl
    rw [h0.model.typed el hel]
    exact ContinuousElement.swapped hcf
  · filter_upwards [h] with i ⟨A, B, ks, μs, φ, h1, h2⟩
    obtain ⟨bc', s, s'⟩ := h1.setups
    exact ⟨A, B, ks, μs, φ, bc', s, s', h1.mass.2.1, h2⟩

/-! ## Models near one that vibrates -/

theorem Spec.TableTends.rows {t : ι → Table ℝ} {t0 : Table ℝ} (h : TableTends l t t0) {q : ℕ} {r0 : List ℝ} (h0 : t0[q]? = some r0) :
    ∃ r : ι → List ℝ, (∀ i, (t i)[q]? = some (r i)) ∧ RowTends l r r0 := by
  choose r hr hl using fun i => h.row h0 i
  refine ⟨r, hr, hl, fun k => ?_⟩
  have := h.tends q k
  unfold fieldOf entry at this
  simpa [hr, h0] using this

/-- Positive densities stay positive. -/
theorem density_near {r : ι → List ℝ} {a b : ℝ} {rest : List ℝ} (h : RowTends l r (a :: b :: rest)) (hρ : ∀ ρ ∈ rest.getLast?, 0 < ρ) :
    ∃ (a' b' : ι → ℝ) (rest' : ι → List ℝ), (∀ i, r i = a' i :: b' i :: rest' i) ∧ Tendsto a' l (𝓝 a) ∧ Tendsto b' l (𝓝 b) ∧
      ∀ᶠ i in l, ∀ ρ ∈ (rest' i).getLast?, 0 < ρ := by
  have : ∀ i, ∃ a' b' rest', r i = a' :: b' :: rest' ∧ rest'.length = rest.length := fun i => by
    have hl := h.shape i
    match r i, hl with
    | a' :: b' :: rest', hl => exact ⟨a', b', rest', rfl, by simpa using hl⟩
  choose a' b' rest' h1 h2 using this
  refine ⟨a', b', rest', h1, ?_, ?_, ?_⟩
  · simpa [h1] using h.tends 0
  · simpa [h1] using h.tends 1
  · rcases List.eq_nil_or_concat rest with rfl | ⟨t, x, rfl⟩
    · refine Eventually.of_forall fun i ρ hr => ?_
      rw [List.length_eq_zero_iff.1 (h2 i)] at hr
      cases hr
    · rw [List.concat_eq_append] at h hρ h2
      have h3 := h.tends (t.length + 2)
      have hx : 0 < x := hρ x (by simp)
      have e : (a :: b :: (t ++ [x])).getD (t.length + 2) 0 = x := by simp [List.getD]
      rw [e] at h3
      filter_upwards [h3.eventually (lt_mem_nhds hx)] with i hi ρ hr
      have h4 := h2 i
      rw [List.getLast?_eq_getElem?, h4] at hr
      rw [h1 i] at hi
      have : (t ++ [x]).length - 1 = t.length := by simp
      rw [this] at hr
      rw [List.getD_cons_succ, List.getD_cons_succ, List.getD_eq_getElem?_getD, Option.mem_def.1 hr] at hi
      exact hi

theorem eventually_els {P : List ℤ → ι → Prop} {els : List (List ℤ)} (h : ∀ el ∈ els, ∀ᶠ i in l, P el i) : ∀ᶠ i in l, ∀ el ∈ els, P el i := by
  have := (Filter.eventually_all_finset (l := l) (p := fun el i => P el i) els.toFinset).2 fun el hel => h el (List.mem_toFinset.1 hel)
  filter_upwards [this] with i hi el hel
  exact hi el (List.mem_toFinset.2 hel)

/-- C168.  Near a model of positive mass every model has positive mass. -/
theorem massive_near {D : ι → Gui.Data ℝ} {D0 : Gui.Data ℝ} (h : ModelTends l D D0) (h0 : Massive D0) : ∀ᶠ i in l, Massive (D i) := by
  have : ∀ᶠ i in l, ∀ el ∈ D0.elements, HeavyBar (D i) el ∨ Heavy { D i with elements := [el] } := by
    refine eventually_els fun el hel => ?_
    rcases h0 el hel with ⟨a1, a2, mi, q, E, A, rest, a3, a4, a5, a6, a7⟩ | hh
    · obtain ⟨r, hr, ht⟩ := h.mats.rows a5
      obtain ⟨E', A', rest', e1, e2, e3, e4⟩ := density_near ht a7
      filter_upwards [e4, e3.eventually (lt_mem_nhds a6)] with i h4 h3
      exact .inl ⟨a1, a2, mi, q, E' i, A' i, rest' i, a3, by rw [h.mats.length i]; exact a4, by rw [hr, e1], h3, h4⟩
    · obtain ⟨ty, mi, q, E, nu, rest, a1, a2, a3, a4, a5, a6⟩ := hh el (List.mem_singleton.2 rfl)
      obtain ⟨r, hr, ht⟩ := h.mats.rows a5
      obtain ⟨E', A', rest', e1, e2, e3, e4⟩ := density_near ht a6
      filter_upwards [e4] with i h4
      refine .inr fun el' hel' => ?_
      obtain rfl := List.mem_singleton.1 hel'
      exact ⟨ty, mi, q, E' i, A' i, rest' i, a1, a2, a3, by show Resolves (D i).mats.length mi q; rw [h.mats.length i]; exact a4,
        by show (D i).mats[q]? = _; rw [hr, e1], h4⟩
  filter_upwards [this] with i hi el hel
  rw [h.elements i] at hel
  exact hi el hel

theorem heavyMats_near (hM : TableTends l mats mats0) (h0 : HeavyMats mats0 elements) : ∀ᶠ i in l, HeavyMats (mats i) elements := by
  refine eventually_els fun el hel => ?_
  by_cases hx : ∃ mi q params, el[2]? = some mi ∧ Resolves mats0.length mi q ∧ mats0[q]? = some params
  · obtain ⟨mi, q, params, a1, a2, a3⟩ := hx
    obtain ⟨E, nu, ρ, rfl, hρ⟩ := h0 el hel mi q params a1 a2 a3
    obtain ⟨r, hr, ht⟩ := hM.rows a3
    have h2 : Tendsto (fun i => (r i).getD 2 0) l (𝓝 ρ) := ht.tends 2
    filter_upwards [h2.eventually (lt_mem_nhds hρ)] with i hi mi' q' params' b1 b2 b3
    rw [a1, Option.some.injEq] at b1
    subst b1
    rw [hM.length i] at b2
    obtain rfl := resolves_unique a2 b2
    rw [hr, Option.some.injEq] at b3
    subst b3
    have hl := ht.shape i
    match r i, hl, hi with
    | [a, b, c], _, hi => exact ⟨a, b, c, rfl, hi⟩
  · refine Eventually.of_forall fun i mi q params b1 b2 b3 => ?_
    rw [hM.length i] at b2
    have hq : q < mats0.length := by
      rw [← hM.length i]
      exact (List.getElem?_eq_some_iff.1 b3).1
    exact absurd ⟨mi, q, _, b1, b2, List.getElem?_eq_getElem hq⟩ hx

end

/-! ## Plane models -/

section
variable {ι : Type} {l : Filter ι} {n neq : ℕ}

theorem tendsto_cells4 {M : ι → Matrix (Fin 4) (Fin 4) ℝ} {M0 : Matrix (Fin 4) (Fin 4) ℝ} (h : Tendsto M l (𝓝 M0)) (r c : ℕ) :
    Tendsto (fun i => cell (NdArr.mat 4 4 (M i)) r c) l (𝓝 (cell (NdArr.mat 4 4 M0) r c)) := by
  simp only [cell]
  split
  · exact tendsto_pi_nhds.1 (tendsto_pi_nhds.1 h _) _
  · exact tendsto_const_nhds

theorem continuous_trussStiff : Continuous fun p : ℝ × ℝ × ℝ => trussStiff p.1 p.2.1 p.2.2 := by
  have hQ : Continuous fun p : ℝ × ℝ × ℝ => barQ p.1 p.2.1 := by
    refine continuous_matrix fun a b => ?_
    fin_cases a <;> fin_cases b <;> simp [barQ] <;> fun_prop
  have hC : Continuous fun p : ℝ × ℝ × ℝ => p.2.2 • (!![1, -1; -1, 1] : Matrix (Fin 2) (Fin 2) ℝ) := by
    refine continuous_matrix fun a b => ?_
    fin_cases a <;> fin_cases b <;> simp <;> fun_prop
  unfold trussStiff
  exact (hQ.matrix_transpose.matrix_mul hC).matrix_mul hQ

theorem continuous_trussMass : Continuous (trussMass : ℝ → Matrix (Fin 4) (Fin 4) ℝ) := by
  refine continuous_matrix fun a b => ?_
  fin_cases a <;> fin_cases b <;> simp [trussMass] <;> fun_prop

theorem density_tendsto {r : ι → List ℝ} {a b : ℝ} {a' b' : ι → ℝ} {rest : List ℝ} {rest' : ι → List ℝ} (h : RowTends l r (a :: b :: rest))
    (hr : ∀ i, r i = a' i :: b' i :: rest' i) : Tendsto (fun i => density (rest' i)) l (𝓝 (density rest)) := by
  have hl : ∀ i, (rest' i).length = rest.length := fun i => by simpa [hr] using h.shape i
  have e : ∀ (r : List ℝ) (a b : ℝ), density r = if r.length = 0 then 1 else (a :: b :: r).getD (r.length - 1 + 2) 0 := fun r a b => by
    unfold density
    rcases List.eq_nil_or_concat r with rfl | ⟨t, x, rfl⟩
    · rfl
    · simp
  rw [e rest a b]
  by_cases h0 : rest.length = 0
  · rw [if_pos h0]
    refine tendsto_const_nhds.congr fun i => ?_
    rw [e _ 0 0, if_pos (by rw [hl i]; exact h0)]
  · rw [if_neg h0]
    refine (h.tends (rest.length - 1 + 2)).congr fun i => ?_
    rw [e _ (a' i) (b' i), if_neg (by rw [hl i]; exact h0), hr i, hl i]

/-- C168.  Stiffness and mass of a bar depend continuously on its ends and its material. -/
theorem C168_truss : ContinuousElement 2 2 (truss2D Real.sqrt) := by
  intro ι l X X0 par par0 k0 m0 hX hpar h1
  obtain ⟨hne, E, A, rest, rfl⟩ := (truss_returns_iff sqrtFn_real).1 ⟨_, h1⟩
  obtain ⟨L, L0, hL0, hL, hLt, hc, hs⟩ := bar_tendsto hX hne
  have : ∀ i, ∃ a' b' rest', par i = a' :: b' :: rest' := fun i => by
    have hl := hpar.shape i
    match par i, hl with
    | a' :: b' :: rest', _ => exact ⟨a', b', rest', rfl⟩
  choose E' A' rest' hp using this
  have hE : Tendsto E' l (𝓝 E) := by simpa [hp] using hpar.tends 0
  have hA : Tendsto A' l (𝓝 A) := by simpa [hp] using hpar.tends 1
  have hρ := density_tendsto hpar hp
  have e0 := truss_ok sqrtFn_real hL0 E A rest
  rw [h1, Except.ok.injEq] at e0
  obtain ⟨e1, e2⟩ := Prod.mk.inj e0
  rw [e1, e2]
  have t1 := tendsto_along continuous_trussStiff (hc.prodMk_nhds (hs.prodMk_nhds ((hA.mul hE).div hLt hL0.1.ne')))
  have t2 := tendsto_along continuous_trussMass ((hA.mul hLt).mul hρ)
  refine ⟨fun i => NdArr.mat 4 4 (trussStiff ((X i 1 0 - X i 0 0) / L i) ((X i 1 1 - X i 0 1) / L i) (A' i * E' i / L i)),
    fun i => NdArr.mat 4 4 (trussMass (A' i * L i * density (rest' i))), ?_, tendsto_cells4 t1, tendsto_cells4 t2⟩
  filter_upwards [hL] with i hi
  rw [hp i]
  exact truss_ok sqrtFn_real hi _ _ _

theorem plane_any {f : Uel ℝ} {n' : ℕ} (hf : PlaneElement n' f) : ContinuousElement 2 n f := by
  intro ι l X X0 par par0 k0 m0 hX hpar h1
  obtain ⟨Y, k, m, hY, -⟩ := C38_plane_shape hf h1
  have := congrArg List.length hY
  simp only [matRows, List.length_ofFn] at this
  subst this
  exact C167_plane hf hX hpar h1

theorem plane_routine {f : Uel ℝ} {el : List ℤ} {ty : ℤ} (h : ty ∈ [(1 : ℤ), 2, 3, 4] ∨ (ty = 6 ∧ (el.drop 3).length = 2))
    (hfn : Uel.eleFun Real.sqrt ty = .ok f) : ContinuousElement 2 (el.drop 3).length f := by
  rcases h with h | ⟨rfl, h⟩
  · simp only [List.mem_cons, List.not_mem_nil, or_false] at h
    rcases h with rfl | rfl | rfl | rfl <;> simp only [Uel.eleFun, Except.ok.injEq] at hfn <;> subst hfn
    · exact plane_any .quad4
    · exact plane_any .tri6
    · exact plane_any .tri3
    · exact plane_any .quad9
  · rw [h]
    simp only [Uel.eleFun, Except.ok.injEq] at hfn
    subst hfn
    exact C168_truss

/-- C168.  Frequencies of plane models near a given model: all near models vibrate with as many modes, and whatever their squared
frequencies, these tend to those of the given model. -/
theorem C168_plane {D : ι → Gui.Data ℝ} {D0 : Gui.Data ℝ} (h : ModelTends l D D0) {K0 M0 : Matrix (Fin neq) (Fin neq) ℝ} {ks0 μs0 : List (Member ℝ)}
    (h0 : Vibrating Real.sqrt D0 ks0 μs0 K0 M0) {w0 φ0} (hm : Modes K0 M0 w0 φ0) :
    (∀ᶠ i in l, ∃ (A B : Matrix (Fin neq) (Fin neq) ℝ) (ks μs : _) (w : _) (φ : _), Vibrating Real.sqrt (D i) ks μs A B ∧ Modes A B w φ) ∧
    ∀ w : ι → Fin neq → ℝ, (∀ᶠ i in l, ∃ (A B : Matrix (Fin neq) (Fin neq) ℝ) (ks μs : _) (φ : _),
      Vibrating Real.sqrt (D i) ks μs A B ∧ Modes A B (w i) φ) → ∀ k, Tendsto (fun i => w i k) l (𝓝 (w0 k)) := by
  obtain ⟨bc, s0, s0'⟩ := h0.setups
  have key : ∀ el ∈ D0.elements, ∀ ty f, el[1]? = some ty → Uel.eleFun Real.sqrt ty = .ok f → ContinuousElement 2 (el.drop 3).length f :=
    fun el hel ty f hty hfn => plane_routine (h0.plane.types el hel ty hty) hfn
  constructor
  · obtain ⟨ks, h1, -⟩ := members_tends (fn := Routine Real.sqrt) (nd := 2) h.nodes h.mats h0.plane.nodes key h0.springs
    filter_upwards [h1, massive_near h h0.massive] with i h2 h3
    have hpi : PlaneModel (D i) := ⟨tends_widths h.nodes h0.plane.nodes i, fun el hel => by
      rw [h.elements i] at hel
      exact h0.plane.types el hel⟩
    have hwfi : WellFormed (D i) := ⟨by rw [h.cons i]; exact h0.wf.codes, by rw [h.cons i]; exact h0.wf.width,
      by rw [h.cons i, h.nodes.length i]; exact h0.wf.size⟩
    have hmi : Members Real.sqrt (D i) (ks i) := by
      unfold Members
      rw [h.elements i]
      exact h2
    obtain ⟨neq', A, B, μs, hv⟩ := exists_vibrating hpi hwfi hmi h3 (fun p j hf => by
      rw [h.cons i] at hf
      rw [h.elements i, h.nodes.length i]
      exact h0.used p j hf)
    obtain ⟨op, bc', c1, c2⟩ := h0.run
    have hv' := hv
    obtain ⟨op', bc'', d1, d2⟩ := hv.run
    rw [h.cons i, h.elements i, c1, Except.ok.injEq, Prod.mk.injEq, Prod.mk.injEq] at d1
    obtain ⟨rfl, rfl, rfl⟩ := d1
    obtain ⟨w, φ, hw, -⟩ := C119_modes sqrtFn_real hv
    exact ⟨A, B, ks i, μs, w, φ, hv, hw⟩
  · intro w hw k
    refine setups_frequencies (d := 2) (fn := Routine Real.sqrt) (fn' := MassRoutine Real.sqrt) (fun _ _ _ a b => Except.ok.inj (a.symm.trans b))
      (fun _ _ _ a b => ?_) h.nodes h.mats h0.plane.nodes key ?_ s0 s0' hm (h0.mass sqrtFn_real).1 ?_ k
    · obtain ⟨f0, a1, rfl⟩ := a
      obtain ⟨f1, b1, rfl⟩ := b
      rw [Except.ok.inj (a1.symm.trans b1)]
    · rintro el hel ty g hty ⟨f0, hf0, rfl⟩
      exact ContinuousElement.swapped (key el hel ty f0 hty hf0)
    · filter_upwards [hw] with i ⟨A, B, ks, μs, φ, h1, h2⟩
      obtain ⟨bc', s, s'⟩ := h1.setups
      rw [h.cons i, h.elements i] at s s'
      exact ⟨A, B, ks, μs, φ, bc', s, s', (h1.mass sqrtFn_real).1, h2⟩

/-- C168.  For every tolerance there is a precision of coordinates and materials that suffices: all plane models within it vibrate with as
many modes, and their squared frequencies differ by less than the tolerance. -/
theorem C168_precision {D0 : Gui.Data ℝ} {K0 M0 : Matrix (Fin neq) (Fin neq) ℝ} {ks0 μs0 : List (Member ℝ)}
    (h0 : Vibrating Real.sqrt D0 ks0 μs0 K0 M0) {w0 φ0} (hm : Modes K0 M0 w0 φ0) {ε : ℝ} (hε : 0 < ε) :
    ∃ δ > 0, ∀ D, ModelNear δ D D0 → ∃ (A B : Matrix (Fin neq) (Fin neq) ℝ) (ks μs : _) (w : _) (φ : _),
      Vibrating Real.sqrt D ks μs A B ∧ Modes A B w φ ∧ ∀ k, |w k - w0 k| < ε := by
  by_contra hc
  push Not at hc
  choose D hd hbad using fun n : ℕ => hc (1 / ((n : ℝ) + 1)) (by positivity)
  have ht : ModelTends atTop D D0 := ⟨fun n => (hd n).elements, fun n => (hd n).cons, tableNear_tends fun n => (hd n).nodes,
    tableNear_tends fun n => (hd n).mats, tableNear_tends fun n => (hd n).loads, fun n => (hd n).loaded⟩
  obtain ⟨h1, h2⟩ := C168_plane ht h0 hm
  classical
  let P : ℕ → (Fin neq → ℝ) → Prop := fun i w => ∃ (A B : Matrix (Fin neq) (Fin neq) ℝ) (ks μs : _) (φ : _),
    Vibrating Real.sqrt (D i) ks μs A B ∧ Modes A B w φ
  let w : ℕ → Fin neq → ℝ := fun i => if hi : ∃ w, P i w then hi.choose else 0
  have hw : ∀ᶠ i in atTop, P i (w i) := by
    filter_upwards [h1] with i ⟨A, B, ks, μs, w', φ, a, b⟩
    have hi : ∃ w, P i w := ⟨w', A, B, ks, μs, φ, a, b⟩
    simp only [w, dif_pos hi]
    exact hi.choose_spec
  clear_value w
  have hall : ∀ᶠ i in atTop, ∀ k, |w i k - w0 k| < ε := by
    refine Filter.eventually_all.2 fun k => ?_
    filter_upwards [(tendsto_iff_dist_tendsto_zero.1 (h2 w hw k)).eventually (gt_mem_nhds hε)] with i hi
    rwa [Real.dist_eq] at hi
  obtain ⟨i, ⟨A, B, ks, μs, φ, a, b⟩, hi⟩ := (hw.and hall).exists
  obtain ⟨k, hk⟩ := hbad i A B ks μs (w i) φ a b
  exact absurd (hi k) (not_lt.2 hk)

/-- C168.  The same for the routines of `uelutil` that must be passed as `uel`. -/
theorem C168_library {nd m : ℕ} {f : Uel ℝ} (hf : Unlisted nd n f) {tab tab' : ℤ → Py (Uel ℝ)} {count : ℤ → Py ℕ} {cons : Table ℝ} {elements : List (List ℤ)}
    {nodes mats : ι → Table ℝ} {nodes0 mats0 : Table ℝ} {K0 M0 : Matrix (Fin neq) (Fin neq) ℝ} {ks0 μs0 : List (Member ℝ)}
    (h0 : UserVibration tab nd n m f count cons elements mats0 nodes0 ks0 μs0 K0 M0) (hh : HeavyMats mats0 elements)
    (hn : ∀ r ∈ nodes0, r.length = nd + 1) (hN : TableTends l nodes nodes0) (hM : TableTends l mats mats0) {w0 φ0} (hm : Modes K0 M0 w0 φ0) :
    ∃ w : ι → Fin neq → ℝ, (∀ᶠ i in l, ∃ (A B : Matrix (Fin neq) (Fin neq) ℝ) (ks μs : _) (φ : _),
      UserVibration tab' nd n m f count cons elements (mats i) (nodes i) ks μs A B ∧ Modes A B (w i) φ) ∧
    ∀ k, Tendsto (fun i => w i k) l (𝓝 (w0 k)) := by
  have hcf := C167_library hf
  obtain ⟨ks, h1, -⟩ := members_tends (nd := nd) (d := nd) (fn := fun _ g => g = f) hN hM hn (fun el hel ty g hty hfn => by
    subst hfn
    rw [h0.model.typed el hel]
    exact hcf) h0.springs
  classical
  let P : ι → (Fin neq → ℝ) → Prop := fun i w => ∃ (A B : Matrix (Fin neq) (Fin neq) ℝ) (ks μs : _) (φ : _),
    UserVibration tab' nd n m f count cons elements (mats i) (nodes i) ks μs A B ∧ Modes A B w φ
  have h2 : ∀ᶠ i in l, ∃ w, P i w := by
    filter_upwards [h1, heavyMats_near hM hh] with i h2 h3
    have hu := h0.model
    obtain ⟨neq', A, B, μs, hv⟩ := C157_vibrates (tab := tab') hf (⟨hu.codes, hu.width, by rw [hN.length i]; exact hu.size, hu.typed⟩ :
      UserModel nd n cons (nodes i) elements) h0.counts h0.room h2 h3 (fun p j hfr => by
        rw [hN.length i]
        exact h0.used p j hfr)
    obtain ⟨op, bc', sp, c1, c2⟩ := h0.run
    obtain ⟨op', bc'', sp', d1, d2⟩ := hv.run
    rw [c1, Except.ok.injEq, Prod.mk.injEq, Prod.mk.injEq] at d1
    obtain ⟨rfl, rfl, rfl⟩ := d1
    obtain ⟨w, φ, hw, -⟩ := C157_modes hv
    exact ⟨w, A, B, ks i, μs, φ, hv, hw⟩
  let w : ι → Fin neq → ℝ := fun i => if hi : ∃ w, P i w then hi.choose else 0
  have hw : ∀ᶠ i in l, P i (w i) := by
    filter_upwards [h2] with i hi
    simp only [w, dif_pos hi]
    exact hi.choose_spec
  exact ⟨w, hw, C168_user h0 hcf hn hN hM hm hw⟩

end

/-! ## Frames -/

section
variable {ι : Type} {l : Filter ι} {neq : ℕ} {elements : List (List ℤ)} {nodes mats : ι → Table ℝ} {nodes0 mats0 cons : Table ℝ}

theorem beamU_near {r : ι → List ℝ} {r0 : List ℝ} {E I γ : ℝ} (h : RowTends l r r0) (h0 : BeamUParams r0 E I γ) :
    ∃ E' I' γ' : ι → ℝ, (∀ i, BeamUParams (r i) (E' i) (I' i) (γ' i)) ∧ Tendsto γ' l (𝓝 γ) := by
  rcases h0 with ⟨rfl, rfl⟩ | ⟨ρ, A, rfl, rfl⟩
  · refine ⟨fun i => (r i).getD 0 0, fun i => (r i).getD 1 0, fun _ => 1, fun i => .inl ⟨?_, rfl⟩, tendsto_const_nhds⟩
    dsimp only
    have hl := h.shape i
    match r i, hl with
    | [a, b], _ => rfl
  · refine ⟨fun i => (r i).getD 0 0, fun i => (r i).getD 1 0, fun i => (r i).getD 2 0 * (r i).getD 3 0,
      fun i => .inr ⟨(r i).getD 2 0, (r i).getD 3 0, ?_, rfl⟩, (h.tends 2).mul (h.tends 3)⟩
    dsimp only
    have hl := h.shape i
    match r i, hl with
    | [a, b, c, d], _ => rfl

theorem beam_near {r : ι → List ℝ} {r0 : List ℝ} {E I A γ : ℝ} (h : RowTends l r r0) (h0 : BeamParams r0 E I A γ) :
    ∃ E' I' A' γ' : ι → ℝ, (∀ᶠ i in l, BeamParams (r i) (E' i) (I' i) (A' i) (γ' i)) ∧ Tendsto γ' l (𝓝 γ) := by
  obtain ⟨hI, ⟨rfl, rfl⟩ | ⟨ρ, rfl, rfl⟩⟩ := h0
  · refine ⟨fun i => (r i).getD 0 0, fun i => (r i).getD 1 0, fun i => (r i).getD 2 0, fun i => (r i).getD 2 0, ?_, h.tends 2⟩
    filter_upwards [(h.tends 1).eventually_ne (show ([E, I, γ] : List ℝ).getD 1 0 ≠ 0 from hI)] with i hi
    refine ⟨hi, .inl ⟨?_, rfl⟩⟩
    have hl := h.shape i
    match r i, hl with
    | [a, b, c], _ => rfl
  · refine ⟨fun i => (r i).getD 0 0, fun i => (r i).getD 1 0, fun i => (r i).getD 2 0, fun i => (r i).getD 3 0 * (r i).getD 2 0, ?_,
      (h.tends 3).mul (h.tends 2)⟩
    filter_upwards [(h.tends 1).eventually_ne (show ([E, I, A, ρ] : List ℝ).getD 1 0 ≠ 0 from hI)] with i hi
    refine ⟨hi, .inr ⟨(r i).getD 3 0, ?_, rfl⟩⟩
    have hl := h.shape i
    match r i, hl with
    | [a, b, c, d], _ => rfl

theorem end_near {q : ℕ} {id x y : ℝ} (hN : TableTends l nodes nodes0) (h : nodes0[q]? = some [id, x, y]) :
    ∃ id' x' y' : ι → ℝ, (∀ i, (nodes i)[q]? = some [id' i, x' i, y' i]) ∧ Tendsto x' l (𝓝 x) ∧ Tendsto y' l (𝓝 y) := by
  obtain ⟨r, hr, ht⟩ := hN.rows h
  refine ⟨fun i => (r i).getD 0 0, _, _, fun i => ?_, ht.tends 1, ht.tends 2⟩
  dsimp only
  rw [hr]
  have hl := ht.shape i
  match r i, hl with
  | [a, b, c], _ => rfl

/-- Near a frame of beams of positive mass all frames have beams of positive mass. -/
theorem heavyBeam_near {el : List ℤ} (hN : TableTends l nodes nodes0) (hM : TableTends l mats mats0) (h : HeavyBeam mats0 nodes0 el) :
    ∀ᶠ i in l, HeavyBeam (mats i) (nodes i) el := by
  obtain ⟨a, b, X, L, EI, EA, γ, ν, ⟨h1, ⟨id, h2⟩, ⟨id', h3⟩, h4, mi, q, params, h5, h6, h7, h8⟩, hγ⟩ := h
  obtain ⟨i1, x1, y1, e1, tx1, ty1⟩ := end_near hN h2
  obtain ⟨i2, x2, y2, e2, tx2, ty2⟩ := end_near hN h3
  obtain ⟨r, hr, ht⟩ := hM.rows h7
  let Y : ι → Matrix (Fin 2) (Fin 2) ℝ := fun i => !![x1 i, y1 i; x2 i, y2 i]
  have hY : ∀ a b, Tendsto (fun i => Y i a b) l (𝓝 (X a b)) := fun a b => by
    fin_cases a <;> fin_cases b
    exacts [tx1, ty1, tx2, ty2]
  obtain ⟨L', L0, -, hL, -⟩ := bar_tendsto hY (fun h => by
    have h0 := h4.2
    rw [show X 1 0 = X 0 0 by rw [h], show X 1 1 = X 0 1 by rw [h]] at h0
    have := h4.1
    nlinarith)
  rcases h8 with ⟨c1, rfl, rfl, E, I, c2, rfl⟩ | ⟨c1, rfl, E, I, A, c2, rfl, rfl⟩
  · obtain ⟨E', I', γ', d1, d2⟩ := beamU_near ht c2
    filter_upwards [hL, d2.eventually (lt_mem_nhds hγ)] with i hi hi'
    exact ⟨a, b, Y i, L' i, _, _, γ' i, _, ⟨by rw [hN.length i]; exact h1, ⟨_, e1 i⟩, ⟨_, e2 i⟩, hi, mi, q, r i, h5,
      by rw [hM.length i]; exact h6, hr i, .inl ⟨c1, rfl, rfl, E' i, I' i, d1 i, rfl⟩⟩, hi'⟩
  · obtain ⟨E', I', A', γ', d1, d2⟩ := beam_near ht c2
    filter_upwards [hL, d1, d2.eventually (lt_mem_nhds hγ)] with i hi d1 hi'
    exact ⟨a, b, Y i, L' i, _, _, γ' i, _, ⟨by rw [hN.length i]; exact h1, ⟨_, e1 i⟩, ⟨_, e2 i⟩, hi, mi, q, r i, h5,
      by rw [hM.length i]; exact h6, hr i, .inr ⟨c1, rfl, E' i, I' i, A' i, d1, rfl, rfl⟩⟩, hi'⟩

theorem definite_near {N : ℕ} {K M : Matrix (Fin N) (Fin N) ℝ} {w φ} (h : Modes K M w φ) {B : ι → Matrix (Fin N) (Fin N) ℝ} (hB : Tendsto B l (𝓝 M)) :
    ∀ᶠ i in l, ∀ v, v ≠ 0 → 0 < v ⬝ᵥ (B i).mulVec v := by
  have hS : Continuous fun A : Matrix (Fin N) (Fin N) ℝ => ∑ k, ∑ l, |φ k ⬝ᵥ (A - M).mulVec (φ l)| := by
    refine continuous_finsetSum _ fun k _ => continuous_finsetSum _ fun l _ => Continuous.abs ?_
    unfold Matrix.mulVec dotProduct
    simp only [Matrix.sub_apply]
    fun_prop
  have h0 : Tendsto (fun i => ∑ k, ∑ l, |φ k ⬝ᵥ (B i - M).mulVec (φ l)|) l (𝓝 0) := by
    have := (hS.tendsto M).comp hB
    simp only [sub_self, Matrix.zero_mulVec, dotProduct_zero, abs_zero, Finset.sum_const_zero] at this
    exact this
  filter_upwards [h0.eventually (gt_mem_nhds one_pos)] with i hi v hv
  have h1 := abs_le.1 (form_le_mass h (B i - M) v)
  have h2 := mass_form_nonneg h v
  have h3 : v ⬝ᵥ M.mulVec v ≠ 0 := fun hz => hv (by
    rw [h.form_mass] at hz
    have hy : ∀ k, φ k ⬝ᵥ M.mulVec v = 0 := fun k =>
      pow_eq_zero_iff (two_ne_zero) |>.1 ((Finset.sum_eq_zero_iff_of_nonneg fun _ _ => sq_nonneg _).1 hz k (Finset.mem_univ k))
    rw [h.expand v]
    exact Finset.sum_eq_zero fun k _ => by rw [hy k, zero_smul])
  rw [Matrix.sub_mulVec, dotProduct_sub] at h1
  have h4 : 0 < v ⬝ᵥ M.mulVec v := lt_of_le_of_ne h2 (Ne.symm h3)
  nlinarith [h1.1]

/-- C168.  Frequencies of frames near a given frame: all near frames vibrate with as many modes, and whatever their squared frequencies,
these tend to those of the given frame. -/
theorem C168_frames {K0 M0 : Matrix (Fin neq) (Fin neq) ℝ} {ks0 μs0 : List (Member ℝ)}
    (h0 : BeamModel Real.sqrt cons mats0 nodes0 elements ks0 μs0 K0 M0)
    (hn : ∀ r ∈ nodes0, r.length = 3) (hN : TableTends l nodes nodes0) (hM : TableTends l mats mats0) {w0 φ0} (hm : Modes K0 M0 w0 φ0) :
    (∀ᶠ i in l, ∃ (A B : Matrix (Fin neq) (Fin neq) ℝ) (ks μs : _) (w : _) (φ : _),
      BeamModel Real.sqrt cons (mats i) (nodes i) elements ks μs A B ∧ Modes A B w φ) ∧
    ∀ w : ι → Fin neq → ℝ, (∀ᶠ i in l, ∃ (A B : Matrix (Fin neq) (Fin neq) ℝ) (ks μs : _) (φ : _),
      BeamModel Real.sqrt cons (mats i) (nodes i) elements ks μs A B ∧ Modes A B (w i) φ) → ∀ k, Tendsto (fun i => w i k) l (𝓝 (w0 k)) := by
  obtain ⟨bc, s0, s0'⟩ := h0.setups
  have key : ∀ el ∈ elements, ∀ ty f, el[1]? = some ty → Uel.eleFun Real.sqrt ty = .ok f → ContinuousElement 2 (el.drop 3).length f := by
    intro el hel ty f hty hfn
    obtain ⟨ht, h2⟩ := h0.frame.beams el hel
    rw [h2]
    rw [hty, Option.some.injEq, Option.some.injEq] at ht
    rcases ht with rfl | rfl
    · obtain rfl : Uel.beam2DU Real.sqrt = f := by simpa [Uel.eleFun] using hfn
      exact C167_beam2DU
    · obtain rfl : Uel.beam2D Real.sqrt = f := by simpa [Uel.eleFun] using hfn
      exact C167_beam2D
  have key' : ∀ el ∈ elements, ∀ ty g, el[1]? = some ty → MassRoutine Real.sqrt ty g → ContinuousElement 2 (el.drop 3).length g := by
    rintro el hel ty g hty ⟨f0, hf0, rfl⟩
    exact ContinuousElement.swapped (key el hel ty f0 hty hf0)
  have uniq : ∀ ty f f', MassRoutine Real.sqrt ty f → MassRoutine Real.sqrt ty f' → f = f' := by
    rintro ty f f' ⟨f0, a1, rfl⟩ ⟨f1, b1, rfl⟩
    rw [Except.ok.inj (a1.symm.trans b1)]
  constructor
  · obtain ⟨ks, h1, -⟩ := members_tends (fn := Routine Real.sqrt) (nd := 3) hN hM hn key h0.springs
    have hfi : ∀ i, Frame cons (nodes i) elements := fun i =>
      ⟨h0.frame.codes, h0.frame.width, by rw [hN.length i]; exact h0.frame.size, h0.frame.beams⟩
    have h2 : ∀ᶠ i in l, ∀ el ∈ elements, HeavyBeam (mats i) (nodes i) el := eventually_els fun el hel => heavyBeam_near hN hM (h0.heavy el hel)
    have h3 : ∀ᶠ i in l, ∃ (A B : Matrix (Fin neq) (Fin neq) ℝ) (ks μs : _), BeamModel Real.sqrt cons (mats i) (nodes i) elements ks μs A B := by
      filter_upwards [h1, h2] with i c1 c2
      obtain ⟨op, bc', neq', A, B, d1, d2⟩ := C117_assembled (hfi i) c1 true
      obtain ⟨op0, bc0, sp, e1, -⟩ := h0.run
      have d1' := d1
      rw [e1, Except.ok.injEq, Prod.mk.injEq, Prod.mk.injEq] at d1'
      obtain ⟨rfl, rfl, rfl⟩ := d1'
      obtain ⟨μs, s⟩ := frame_mass_setup (hfi i) d1 d2
      exact ⟨A, B, ks i, μs, hfi i, c2, c1, s.mem, _, _, true, d1, d2⟩
    classical
    let P : ι → Matrix (Fin neq) (Fin neq) ℝ → Prop := fun i B => ∃ (A : Matrix (Fin neq) (Fin neq) ℝ) (ks μs : _),
      BeamModel Real.sqrt cons (mats i) (nodes i) elements ks μs A B
    let B : ι → Matrix (Fin neq) (Fin neq) ℝ := fun i => if hi : ∃ B, P i B then hi.choose else 0
    have hB : ∀ᶠ i in l, P i (B i) := by
      filter_upwards [h3] with i ⟨A, B', ks, μs, c⟩
      have hi : ∃ B, P i B := ⟨B', A, ks, μs, c⟩
      simp only [B, dif_pos hi]
      exact hi.choose_spec
    clear_value B
    have tB : Tendsto B l (𝓝 M0) := assembled_tendsto uniq hN hM hn key' s0' (hB.mono fun i ⟨A, ks, μs, c⟩ => by
      obtain ⟨bc', _, s'⟩ := c.setups
      exact ⟨bc', μs, s'⟩)
    filter_upwards [hB, definite_near hm tB] with i ⟨A, ks, μs, c⟩ d
    obtain ⟨w, φ, hw⟩ := exists_modes (c.symm sqrtFn_real).1 (c.symm sqrtFn_real).2 d
    exact ⟨A, B i, ks, μs, w, φ, c, hw⟩
  · intro w h k
    refine setups_frequencies (d := 2) (fn := Routine Real.sqrt) (fun _ _ _ a b => Except.ok.inj (a.symm.trans b)) uniq hN hM hn key key' s0 s0' hm
      (h0.symm sqrtFn_real).2 ?_ k
    filter_upwards [h] with i ⟨A, B, ks, μs, φ, h1, h2⟩
    obtain ⟨bc', s, s'⟩ := h1.setups
    exact ⟨A, B, ks, μs, φ, bc', s, s', (h1.symm sqrtFn_real).2, h2⟩

end

/-! ## How much the frequencies change -/

section
variable {fn fn' gn gn' : ℤ → Uel ℝ → Prop} {cons mats nodes mats' nodes' : Table ℝ} {els els' : List (List ℤ)} {nd neq : ℕ} {bc bc' : List (List ℤ)}
  {Kg Mg Kg' Mg' : Matrix (Fin neq) (Fin neq) ℝ} {ks ms ks' ms' : List (Member ℝ)} {w w' : Fin neq → ℝ} {φ φ' : Fin neq → Fin neq → ℝ} {ε : ℝ}

/-- The energies in the springs and in the masses of two structures with the same supports differ, for every admissible field, by at most
`ε` times the energy in the masses of the first. -/
def Spec.Detuned (cons : List (List ℝ)) (nd : ℕ) (ks ms ks' ms' : List (Member ℝ)) (ε : ℝ) : Prop :=
  ∀ u, Admissible cons nd u → |energyOf nd ks' u - energyOf nd ks u| ≤ ε * energyOf nd ms u ∧
    |energyOf nd ms' u - energyOf nd ms u| ≤ ε * energyOf nd ms u

theorem setups_close (s : Setup fn cons els mats nodes nd neq bc Kg ks) (s' : Setup fn' cons els mats nodes nd neq bc Mg ms)
    (r : Setup gn cons els' mats' nodes' nd neq bc' Kg' ks') (r' : Setup gn' cons els' mats' nodes' nd neq bc' Mg' ms')
    (h : Modes Kg Mg w φ) (hM : Mg.IsSymm) (h' : Modes Kg' Mg' w' φ') (hM' : Mg'.IsSymm) (h0 : 0 ≤ ε) (h1 : ε ≤ 1 / 2)
    (hd : Detuned cons nd ks ms ks' ms' ε) (k : Fin neq) : |w' k - w k| ≤ 2 * ε * (1 + |w k|) := by
  have e := r.eq
  rw [s.eq, Except.ok.injEq, Prod.mk.injEq] at e
  obtain ⟨-, rfl⟩ := e
  have key : ∀ v : Fin neq → ℝ, |v ⬝ᵥ Kg'.mulVec v - v ⬝ᵥ Kg.mulVec v| ≤ ε * (v ⬝ᵥ Mg.mulVec v) ∧
      |v ⬝ᵥ Mg'.mulVec v - v ⬝ᵥ Mg.mulVec v| ≤ ε * (v ⬝ᵥ Mg.mulVec v) := fun v => by
    obtain ⟨V, hV⟩ := exists_completes (cons := cons) bc nd v
    have := hd V (completes_admissible s.eq s.valid hV)
    unfold energyOf at this
    unfold dotProduct
    rwa [reduced_form s hV hV, reduced_form s' hV hV, reduced_form r hV hV, reduced_form r' hV hV]
  exact frequencies_close h hM h' hM' h0 h1 (fun v => (key v).1) (fun v => (key v).2) k

/-- Near data the energies differ by any small fraction of the kinetic energy. -/
theorem setups_detuned {ι : Type} {l : Filter ι} {d : ℕ} {nodes mats : ι → Table ℝ} {nodes0 mats0 : Table ℝ}
    (hfn : ∀ ty f f', fn ty f → fn ty f' → f = f') (hfn' : ∀ ty f f', fn' ty f → fn' ty f' → f = f')
    (hN : TableTends l nodes nodes0) (hM : TableTends l mats mats0) (hn : ∀ r ∈ nodes0, r.length = d + 1)
    (hc : ∀ el ∈ els, ∀ ty f, el[1]? = some ty → fn ty f → ContinuousElement d (el.drop 3).length f)
    (hc' : ∀ el ∈ els, ∀ ty f, el[1]? = some ty → fn' ty f → ContinuousElement d (el.drop 3).length f)
    (s : Setup fn cons els mats0 nodes0 nd neq bc Kg ks) (s' : Setup fn' cons els mats0 nodes0 nd neq bc Mg ms)
    (h : Modes Kg Mg w φ) (hε : 0 < ε) :
    ∀ᶠ i in l, ∀ (A B : Matrix (Fin neq) (Fin neq) ℝ) (κs μs : List (Member ℝ)) (bc' : List (List ℤ)),
      Setup fn cons els (mats i) (nodes i) nd neq bc' A κs → Setup fn' cons els (mats i) (nodes i) nd neq bc' B μs →
      Detuned cons nd ks ms κs μs ε := by
  have tS : ∀ {A : ι → Matrix (Fin neq) (Fin neq) ℝ} {A0}, Tendsto A l (𝓝 A0) →
      Tendsto (fun i => ∑ k, ∑ l, |φ k ⬝ᵥ (A i - A0).mulVec (φ l)|) l (𝓝 0) := fun {A A0} hA => by
    have hS : Continuous fun A : Matrix (Fin neq) (Fin neq) ℝ => ∑ k, ∑ l, |φ k ⬝ᵥ (A - A0).mulVec (φ l)| := by
      refine continuous_finsetSum _ fun k _ => continuous_finsetSum _ fun l _ => Continuous.abs ?_
      unfold Matrix.mulVec dotProduct
      simp only [Matrix.sub_apply]
      fun_prop
    have := (hS.tendsto A0).comp hA
    simp only [sub_self, Matrix.zero_mulVec, dotProduct_zero, abs_zero, Finset.sum_const_zero] at this
    exact this
  obtain ⟨κs, h1, h2⟩ := members_tends (nd := nd) hN hM hn hc s.mem
  obtain ⟨A, hA, hA'⟩ := setups_tendsto (mats := mats) (nodes := nodes) s h2
  obtain ⟨μs, h3, h4⟩ := members_tends (nd := nd) hN hM hn hc' s'.mem
  obtain ⟨B, hB, hB'⟩ := setups_tendsto (mats := mats) (nodes := nodes) s' h4
  filter_upwards [h1, h3, (tS hA).eventually (gt_mem_nhds hε), (tS hB).eventually (gt_mem_nhds hε)] with i c1 c2 c3 c4 A' B' κs' μs' bc' r r' u hu
  obtain rfl := members_unique_of hfn c1 r.mem
  obtain rfl := members_unique_of hfn' c2 r'.mem
  have e := r.eq
  rw [s.eq, Except.ok.injEq, Prod.mk.injEq] at e
  obtain ⟨-, rfl⟩ := e
  obtain rfl := hA' i _ r
  obtain rfl := hB' i _ r'
  obtain ⟨v, hv⟩ := exists_reduced s.eq s.valid hu
  have e1 := reduced_form s hv hv
  have e2 := reduced_form s' hv hv
  have e3 := reduced_form r hv hv
  have e4 := reduced_form r' hv hv
  unfold energyOf
  rw [← e1, ← e2, ← e3, ← e4]
  have b1 := (form_le_mass h (A i - Kg) v).trans (mul_le_mul_of_nonneg_right c3.le (mass_form_nonneg h v))
  have b2 := (form_le_mass h (B i - Mg) v).trans (mul_le_mul_of_nonneg_right c4.le (mass_form_nonneg h v))
  rw [Matrix.sub_mulVec, dotProduct_sub] at b1 b2
  exact ⟨b1, b2⟩

/-- C168.  If the energies of two plane models with the same supports, of whatever meshes, differ by at most the fraction `ε` of the
kinetic energy, no squared frequency differs by more than `2 ε (1 + |w|)`. -/
theorem C168_bound {D D' : Gui.Data ℝ} (hv : Vibrating Real.sqrt D ks ms Kg Mg) (hm : Modes Kg Mg w φ) (hv' : Vibrating Real.sqrt D' ks' ms' Kg' Mg')
    (hm' : Modes Kg' Mg' w' φ') (hc : D'.cons = D.cons) (h0 : 0 ≤ ε) (h1 : ε ≤ 1 / 2) (hd : Detuned D.cons 2 ks ms ks' ms' ε) (k : Fin neq) :
    |w' k - w k| ≤ 2 * ε * (1 + |w k|) := by
  obtain ⟨bc, s, s'⟩ := hv.setups
  obtain ⟨bc', r, r'⟩ := hv'.setups
  rw [hc] at r r'
  exact setups_close s s' r r' hm (hv.mass sqrtFn_real).1 hm' (hv'.mass sqrtFn_real).1 h0 h1 hd k

/-- C168.  The same for frames. -/
theorem C168_bound_frames (hv : BeamModel Real.sqrt cons mats nodes els ks ms Kg Mg) (hm : Modes Kg Mg w φ)
    (hv' : BeamModel Real.sqrt cons mats' nodes' els' ks' ms' Kg' Mg') (hm' : Modes Kg' Mg' w' φ') (h0 : 0 ≤ ε) (h1 : ε ≤ 1 / 2)
    (hd : Detuned cons 3 ks ms ks' ms' ε) (k : Fin neq) : |w' k - w k| ≤ 2 * ε * (1 + |w k|) := by
  obtain ⟨bc, s, s'⟩ := hv.setups
  obtain ⟨bc', r, r'⟩ := hv'.setups
  exact setups_close s s' r r' hm (hv.symm sqrtFn_real).2 hm' (hv'.symm sqrtFn_real).2 h0 h1 hd k

/-- C168.  The same for the user's elements. -/
theorem C168_bound_user {f f' : Uel ℝ} {tab tab' : ℤ → Py (Uel ℝ)} {n n' m m' : ℕ} {count count' : ℤ → Py ℕ}
    (hv : UserVibration tab nd n m f count cons els mats nodes ks ms Kg Mg) (hm : Modes Kg Mg w φ)
    (hv' : UserVibration tab' nd n' m' f' count' cons els' mats' nodes' ks' ms' Kg' Mg') (hm' : Modes Kg' Mg' w' φ') (h0 : 0 ≤ ε) (h1 : ε ≤ 1 / 2)
    (hd : Detuned cons nd ks ms ks' ms' ε) (k : Fin neq) : |w' k - w k| ≤ 2 * ε * (1 + |w k|) := by
  obtain ⟨bc, s, s'⟩ := hv.setups
  obtain ⟨bc', r, r'⟩ := hv'.setups
  exact setups_close s s' r r' hm hv.mass.2.1 hm' hv'.mass.2.1 h0 h1 hd k

end

/-! ## Cases -/

section demo

/-- Enlarging all numbers of a table by the factor `1 + 1 / (n + 1)`. -/
theorem enlarged_tends (t0 : Table ℝ) : TableTends atTop (fun n : ℕ => t0.map (List.map fun x => x * (1 + 1 / ((n : ℝ) + 1)))) t0 := by
  refine ⟨fun n => by simp [Function.comp_def], fun p j => ?_⟩
  have e : ∀ n : ℕ, fieldOf (t0.map (List.map fun x => x * (1 + 1 / ((n : ℝ) + 1)))) p j = fieldOf t0 p j * (1 + 1 / ((n : ℝ) + 1)) := by
    intro n
    unfold fieldOf entry
    rw [List.getElem?_map]
    cases t0[p]? with
    | none => simp
    | some r => cases h : r[j]? <;> simp [h]
  simp only [e]
  simpa using (tendsto_const_nhds (x := fieldOf t0 p j)).mul (tendsto_const_nhds (x := (1 : ℝ)).add (tendsto_one_div_add_atTop_nhds_zero_nat (𝕜 := ℝ)))

/-- Case for C168: a chain of three bars; a precision of coordinates and material that gives the squared frequencies within a
millionth. -/
example : ∃ (neq : ℕ) (K0 M0 : Matrix (Fin neq) (Fin neq) ℝ) (w0 : _) (φ0 : _), Modes K0 M0 w0 φ0 ∧
    ∃ δ > 0, ∀ D, ModelNear δ D (testBar 3 1 1 1 1) → ∃ (A B : Matrix (Fin neq) (Fin neq) ℝ) (ks μs : _) (w : _) (φ : _),
      Vibrating Real.sqrt D ks μs A B ∧ Modes A B w φ ∧ ∀ k, |w k - w0 k| < 1 / 10 ^ 6 := by
  obtain ⟨neq, Kg, Mg, ks, ms, w, φ, hv, hm⟩ := (testBar_uniform 3 1 1 1 1).vibrates sqrtFn_real one_pos one_pos one_pos
  exact ⟨neq, Kg, Mg, w, φ, hm, C168_precision hv hm (by norm_num)⟩

/-- Case for C168: the frame of the tests, as its coordinates and all numbers of its materials shrink to their values. -/
example : ∃ (neq : ℕ) (K0 M0 : Matrix (Fin neq) (Fin neq) ℝ) (w0 : _) (φ0 : _) (w : ℕ → Fin neq → ℝ), Modes K0 M0 w0 φ0 ∧
    (∀ᶠ n : ℕ in atTop, ∃ (A B : Matrix (Fin neq) (Fin neq) ℝ) (ks μs : _) (φ : _),
      BeamModel Real.sqrt testFrame.1 (testFrame.2.2.1.map (List.map fun x => x * (1 + 1 / ((n : ℝ) + 1))))
        (testFrame.2.2.2.1.map (List.map fun x => x * (1 + 1 / ((n : ℝ) + 1)))) testFrame.2.1 ks μs A B ∧ Modes A B (w n) φ) ∧
    ∀ k, Tendsto (fun n => w n k) atTop (𝓝 (w0 k)) := by
  obtain ⟨neq, Kg, Mg, ks, ms, w0, φ, h0, hm⟩ := testFrame_vibrates testFrame_frame
  obtain ⟨h1, h2⟩ := C168_frames h0 (by
    intro r hr
    simp only [testFrame, List.mem_cons, List.not_mem_nil, or_false] at hr
    rcases hr with rfl | rfl | rfl <;> rfl) (enlarged_tends _) (enlarged_tends _) hm
  classical
  let P : ℕ → (Fin neq → ℝ) → Prop := fun n w => ∃ (A B : Matrix (Fin neq) (Fin neq) ℝ) (ks μs : _) (φ : _),
      BeamModel Real.sqrt testFrame.1 (testFrame.2.2.1.map (List.map fun x => x * (1 + 1 / ((n : ℝ) + 1))))
        (testFrame.2.2.2.1.map (List.map fun x => x * (1 + 1 / ((n : ℝ) + 1)))) testFrame.2.1 ks μs A B ∧ Modes A B w φ
  let w : ℕ → Fin neq → ℝ := fun i => if hi : ∃ w, P i w then hi.choose else 0
  have hw : ∀ᶠ i in atTop, P i (w i) := by
    filter_upwards [h1] with i ⟨A, B, ks, μs, w', φ, a, b⟩
    have hi : ∃ w, P i w := ⟨w', A, B, ks, μs, φ, a, b⟩
    simp only [w, dif_pos hi]
    exact hi.choose_spec
  exact ⟨neq, Kg, Mg, w0, φ, w, hm, hw, h2 w hw⟩

/-- Case for C168: the tetrahedron held at three nodes, as its coordinates, modulus, Poisson's ratio and density shrink to their
values. -/
example (tab : ℤ → Py (Uel ℝ)) : ∃ (neq : ℕ) (K0 M0 : Matrix (Fin neq) (Fin neq) ℝ) (w0 : _) (φ0 : _) (w : ℕ → Fin neq → ℝ), Modes K0 M0 w0 φ0 ∧
    (∀ᶠ n : ℕ in atTop, ∃ (A B : Matrix (Fin neq) (Fin neq) ℝ) (ks μs : _) (φ : _),
      UserVibration tab 3 4 12 elastTet4 (fun _ => .ok 12) loneHeld loneEls (loneMats.map (List.map fun x => x * (1 + 1 / ((n : ℝ) + 1))))
        (loneNodes.map (List.map fun x => x * (1 + 1 / ((n : ℝ) + 1)))) ks μs A B ∧ Modes A B (w n) φ) ∧
    ∀ k, Tendsto (fun n => w n k) atTop (𝓝 (w0 k)) := by
  obtain ⟨a, hb, na⟩ := lone_body
  have hh : HeavyMats loneMats loneEls := by
    intro el hel mi q params b1 b2 b3
    match q, b3 with
    | 0, b3 => exact ⟨10, 1/4, 1, by simpa [loneMats] using b3.symm, by norm_num⟩
    | q + 1, b3 => simp [loneMats] at b3
  obtain ⟨neq, Kg, Mg, μs, h⟩ := C157_vibrates (tab := tab) (m := 12) (count := fun _ => .ok 12) (cons := loneHeld) .tet4 loneHeld_model (by
      intro el hel
      simp only [loneEls, List.mem_cons, List.not_mem_nil, or_false] at hel
      subst hel
      exact ⟨9, rfl, rfl⟩) le_rfl hb.members hh (by
      intro p j hf
      have := free_lt hf
      exact (describes_used hb.members p).1 (hb.used p (by simpa [loneHeld, loneNodes] using this)))
  obtain ⟨w0, φ, hm, -⟩ := C157_modes h
  obtain ⟨w, hw, hk⟩ := C168_library (tab' := tab) .tet4 h hh (by
    intro r hr
    simp only [loneNodes, List.mem_cons, List.not_mem_nil, or_false] at hr
    rcases hr with rfl | rfl | rfl | rfl <;> rfl) (enlarged_tends _) (enlarged_tends _) hm
  exact ⟨neq, Kg, Mg, w0, φ, w, hm, hw, hk⟩

/-- Case for C168: the frame of the tests with data enlarged by the factor `1 + 1 / (n + 1)`; for large `n` the energies differ by a
hundredth of the kinetic energy, and so the frequencies obey the bound. -/
example : ∃ (neq : ℕ) (K0 M0 : Matrix (Fin neq) (Fin neq) ℝ) (w0 : _) (φ0 : _), Modes K0 M0 w0 φ0 ∧
    ∃ (n : ℕ) (A B : Matrix (Fin neq) (Fin neq) ℝ) (ks μs : _) (w : _) (φ : _),
      BeamModel Real.sqrt testFrame.1 (testFrame.2.2.1.map (List.map fun x => x * (1 + 1 / ((n : ℝ) + 1))))
        (testFrame.2.2.2.1.map (List.map fun x => x * (1 + 1 / ((n : ℝ) + 1)))) testFrame.2.1 ks μs A B ∧ Modes A B w φ ∧
      ∀ k, |w k - w0 k| ≤ 2 * (1 / 100) * (1 + |w0 k|) := by
  obtain ⟨neq, Kg, Mg, ks, ms, w0, φ, h0, hm⟩ := testFrame_vibrates testFrame_frame
  have hn : ∀ r ∈ testFrame.2.2.2.1, r.length = 3 := by
    intro r hr
    simp only [testFrame, List.mem_cons, List.not_mem_nil, or_false] at hr
    rcases hr with rfl | rfl | rfl <;> rfl
  obtain ⟨h1, -⟩ := C168_frames h0 hn (enlarged_tends _) (enlarged_tends _) hm
  obtain ⟨bc, s0, s0'⟩ := h0.setups
  have key : ∀ el ∈ testFrame.2.1, ∀ ty f, el[1]? = some ty → Uel.eleFun Real.sqrt ty = .ok f → ContinuousElement 2 (el.drop 3).length f := by
    intro el hel ty f hty hfn
    obtain ⟨ht, h2⟩ := h0.frame.beams el hel
    rw [h2]
    rw [hty, Option.some.injEq, Option.some.injEq] at ht
    rcases ht with rfl | rfl
    · obtain rfl : Uel.beam2DU Real.sqrt = f := by simpa [Uel.eleFun] using hfn
      exact C167_beam2DU
    · obtain rfl : Uel.beam2D Real.sqrt = f := by simpa [Uel.eleFun] using hfn
      exact C167_beam2D
  have h2 := setups_detuned (d := 2) (fn := Routine Real.sqrt) (fn' := MassRoutine Real.sqrt) (ε := 1 / 100)
    (fun _ _ _ a b => Except.ok.inj (a.symm.trans b)) (by
      rintro ty f f' ⟨f0, a1, rfl⟩ ⟨f1, b1, rfl⟩
      rw [Except.ok.inj (a1.symm.trans b1)]) (enlarged_tends testFrame.2.2.2.1) (enlarged_tends testFrame.2.2.1) hn key (by
      rintro el hel ty g hty ⟨f0, hf0, rfl⟩
      exact ContinuousElement.swapped (key el hel ty f0 hty hf0)) s0 s0' hm (by norm_num)
  obtain ⟨n, ⟨A, B, ks', μs', w, φ', c1, c2⟩, c3⟩ := (h1.and h2).exists
  obtain ⟨bc', r, r'⟩ := c1.setups
  exact ⟨neq, Kg, Mg, w0, φ, hm, n, A, B, ks', μs', w, φ', c1, c2,
    C168_bound_frames h0 hm c1 c2 (by norm_num) (by norm_num) (c3 _ _ _ _ _ r r')⟩

end demo
end SolidsPy
