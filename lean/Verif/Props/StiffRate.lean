import Verif.Props.FreqRate
import Verif.Props.UserEnergy

/-! # C171: the rate at which displacements change with stiffness, for frames and user's elements -/

set_option linter.unusedSectionVars false

namespace SolidsPy
open Filter Topology Asymptotics
open Spec Fem Uel Assem Matrix Gauss

/-- What a beam with varying stiffness adds to the rate of the work of the forces that cause `W` on the displacements `U`. -/
noncomputable def Spec.BeamPath.exchange (s : BeamPath) (W U : ℕ → ℕ → ℝ) : ℝ :=
  deriv s.EI 0 * bendInt s.L (deflection s.a s.b s.X s.L W) (deflection s.a s.b s.X s.L U) +
    deriv s.EA 0 * ((extension s.a s.b s.X s.L W).coeff 1 * (extension s.a s.b s.X s.L U).coeff 1 * s.L)

section

/-- A factor that vanishes times one that is only continuous. -/
theorem vanishing_rate {f β : ℝ → ℝ} {f' : ℝ} (hf : HasDerivAt f f' 0) (h0 : f 0 = 0) (hβ : Tendsto β (𝓝 0) (𝓝 (β 0))) :
    HasDerivAt (fun t => f t * β t) (f' * β 0) 0 := by
  rw [hasDerivAt_iff_tendsto_slope] at hf ⊢
  refine (hf.mul (hβ.mono_left nhdsWithin_le_nhds)).congr fun t => ?_
  simp only [slope_def_field, h0, zero_mul, sub_zero]
  ring

/-- The derivative of the work of the adjoint loads. -/
theorem adjoint_rate {ι : Type} (l : List ι) {c d : ι → ℝ → ℝ} {c' d' : ι → ℝ} {b e : ι → (ℕ → ℕ → ℝ) → ℝ} {U : ℝ → ℕ → ℕ → ℝ} {J : ℝ → ℝ}
    (hc : ∀ i ∈ l, HasDerivAt (c i) (c' i) 0) (hd : ∀ i ∈ l, HasDerivAt (d i) (d' i) 0)
    (hb : ∀ i ∈ l, Tendsto (fun t => b i (U t)) (𝓝 0) (𝓝 (b i (U 0)))) (he : ∀ i ∈ l, Tendsto (fun t => e i (U t)) (𝓝 0) (𝓝 (e i (U 0))))
    (hJ : ∀ᶠ t in 𝓝 0, J t - J 0 = (l.map fun i => c i 0 * b i (U t) + d i 0 * e i (U t)).sum - (l.map fun i => c i t * b i (U t) + d i t * e i (U t)).sum) :
    HasDerivAt J (- (l.map fun i => c' i * b i (U 0) + d' i * e i (U 0)).sum) 0 := by
  have key : HasDerivAt (fun t => J 0 - (l.map fun i => (c i t - c i 0) * b i (U t) + (d i t - d i 0) * e i (U t)).sum)
      (- (l.map fun i => c' i * b i (U 0) + d' i * e i (U 0)).sum) 0 := by
    refine HasDerivAt.const_sub _ (list_rate l fun i hi => ?_)
    exact (vanishing_rate ((hc i hi).sub_const _) (sub_self _) (hb i hi)).fun_add (vanishing_rate ((hd i hi).sub_const _) (sub_self _) (he i hi))
  refine key.congr_of_eventuallyEq ?_
  filter_upwards [hJ] with t ht
  have : ∀ l : List ι, (l.map fun i => (c i t - c i 0) * b i (U t) + (d i t - d i 0) * e i (U t)).sum =
      (l.map fun i => c i t * b i (U t) + d i t * e i (U t)).sum - (l.map fun i => c i 0 * b i (U t) + d i 0 * e i (U t)).sum := by
    intro l
    induction l with
    | nil => simp
    | cons i l ih =>
      simp only [List.map_cons, List.sum_cons, ih]
      ring
  rw [this]
  linarith

end

/-! ## Frames -/

section
variable {cons nodes loads loads' : Table ℝ} {mats : ℝ → Table ℝ} {els : List (List ℤ)} {ks : List (Member ℝ)} {ss : List BeamPath} {t : ℝ}
  {sp de : Sol.Solver ℝ} {sparse sparse' : Bool} {F G : ℕ → ℕ → ℝ} {full0 full' : Table ℝ}

theorem springs_beams (hks : List.Forall₂ (IsMember (Routine Real.sqrt) (mats t) nodes) els ks) (h : BeamRows (mats t) nodes els ss t) (V U : ℕ → ℕ → ℝ) :
    (ks.map fun m => m.form 3 V U).sum = (ss.map fun s => s.EI t * bendInt s.L (deflection s.a s.b s.X s.L V) (deflection s.a s.b s.X s.L U) +
      s.EA t * ((extension s.a s.b s.X s.L V).coeff 1 * (extension s.a s.b s.X s.L U).coeff 1 * s.L)).sum := by
  unfold BeamRows at h
  induction h generalizing ks with
  | nil => cases hks; simp
  | cons hb _ ih =>
    cases hks with
    | cons hk hks =>
      simp only [List.map_cons, List.sum_cons]
      rw [ih hks, (hb.spring sqrtFn_real hk).2]

theorem deflection_tends {a b n : ℕ} {X : Matrix (Fin 2) (Fin 2) ℝ} {L : ℝ} {U : ℝ → ℕ → ℕ → ℝ} (ha : a < n) (hb : b < n)
    (hU : ∀ p j, p < n → j < 3 → Tendsto (fun t => U t p j) (𝓝 0) (𝓝 (U 0 p j))) (W : ℕ → ℕ → ℝ) :
    Tendsto (fun t => bendInt L (deflection a b X L W) (deflection a b X L (U t))) (𝓝 0) (𝓝 (bendInt L (deflection a b X L W) (deflection a b X L (U 0)))) ∧
    Tendsto (fun t => (extension a b X L W).coeff 1 * (extension a b X L (U t)).coeff 1 * L) (𝓝 0)
      (𝓝 ((extension a b X L W).coeff 1 * (extension a b X L (U 0)).coeff 1 * L)) := by
  have c : ∀ p j, p < n → j < 3 → ContinuousAt (fun t => U t p j) 0 := hU
  have a0 := c a 0 ha (by norm_num)
  have a1 := c a 1 ha (by norm_num)
  have a2 := c a 2 ha (by norm_num)
  have b0 := c b 0 hb (by norm_num)
  have b1 := c b 1 hb (by norm_num)
  have b2 := c b 2 hb (by norm_num)
  constructor
  · refine ContinuousAt.tendsto (f := fun t => bendInt L (deflection a b X L W) (deflection a b X L (U t))) ?_
    have e2 : ∀ v0 t0 v1 t1 : ℝ, (hermite L v0 t0 v1 t1).coeff 2 = (3 * (v1 - v0) - L * (2 * t0 + t1)) / L ^ 2 := by
      intro v0 t0 v1 t1
      simp [hermite]
    have e3 : ∀ v0 t0 v1 t1 : ℝ, (hermite L v0 t0 v1 t1).coeff 3 = (2 * (v0 - v1) + L * (t0 + t1)) / L ^ 3 := by
      intro v0 t0 v1 t1
      simp [hermite]
    unfold bendInt
    simp only [deflection, e2, e3, across, endsOf]
    norm_num
    fun_prop
  · refine ContinuousAt.tendsto (f := fun t => (extension a b X L W).coeff 1 * (extension a b X L (U t)).coeff 1 * L) ?_
    simp only [extension, along, endsOf]
    norm_num
    fun_prop

/-- C171.  Frames: the derivative of the work of any loads `G` on the computed displacements and rotations, as the stiffnesses of the beams
vary, is the sum over the beams of the rates of `EI` and `EA` times the products of curvatures and of elongations of the displacements and
of the response to `G`, with the opposite sign. -/
theorem C171_frames (hf : Frame cons nodes els) (hn : ∀ r ∈ nodes, r.length = 3) (hM : TableTends (𝓝 0) mats (mats 0))
    (hk : List.Forall₂ (IsMember (Routine Real.sqrt) (mats 0) nodes) els ks) (hst : Stable cons 3 ks) (hsp : SolverOk sp) (hde : SolverOk de)
    (hs : ∀ s ∈ ss, s.Smooth) (hb : ∀ᶠ t in 𝓝 0, BeamRows (mats t) nodes els ss t) (hF : FrameLoads nodes.length loads F)
    (hG : FrameLoads nodes.length loads' G) (h0 : frameRun Real.sqrt sp de sparse cons els (mats 0) nodes loads = .ok full0)
    (h' : frameRun Real.sqrt sp de sparse' cons els (mats 0) nodes loads' = .ok full') :
    (∀ᶠ t in 𝓝 0, ∃ full, frameRun Real.sqrt sp de sparse cons els (mats t) nodes loads = .ok full) ∧
    ∀ full : ℝ → Table ℝ, (∀ᶠ t in 𝓝 0, frameRun Real.sqrt sp de sparse cons els (mats t) nodes loads = .ok (full t)) →
      HasDerivAt (fun t => frameWork nodes.length G (fieldOf (full t))) (- (ss.map fun s => s.exchange (fieldOf full') (fieldOf full0)).sum) 0 := by
  obtain ⟨h1, h2⟩ := (C167_frames hf hn hk hst hsp hde h0).limits ℝ (𝓝 0) (fun _ => nodes) mats (fun _ => loads)
    ⟨const_tends _ _, hM, const_tends _ _, fun _ => rfl⟩
  refine ⟨h1.mono fun t ht => ht.2, fun full hfull => ?_⟩
  have hz : full 0 = full0 := Except.ok.inj (hfull.self_of_nhds.symm.trans h0)
  have lim := h2 full hfull
  rw [← hz] at lim ⊢
  have e0 := (frame_virtual hf hk hF).1 (frameRun_equilibrium hf hk hst hsp hde h0)
  have e' := (frame_virtual hf hk hG).1 (frameRun_equilibrium hf hk hst hsp hde h')
  have hb0 := hb.self_of_nhds
  have hlt : ∀ s ∈ ss, s.a < nodes.length ∧ s.b < nodes.length := by
    intro s hs
    obtain ⟨el, -, h⟩ := forall₂_mem hb0 hs
    have he := h.ends
    generalize el.drop 3 = xs at he
    cases he with
    | cons x r => cases r with
      | cons y _ => exact ⟨x.1, y.1⟩
  refine adjoint_rate ss (c := fun s => s.EI) (d := fun s => s.EA) (b := fun s U => bendInt s.L (deflection s.a s.b s.X s.L (fieldOf full')) (deflection s.a s.b s.X s.L U))
    (e := fun s U => (extension s.a s.b s.X s.L (fieldOf full')).coeff 1 * (extension s.a s.b s.X s.L U).coeff 1 * s.L) (U := fun t => fieldOf (full t))
    (fun s h => (hs s h).EI.hasDerivAt) (fun s h => (hs s h).EA.hasDerivAt)
    (fun s h => (deflection_tends (hlt s h).1 (hlt s h).2 (U := fun t => fieldOf (full t)) lim _).1)
    (fun s h => (deflection_tends (hlt s h).1 (hlt s h).2 (U := fun t => fieldOf (full t)) lim _).2) ?_
  filter_upwards [hfull, h1, hb] with t a1 a2 a3
  obtain ⟨⟨kt, k1, k2⟩, -⟩ := a2
  have et := (frame_virtual hf k1 hF).1 (frameRun_equilibrium hf k1 k2 hsp hde a1)
  rw [hz]
  have sym : ∀ V U, (ks.map fun m => m.form 3 V U).sum = (ks.map fun m => m.form 3 U V).sum := by
    intro V U
    rw [springs_beams hk hb0, springs_beams hk hb0]
    refine congrArg List.sum (List.map_congr_left fun s _ => ?_)
    rw [bendInt_symm, mul_comm (Polynomial.coeff _ 1)]
  rw [e'.2 _ et.1, e'.2 _ e0.1, sym, sym (fieldOf full0), ← e0.2 _ e'.1, et.2 _ e'.1, springs_beams hk hb0, springs_beams k1 a3]

/-- C171.  So the displacement or rotation `j` of node `p` has the rate given by the response to a unit load there. -/
theorem C171_frame_displacement (hf : Frame cons nodes els) (hn : ∀ r ∈ nodes, r.length = 3) (hM : TableTends (𝓝 0) mats (mats 0))
    (hk : List.Forall₂ (IsMember (Routine Real.sqrt) (mats 0) nodes) els ks) (hst : Stable cons 3 ks) (hsp : SolverOk sp) (hde : SolverOk de)
    (hs : ∀ s ∈ ss, s.Smooth) (hb : ∀ᶠ t in 𝓝 0, BeamRows (mats t) nodes els ss t) (hF : FrameLoads nodes.length loads F) {p j : ℕ}
    (hp : p < nodes.length) (hj : j < 3) (hG : FrameLoads nodes.length loads' fun a b => if a = p ∧ b = j then 1 else 0)
    (h0 : frameRun Real.sqrt sp de sparse cons els (mats 0) nodes loads = .ok full0)
    (h' : frameRun Real.sqrt sp de sparse' cons els (mats 0) nodes loads' = .ok full') {full : ℝ → Table ℝ}
    (hfull : ∀ᶠ t in 𝓝 0, frameRun Real.sqrt sp de sparse cons els (mats t) nodes loads = .ok (full t)) :
    HasDerivAt (fun t => fieldOf (full t) p j) (- (ss.map fun s => s.exchange (fieldOf full') (fieldOf full0)).sum) 0 := by
  have key := (C171_frames hf hn hM hk hst hsp hde hs hb hF hG h0 h').2 full hfull
  have e : ∀ V, frameWork nodes.length (fun a b => if a = p ∧ b = j then 1 else 0) V = V p j := fun V => loadWork_unit (nd := 3) hp hj V
  simp only [e] at key
  exact key

/-- C171.  The work of the loads changes at the rate of the energy of the change of stiffness; stiffer beams never increase it. -/
theorem C171_frame_compliance (hf : Frame cons nodes els) (hn : ∀ r ∈ nodes, r.length = 3) (hM : TableTends (𝓝 0) mats (mats 0))
    (hk : List.Forall₂ (IsMember (Routine Real.sqrt) (mats 0) nodes) els ks) (hst : Stable cons 3 ks) (hsp : SolverOk sp) (hde : SolverOk de)
    (hs : ∀ s ∈ ss, s.Smooth) (hb : ∀ᶠ t in 𝓝 0, BeamRows (mats t) nodes els ss t) (hF : FrameLoads nodes.length loads F)
    (h0 : frameRun Real.sqrt sp de sparse cons els (mats 0) nodes loads = .ok full0) {full : ℝ → Table ℝ}
    (hfull : ∀ᶠ t in 𝓝 0, frameRun Real.sqrt sp de sparse cons els (mats t) nodes loads = .ok (full t)) :
    HasDerivAt (fun t => frameWork nodes.length F (fieldOf (full t))) (- (ss.map fun s => s.exchange (fieldOf full0) (fieldOf full0)).sum) 0 ∧
    ((∀ s ∈ ss, 0 ≤ deriv s.EI 0 ∧ 0 ≤ deriv s.EA 0) → - (ss.map fun s => s.exchange (fieldOf full0) (fieldOf full0)).sum ≤ 0) := by
  refine ⟨(C171_frames hf hn hM hk hst hsp hde hs hb hF hF h0 h0).2 full hfull, fun hr => ?_⟩
  rw [neg_nonpos]
  refine List.sum_nonneg fun y hy => ?_
  obtain ⟨s, hm, rfl⟩ := List.mem_map.1 hy
  obtain ⟨el, -, h⟩ := forall₂_mem hb.self_of_nhds hm
  have hL := h.length.1
  unfold BeamPath.exchange
  refine add_nonneg (mul_nonneg (hr s hm).1 (bendInt_nonneg hL _)) (mul_nonneg (hr s hm).2 ?_)
  exact mul_nonneg (mul_self_nonneg _) hL.le

end

/-! ## The user's elements -/

section
variable {tab : ℤ → Py (Uel ℝ)} {f : Uel ℝ} {nd n m dim : ℕ} {count : ℤ → Py ℕ} {cons mats nodes loads loads' : Table ℝ} {els : List (List ℤ)}
  {ks : List (Member ℝ)} {sp de : Sol.Solver ℝ} {sparse sparse' : Bool} {F G : ℕ → ℕ → ℝ} {full0 full' : Table ℝ} {g r : ℕ → ℝ} {ws : List ℝ}

theorem form_tends {N : ℕ} {m : Member ℝ} (hin : ∀ p ∈ m.nodes, p < N) {U : ℝ → ℕ → ℕ → ℝ}
    (hU : ∀ p j, p < N → j < nd → Tendsto (fun t => U t p j) (𝓝 0) (𝓝 (U 0 p j))) (W : ℕ → ℕ → ℝ) :
    Tendsto (fun t => m.form nd W (U t)) (𝓝 0) (𝓝 (m.form nd W (U 0))) := by
  have hn : ∀ b, b < m.nodes.length → m.nodes.getD b 0 < N := fun b hb => hin _ (by
    rw [List.getD_eq_getElem?_getD, List.getElem?_eq_getElem hb]
    exact List.getElem_mem hb)
  unfold Member.form Member.force
  refine tendsto_finsetSum _ fun a _ => tendsto_finsetSum _ fun j _ => tendsto_const_nhds.mul ?_
  refine tendsto_finsetSum _ fun b hb => tendsto_finsetSum _ fun c hc => tendsto_const_nhds.mul ?_
  exact hU _ _ (hn b (Finset.mem_range.1 hb)) (Finset.mem_range.1 hc)

theorem weightedIn_zip (ws : List ℝ) (ks : List (Member ℝ)) (V U : ℕ → ℕ → ℝ) :
    weightedIn nd ws ks V U = ((ws.zip ks).map fun x => x.1 * x.2.form nd V U).sum := by
  unfold weightedIn
  rw [List.zip, List.map_zipWith]

/-- C171.  The user's elements, if their stiffness is proportional to the modulus: the derivative of the work of any loads `G` on the
displacements, as the modulus of each row `q` of the table of materials grows at the relative rate `g q`. -/
theorem C171_user (hp : Proportional f) (h : UserCase nd n m f count sp de cons els mats nodes ks) (hcf : ContinuousElement dim n f)
    (hn : ∀ r ∈ nodes, r.length = dim + 1) (h3 : ∀ row ∈ mats, row.length = 3) (hg : Weights g mats.length els ws) (hst : Stable cons nd ks)
    (hsym : SymmetricElements nd ks) (hF : UserLoads nd nodes.length loads F) (hG : UserLoads nd nodes.length loads' G)
    (h0 : userRun tab f nd m count sp de sparse cons els mats nodes loads = .ok full0)
    (h' : userRun tab f nd m count sp de sparse' cons els mats nodes loads' = .ok full') :
    (∀ᶠ t in 𝓝 0, ∃ full, userRun tab f nd m count sp de sparse cons els (tuned g r t mats) nodes loads = .ok full) ∧
    ∀ full : ℝ → Table ℝ, (∀ᶠ t in 𝓝 0, userRun tab f nd m count sp de sparse cons els (tuned g r t mats) nodes loads = .ok (full t)) →
      HasDerivAt (fun t => loadWork nd nodes.length G (fieldOf (full t))) (- weightedIn nd ws ks (fieldOf full') (fieldOf full0)) 0 := by
  obtain ⟨h1, h2⟩ := (C167_user (tab := tab) h hcf hn hst h0).limits ℝ (𝓝 0) (fun _ => nodes) (fun t => tuned g r t mats) (fun _ => loads)
    ⟨const_tends _ _, tuned_tends g r h3, const_tends _ _, fun _ => rfl⟩
  refine ⟨h1.mono fun t ht => ht.2, fun full hfull => ?_⟩
  have t0 : tuned g r 0 mats = mats := by
    apply List.ext_getElem?
    intro q
    cases hq : mats[q]? with
    | none => simp [tuned, hq]
    | some row =>
      have hl := h3 row (List.mem_of_getElem? hq)
      match row, hl with
      | [E, x, ρ], _ =>
        rw [tuned_row hq]
        simp
  have hz : full 0 = full0 := by
    have := hfull.self_of_nhds
    rw [t0] at this
    exact Except.ok.inj (this.symm.trans h0)
  have lim := h2 full hfull
  rw [← hz] at lim ⊢
  have e0 := (h.virtual hF).1 (h.equilibrium hst h0)
  have e' := (h.virtual hG).1 (h.equilibrium hst h')
  have hin := describes_inn h.members
  obtain ⟨vs, hv⟩ : ∃ vs, Weights r mats.length els vs := by
    unfold Weights at hg ⊢
    clear h h0 h' h1 h2 hfull
    induction hg with
    | nil => exact ⟨[], .nil⟩
    | cons a _ ih =>
      obtain ⟨mi, q, a1, a2, -⟩ := a
      obtain ⟨vs, hv⟩ := ih
      exact ⟨r q :: vs, .cons ⟨mi, q, a1, a2, rfl⟩ hv⟩
  have hlen : ws.length = ks.length := by rw [← hg.length_eq, h.members.length_eq]
  rw [weightedIn_zip]
  have key := adjoint_rate (ws.zip ks) (c := fun x t => 1 + t * x.1) (c' := fun x => x.1) (d := fun _ _ => 0) (d' := fun _ => 0)
    (b := fun x U => x.2.form nd (fieldOf full') U) (e := fun _ _ => 0) (U := fun t => fieldOf (full t)) (J := fun t => loadWork nd nodes.length G (fieldOf (full t)))
    (fun x _ => by simpa using linear_rate 1 x.1) (fun _ _ => hasDerivAt_const _ _)
    (fun x hx => form_tends (hin x.2 (List.of_mem_zip hx).2) (U := fun t => fieldOf (full t)) lim _) (fun _ _ => tendsto_const_nhds) (by
      filter_upwards [hfull, h1] with t a1 a2
      obtain ⟨⟨kt, k1, k2⟩, -⟩ := a2
      have ct : UserCase nd n m f count sp de cons els (tuned g r t mats) nodes kt :=
        ⟨h.element, h.model, h.counts, h.some_dofs, h.room, k1, h.sparse, h.dense⟩
      have et := (ct.virtual hF).1 (ct.equilibrium k2 a1)
      obtain ⟨ms, hm⟩ := weighed h.members
      obtain ⟨mt, hmt⟩ := weighed k1
      have fo := (described_forms (nd := nd) hp h3 h.members hm k1 hmt hg hv (fieldOf full') (fieldOf (full t))).1
      have sym := forms_symm ks (form_symm_of hsym)
      rw [hz, e'.2 _ et.1, e'.2 _ e0.1, sym, sym (fieldOf full0), ← e0.2 _ e'.1, et.2 _ e'.1, fo, weightedIn_zip]
      have one : ∀ (ws : List ℝ) (ks : List (Member ℝ)), ws.length = ks.length → ∀ V U : ℕ → ℕ → ℝ,
          (ks.map fun m => m.form nd V U).sum = ((ws.zip ks).map fun x => x.2.form nd V U).sum := by
        intro ws ks hl V U
        have : ks.map (fun m => m.form nd V U) = ((ws.zip ks).map Prod.snd).map fun m => m.form nd V U := by
          rw [List.map_snd_zip hl.ge]
        rw [this, List.map_map]
        rfl
      rw [one ws ks hlen]
      generalize ws.zip ks = l
      induction l with
      | nil => simp
      | cons x l ih =>
        simp only [List.map_cons, List.sum_cons] at ih ⊢
        linarith)
  simpa using key

/-- C171.  The routines of `uelutil` passed as `uel`: the rate of each displacement, and the work of the loads. -/
theorem C171_library (hf : Unlisted nd n f) (h : UserCase nd n m f count sp de cons els mats nodes ks) (hn : ∀ r ∈ nodes, r.length = nd + 1)
    (h3 : ∀ row ∈ mats, row.length = 3) (hg : Weights g mats.length els ws) (hst : Stable cons nd ks) (hF : UserLoads nd nodes.length loads F)
    (h0 : userRun tab f nd m count sp de sparse cons els mats nodes loads = .ok full0) {full : ℝ → Table ℝ}
    (hfull : ∀ᶠ t in 𝓝 0, userRun tab f nd m count sp de sparse cons els (tuned g r t mats) nodes loads = .ok (full t)) :
    (∀ p j, p < nodes.length → j < nd → UserLoads nd nodes.length loads' (fun a b => if a = p ∧ b = j then 1 else 0) →
      userRun tab f nd m count sp de sparse' cons els mats nodes loads' = .ok full' →
      HasDerivAt (fun t => fieldOf (full t) p j) (- weightedIn nd ws ks (fieldOf full') (fieldOf full0)) 0) ∧
    HasDerivAt (fun t => loadWork nd nodes.length F (fieldOf (full t))) (- weightedIn nd ws ks (fieldOf full0) (fieldOf full0)) 0 ∧
    (ElasticMats mats els → (∀ x ∈ ws, 0 ≤ x) → - weightedIn nd ws ks (fieldOf full0) (fieldOf full0) ≤ 0) := by
  obtain ⟨l1, l2, l3⟩ := C155_library hf h.members
  refine ⟨fun p j hp hj hG h' => ?_, (C171_user (C170_proportional hf) h (C167_library hf) hn h3 hg hst l2 hF hF h0 h0).2 full hfull, fun he hw => ?_⟩
  · have key := (C171_user (C170_proportional hf) h (C167_library hf) hn h3 hg hst l2 hF hG h0 h').2 full hfull
    simp only [loadWork_unit hp hj] at key
    exact key
  · rw [neg_nonpos, weightedIn_zip]
    refine List.sum_nonneg fun y hy => ?_
    obtain ⟨x, hx, rfl⟩ := List.mem_map.1 hy
    exact mul_nonneg (hw _ (List.of_mem_zip hx).1) (l3 he _ (List.of_mem_zip hx).2 _)

end

/-! ## Cases -/

section demo

theorem chosen_run {P : ℝ → Table ℝ → Prop} (h : ∀ᶠ t in 𝓝 0, ∃ w, P t w) : ∃ w : ℝ → Table ℝ, ∀ᶠ t in 𝓝 0, P t (w t) := by
  classical
  refine ⟨fun t => if ht : ∃ w, P t w then ht.choose else [], ?_⟩
  filter_upwards [h] with t ht
  rw [dif_pos ht]
  exact ht.choose_spec

/-- Case for C171: the rate of the horizontal displacement of the corner of the frame of the tests, as modulus and area of its beams
grow by the fraction `t`, by the response to a unit force; the work of the loads does not grow. -/
example (sparse : Bool) : ∃ (full0 full' : Table ℝ) (full : ℝ → Table ℝ),
    frameRun Real.sqrt cramerR cramerR sparse testFrame.1 testFrame.2.1 (growing 0) testFrame.2.2.2.1 [[1, 1, 0, 0]] = .ok full' ∧
    (∀ᶠ t in 𝓝 0, frameRun Real.sqrt cramerR cramerR sparse testFrame.1 testFrame.2.1 (growing t) testFrame.2.2.2.1 testFrame.2.2.2.2 = .ok (full t)) ∧
    full 0 = full0 ∧ HasDerivAt (fun t => fieldOf (full t) 1 0) (- (growingPaths.map fun s => s.exchange (fieldOf full') (fieldOf full0)).sum) 0 ∧
    - (growingPaths.map fun s => s.exchange (fieldOf full0) (fieldOf full0)).sum ≤ 0 := by
  have hn : ∀ r ∈ testFrame.2.2.2.1, r.length = 3 := by
    intro r hr
    simp only [testFrame, List.mem_cons, List.not_mem_nil, or_false] at hr
    rcases hr with rfl | rfl | rfl <;> rfl
  have e0 : testFrame.2.2.1 = growing 0 := by simp [testFrame, growing]
  have hb := testFrame_beams
  obtain ⟨ks, hk⟩ : ∃ ks, List.Forall₂ (IsMember (Routine Real.sqrt) testFrame.2.2.1 testFrame.2.2.2.1) testFrame.2.1 ks := by
    obtain ⟨_, _, _, _, h0⟩ := hb [0, 8, 0, 0, 1] (by simp [testFrame])
    obtain ⟨_, _, _, _, h1⟩ := hb [1, 8, 0, 1, 2] (by simp [testFrame])
    obtain ⟨m0, h0⟩ := h0.exists_member sqrtFn_real
    obtain ⟨m1, h1⟩ := h1.exists_member sqrtFn_real
    exact ⟨[m0, m1], .cons h0 (.cons h1 .nil)⟩
  have hst := testFrame_stable hk
  obtain ⟨full0, r0, -⟩ := testFrame_solved sparse
  obtain ⟨full', r', -⟩ := C117_solved testFrame_frame hk hst cramerR_ok cramerR_ok sparse (loads := [[1, 1, 0, 0]]) (by
    intro L hL
    rw [List.mem_singleton] at hL
    subst hL
    exact ⟨by simp, 1, (names_nat (p := 1) (by simp [testFrame]) (by simp)).2 rfl⟩)
  have hF : FrameLoads testFrame.2.2.2.1.length testFrame.2.2.2.2 _ := second_load (-12000) (-24000) (-6000)
  have hG : FrameLoads testFrame.2.2.2.1.length [[1, 1, 0, 0]] fun a b => if a = 1 ∧ b = 0 then 1 else 0 := by
    intro p hp j hj
    have := second_load 1 0 0 p hp j hj
    have e : (if p = 1 ∧ j = 0 then (1 : ℝ) else 0) = if p = 1 then [1, 0, 0].getD j 0 else 0 := by
      by_cases h1 : p = 1
      · rcases (by omega : j = 0 ∨ j = 1 ∨ j = 2) with rfl | rfl | rfl <;> simp [h1]
      · simp [h1]
    dsimp only at this ⊢
    rw [e]
    exact this
  rw [e0] at hk r0 r'
  have hrows : ∀ᶠ t in 𝓝 0, BeamRows (growing t) testFrame.2.2.2.1 testFrame.2.1 growingPaths t := Filter.Eventually.of_forall growing_rows
  obtain ⟨full, hfull⟩ := chosen_run (C171_frames testFrame_frame hn growing_tends hk hst cramerR_ok cramerR_ok growing_smooth hrows hF hG r0 r').1
  refine ⟨full0, full', full, r', hfull, Except.ok.inj (hfull.self_of_nhds.symm.trans r0),
    C171_frame_displacement testFrame_frame hn growing_tends hk hst cramerR_ok cramerR_ok growing_smooth hrows hF (by simp [testFrame]) (by norm_num) hG r0 r' hfull,
    (C171_frame_compliance testFrame_frame hn growing_tends hk hst cramerR_ok cramerR_ok growing_smooth hrows hF r0 hfull).2 ?_⟩
  have d1 : ∀ a b X L, deriv (growingPath a b X L).EI 0 = 26600000 := fun a b X L => by
    simp [growingPath]
  have d2 : ∀ a b X L, deriv (growingPath a b X L).EA 0 = 8000000000 * 2 := fun a b X L => by
    simpa [growingPath] using ((((hasDerivAt_id (0 : ℝ)).const_add 1).pow 2).const_mul 8000000000).deriv
  simp [growingPaths, d1, d2]

/-- Case for C171: the tetrahedron under a vertical load at its free node, as its modulus grows by the fraction `3 t`. -/
example (tab : ℤ → Py (Uel ℝ)) (sparse : Bool) : ∃ (a : Member ℝ) (full0 : Table ℝ) (full : ℝ → Table ℝ),
    (∀ᶠ t in 𝓝 0, userRun tab elastTet4 3 12 (fun _ => .ok 12) cramerR cramerR sparse loneHeld loneEls (tuned (fun _ => 3) (fun _ => 0) t loneMats) loneNodes
      [[3, 0, 0, -1]] = .ok (full t)) ∧
    HasDerivAt (fun t => loadWork 3 4 (fun p j => if p = 3 ∧ j = 2 then -1 else 0) (fieldOf (full t))) (- weightedIn 3 [3] [a] (fieldOf full0) (fieldOf full0)) 0 := by
  obtain ⟨a, hb, -⟩ := lone_body
  have hcount : Counts (fun _ => .ok 12) (4 * 3) loneEls := by
    intro el hel
    simp only [loneEls, List.mem_cons, List.not_mem_nil, or_false] at hel
    subst hel
    exact ⟨9, rfl, rfl⟩
  have hl : loneHeld.length = loneNodes.length := rfl
  have hst : Stable loneHeld 3 [a] := (C136_stable_iff hb hl).2 (C136_three_pins hl (p := 0) (q := 1) (r := 2) (by simp [loneNodes])
    (by simp [loneNodes]) (by simp [loneNodes]) (.inl (by norm_num [spread, coordOf, fieldOf, entry, loneNodes]))
    (loneHeld_fixed 0 (by omega)) (loneHeld_fixed 1 (by omega)) (loneHeld_fixed 2 (by omega)))
  have hcase : UserCase 3 4 12 elastTet4 (fun _ => .ok 12) cramerR cramerR loneHeld loneEls loneMats loneNodes [a] :=
    ⟨elementOf_solid .tet4, loneHeld_model, hcount, by norm_num, by norm_num, hb.members, cramerR_ok, cramerR_ok⟩
  obtain ⟨full0, r0, -⟩ := C135_solved (tab := tab) (loads := [[3, 0, 0, -1]]) hcase.element hcase.model hcase.counts hcase.some_dofs
    hcase.room hcase.members hst cramerR_ok cramerR_ok sparse (by
      intro L hL
      rw [List.mem_singleton] at hL
      subst hL
      exact ⟨by simp, 3, (names_nat (p := 3) (by simp [loneNodes]) (by simp)).2 rfl⟩)
  have hn : ∀ r ∈ loneNodes, r.length = 3 + 1 := by
    intro r hr
    simp only [loneNodes, List.mem_cons, List.not_mem_nil, or_false] at hr
    rcases hr with rfl | rfl | rfl | rfl <;> rfl
  have hF : UserLoads 3 loneNodes.length [[3, 0, 0, -1]] (fun p j => if p = 3 ∧ j = 2 then (-1 : ℝ) else 0) := fun p _ j hj => by
    have n1 : ∀ q, Names loneNodes.length ([3, 0, 0, -1] : List ℝ) q ↔ q = 3 := fun q => names_nat (p := 3) (q := q) (by simp [loneNodes]) (by simp)
    by_cases hp : p = 3
    · subst hp
      refine .inr ⟨[], [3, 0, 0, -1], [], rfl, (n1 3).2 rfl, by simp, ?_⟩
      interval_cases j <;> simp
    · refine .inl ⟨fun L hL hN => ?_, by simp [hp]⟩
      rw [List.mem_singleton] at hL
      subst hL
      exact hp ((n1 p).1 hN)
  have weights : Weights (fun _ => 3) loneMats.length loneEls [3] := .cons ⟨0, 0, rfl, ⟨by simp [loneMats], .inl rfl⟩, rfl⟩ .nil
  have l2 := (C155_library (K := ℝ) .tet4 hcase.members).2.1
  obtain ⟨full, hfull⟩ := chosen_run (C171_user (r := fun _ => 0) (C170_proportional .tet4) hcase (C167_library .tet4) hn (by simp [loneMats]) weights hst l2 hF hF r0 r0).1
  exact ⟨a, full0, full, hfull, (C171_library (loads' := []) (full' := []) (sparse' := sparse) .tet4 hcase hn (by simp [loneMats]) weights hst hF r0 hfull).2.1⟩

end demo
end SolidsPy
