import Verif.Props.Success
import Verif.Props.Numbering
import Mathlib.LinearAlgebra.FiniteDimensional.Lemmas

/-! # C147: statics of trusses -/

set_option linter.unusedSectionVars false

namespace SolidsPy
open Spec Assem Matrix

section
variable {K : Type} [Field K] [LinearOrder K] [IsStrictOrderedRing K] [FloorRing K]
variable {sq : K → K} {sp de : Sol.Solver K} {d : Gui.Data K} {plot : Bool} {res : Gui.Result K}
  {ms : List (Member K)} {bars : List (Bar K)}

/-- The bars with their tensions. -/
def Spec.tensed (bars : List (Bar K)) (N : Fin bars.length → K) : List (Bar K × K) := List.ofFn fun i => (bars[i], N i)

/-- The tensions balance the loads at the free joints in the free directions. -/
def Spec.Balances (n : ℕ) (cons loads : List (List K)) (bars : List (Bar K)) (N : Fin bars.length → K) : Prop :=
  ∀ p (j : Fin 2), Free cons 2 p j → ∀ x, IsLoad n loads p j x → jointForce (tensed bars N) p j + x = 0

/-- The tensions balance a unit force in direction `i` at joint `q`. -/
def Spec.BalancesUnit (cons : List (List K)) (bars : List (Bar K)) (q : ℕ) (i : Fin 2) (N : Fin bars.length → K) : Prop :=
  ∀ p (j : Fin 2), Free cons 2 p j → jointForce (tensed bars N) p j + (if p = q ∧ j = i then 1 else 0) = 0

/-- Elongation of a bar in a nodal field. -/
def Spec.Bar.stretch (b : Bar K) (u : ℕ → ℕ → K) : K := elongation b.X b.L fun q => u (b.ends q.1) q.2

/-- Twice the elastic energy stored by tensions (complementary energy). -/
def Spec.storedWork (bars : List (Bar K)) (N : Fin bars.length → K) : K :=
  ∑ i, N i ^ 2 * bars[i].L / (bars[i].E * bars[i].A)

/-- The tensions that stresses stand for. -/
def Spec.tensions (bars : List (Bar K)) (σ : List K) (i : Fin bars.length) : K := σ.getD i 0 * bars[i].A

theorem jointForce_tensed (N : Fin bars.length → K) (p : ℕ) (j : Fin 2) : jointForce (tensed bars N) p j =
    -∑ i, ∑ a : Fin 2, if bars[i].ends a = p then pull bars[i].X bars[i].L (N i) (a, j) else 0 := by
  unfold jointForce tensed
  rw [List.map_ofFn, List.sum_ofFn]
  rfl

/-- Virtual work: the work of the tensions on the elongations of a field is that of the balancing joint forces. -/
theorem bars_work {n : ℕ} (hn : ∀ b ∈ bars, ∀ a, b.ends a < n) (N : Fin bars.length → K) (u : ℕ → ℕ → K) :
    ∑ i, N i * bars[i].stretch u = -∑ p ∈ Finset.range n, ∑ j : Fin 2, u p j * jointForce (tensed bars N) p j := by
  simp only [jointForce_tensed, mul_neg, Finset.sum_neg_distrib, neg_neg, Finset.mul_sum]
  have e : ∑ p ∈ Finset.range n, ∑ j : Fin 2, ∑ i : Fin bars.length, ∑ a : Fin 2,
      u p j * (if bars[i].ends a = p then pull bars[i].X bars[i].L (N i) (a, j) else 0) =
      ∑ i : Fin bars.length, ∑ a : Fin 2, ∑ j : Fin 2, ∑ p ∈ Finset.range n,
      u p j * (if bars[i].ends a = p then pull bars[i].X bars[i].L (N i) (a, j) else 0) := by
    rw [Finset.sum_comm]
    simp_rw [Finset.sum_comm (s := Finset.range n)]
    rw [Finset.sum_comm]
    refine Finset.sum_congr rfl fun i _ => ?_
    rw [Finset.sum_comm]
  rw [e]
  refine Finset.sum_congr rfl fun i _ => ?_
  have e2 : ∀ a j : Fin 2, ∑ p ∈ Finset.range n, u p j * (if bars[i].ends a = p then pull bars[i].X bars[i].L (N i) (a, j) else 0) =
      u (bars[i].ends a) j * pull bars[i].X bars[i].L (N i) (a, j) := by
    intro a j
    simp only [mul_ite, mul_zero]
    have he : bars[i].ends a < n := hn _ (List.getElem_mem i.2) a
    rw [Finset.sum_ite_eq, if_pos (Finset.mem_range.2 he)]
  rw [Finset.sum_congr rfl fun a _ => Finset.sum_congr rfl fun j _ => e2 a j]
  generalize bars[i] = b
  simp only [Fin.sum_univ_two, pull, Bar.stretch, elongation, Fin.val_zero, Fin.val_one]
  ring

theorem bars_ends (hb : List.Forall₂ (IsBar d.nodes d.mats) d.elements bars) : ∀ b ∈ bars, ∀ a, b.ends a < d.nodes.length := by
  intro b hb' a
  obtain ⟨i, hi, rfl⟩ := List.mem_iff_getElem.1 hb'
  have h := hb.get (i := i) (by rw [hb.length_eq]; exact hi) hi
  obtain ⟨_, _, _, _, -, -, h3, -⟩ := h
  exact (List.getElem?_eq_some_iff.1 (h3 a)).1

theorem bars_length (hb : List.Forall₂ (IsBar d.nodes d.mats) d.elements bars) : ∀ b ∈ bars, IsLength b.X b.L := by
  intro b hb'
  obtain ⟨i, hi, rfl⟩ := List.mem_iff_getElem.1 hb'
  have h := hb.get (i := i) (by rw [hb.length_eq]; exact hi) hi
  obtain ⟨_, _, _, _, -, -, -, h4⟩ := h
  exact h4

/-- Internal forces of a truss in a nodal field. -/
theorem bars_internal (hs : SqrtFn sq) (hms : Members sq d ms) (hb : List.Forall₂ (IsBar d.nodes d.mats) d.elements bars)
    (u : ℕ → ℕ → K) (p : ℕ) (j : Fin 2) :
    internal 2 ms u p j = -jointForce (tensed bars fun i => bars[i].E * bars[i].A / bars[i].L * bars[i].stretch u) p j := by
  rw [jointForce_tensed, neg_neg, truss_internal hs hb hms, ← List.sum_ofFn]
  congr 1
  refine List.ext_getElem (by simp) fun i h1 h2 => by simp [Bar.stretch]

/-- Stresses of a truss. -/
theorem bars_stress (hs : SqrtFn sq) {nodes mats disp : Table K} {els : List (List ℤ)} (hb : List.Forall₂ (IsBar nodes mats) els bars)
    (hd : disp.length = nodes.length) (hd2 : ∀ r ∈ disp, r.length = 2) {σ : List K}
    (hσ : Post.stressTruss sq nodes els mats disp = .ok σ) (i : Fin bars.length) :
    σ[(i : ℕ)]? = some (bars[i].E * bars[i].stretch (fieldOf disp) / bars[i].L) := by
  have hi' : (i : ℕ) < els.length := by rw [hb.length_eq]; exact i.2
  have hbi := hb.get (i := i) hi' i.2
  simp only [List.get_eq_getElem] at hbi
  change IsBar nodes mats els[(i : ℕ)] bars[i] at hbi
  generalize bars[i] = b at hbi
  have he : els[(i : ℕ)]? = some els[(i : ℕ)] := List.getElem?_eq_getElem _
  generalize els[(i : ℕ)] = el at hbi he
  have hL : IsLength b.X b.L := by
    obtain ⟨_, _, _, _, _, _, _, hL⟩ := hbi
    exact hL
  refine C53_stress (A := b.A) hs hσ ?_ hL
  obtain ⟨eid, mi', id, more, rfl, b2, b3, -⟩ := hbi
  refine ⟨_, mi', b.ends, id, fun _ => [], more, he, rfl, rfl, rfl, b2, fun a => ⟨b3 a, ?_⟩⟩
  obtain ⟨hlt, _⟩ := List.getElem?_eq_some_iff.1 (b3 a)
  rw [← hd] at hlt
  have hl := hd2 _ (List.getElem_mem hlt)
  unfold fieldOf entry
  dsimp only
  rw [List.getElem?_eq_getElem hlt]
  generalize disp[b.ends a]'hlt = r at hl
  match r, hl with
  | [x, y], _ => rfl

/-- C147.  The tensions are elastic: the area times the stress of each bar is `E A / L` times its elongation in the displacements
returned. -/
theorem C147_elastic (hs : SqrtFn sq) (hb : List.Forall₂ (IsBar d.nodes d.mats) d.elements bars)
    (hd : res.disp.length = d.nodes.length ∧ ∀ r ∈ res.disp, r.length = 2) {σ : List K}
    (hσ : Post.stressTruss sq d.nodes d.elements d.mats res.disp = .ok σ) (i : Fin bars.length) :
    tensions bars σ i = bars[i].E * bars[i].A / bars[i].L * bars[i].stretch (fieldOf res.disp) := by
  unfold tensions
  rw [List.getD_eq_getElem?_getD, bars_stress hs hb hd.1 hd.2 hσ i, Option.getD_some]
  ring

/-- The work of balanced tensions on a supported field. -/
theorem bars_work_free (hwf : WellFormed d) (hb : List.Forall₂ (IsBar d.nodes d.mats) d.elements bars) {u : ℕ → ℕ → K}
    (hu : Admissible d.cons 2 u) (N : Fin bars.length → K) (f : ℕ → Fin 2 → K)
    (hN : ∀ p (j : Fin 2), Free d.cons 2 p j → jointForce (tensed bars N) p j + f p j = 0) :
    ∑ i, N i * bars[i].stretch u = ∑ p ∈ Finset.range d.nodes.length, ∑ j : Fin 2, u p j * f p j := by
  rw [bars_work (bars_ends hb), ← Finset.sum_neg_distrib]
  refine Finset.sum_congr rfl fun p hp => ?_
  rw [← Finset.sum_neg_distrib]
  refine Finset.sum_congr rfl fun j _ => ?_
  by_cases h : Free d.cons 2 p j
  · rw [← mul_neg]
    congr 1
    linear_combination -hN p j h
  · rw [hu p j (by rw [hwf.size]; exact Finset.mem_range.1 hp) j.2 h, zero_mul, zero_mul, neg_zero]

/-- C147.  The tensions given by `stress_truss` balance the loads (C92, restated with all joints). -/
theorem C147_balances (hs : SqrtFn sq) (hwf : WellFormed d) (hsp : SolverOk sp) (hms : Members sq d ms) (hst : Stable d.cons 2 ms)
    (hb : List.Forall₂ (IsBar d.nodes d.mats) d.elements bars) (h : Gui.solidsAuto sq sp de d plot = .ok res) {σ : List K}
    (hσ : Post.stressTruss sq d.nodes d.elements d.mats res.disp = .ok σ) :
    Balances d.nodes.length d.cons d.loads bars (tensions bars σ) := by
  intro p j hf x hx
  have hl : σ.length = bars.length := by rw [mapM_length hσ, hb.length_eq]
  have e : List.zipWith (fun b s => (b, s * b.A)) bars σ = tensed bars (tensions bars σ) := by
    refine List.ext_getElem (by simp [tensed, hl]) fun i h1 h2 => ?_
    simp only [tensed, List.length_ofFn] at h2
    simp [tensed, tensions, hl ▸ h2]
  rw [← e]
  exact C92_method_of_joints hs hwf hsp hms hst hb h hσ hf hx

/-- C147.  Least work: of all tensions that balance the loads, those of the program store the least energy, and only those. -/
theorem C147_least_work (hs : SqrtFn sq) (hwf : WellFormed d) (hsp : SolverOk sp) (hms : Members sq d ms) (hst : Stable d.cons 2 ms)
    (hb : List.Forall₂ (IsBar d.nodes d.mats) d.elements bars) (hE : ∀ b ∈ bars, 0 < b.E * b.A)
    (h : Gui.solidsAuto sq sp de d plot = .ok res) {σ : List K}
    (hσ : Post.stressTruss sq d.nodes d.elements d.mats res.disp = .ok σ) {N : Fin bars.length → K}
    (hN : Balances d.nodes.length d.cons d.loads bars N) :
    storedWork bars N = storedWork bars (tensions bars σ) + storedWork bars (N - tensions bars σ) ∧
    storedWork bars (tensions bars σ) ≤ storedWork bars N ∧
    (storedWork bars N = storedWork bars (tensions bars σ) → N = tensions bars σ) := by
  obtain ⟨hd, he⟩ := C18_nodal_equilibrium hwf hsp hms hst h
  have hT := C147_balances hs hwf hsp hms hst hb h hσ
  set T := tensions bars σ with hTd
  have hEi : ∀ i : Fin bars.length, 0 < bars[i].E * bars[i].A := fun i => hE _ (List.getElem_mem _)
  have hLi : ∀ i : Fin bars.length, 0 < bars[i].L := fun i => (bars_length hb _ (List.getElem_mem _)).1
  have hlin : ∀ p j, jointForce (tensed bars (N - T)) p j = jointForce (tensed bars N) p j - jointForce (tensed bars T) p j := by
    intro p j
    simp only [jointForce_tensed]
    rw [neg_sub_neg, neg_eq_iff_eq_neg, neg_sub, ← Finset.sum_sub_distrib]
    refine Finset.sum_congr rfl fun i _ => ?_
    rw [← Finset.sum_sub_distrib]
    refine Finset.sum_congr rfl fun a _ => ?_
    split_ifs
    · fin_cases a <;> simp [pull] <;> ring
    · simp
  have hself := bars_work_free hwf hb he.1 (N - T) (fun _ _ => 0) (by
    intro p j hf
    have hx := he.2 p j hf
    rw [hwf.size] at hx
    rw [hlin]
    linear_combination hN p j hf _ hx - hT p j hf _ hx)
  simp only [mul_zero, Finset.sum_const_zero] at hself
  have hcross : ∑ i, (N - T) i * T i * bars[i].L / (bars[i].E * bars[i].A) = 0 := by
    rw [← hself]
    refine Finset.sum_congr rfl fun i _ => ?_
    rw [show T i = _ from C147_elastic hs hb hd hσ i]
    have h1 := left_ne_zero_of_mul (hEi i).ne'
    have h1' := right_ne_zero_of_mul (hEi i).ne'
    have h2 := (hLi i).ne'
    field_simp
  have hsplit : storedWork bars N = storedWork bars T + storedWork bars (N - T) := by
    have : storedWork bars N = storedWork bars T + storedWork bars (N - T) +
        2 * ∑ i, (N - T) i * T i * bars[i].L / (bars[i].E * bars[i].A) := by
      unfold storedWork
      rw [Finset.mul_sum, ← Finset.sum_add_distrib, ← Finset.sum_add_distrib]
      refine Finset.sum_congr rfl fun i _ => ?_
      simp only [Pi.sub_apply]
      ring
    rw [this, hcross, mul_zero, add_zero]
  have hnn : ∀ i ∈ Finset.univ, 0 ≤ (N - T) i ^ 2 * bars[i].L / (bars[i].E * bars[i].A) := fun i _ =>
    div_nonneg (mul_nonneg (sq_nonneg _) (hLi i).le) (hEi i).le
  have hpos : 0 ≤ storedWork bars (N - T) := Finset.sum_nonneg hnn
  refine ⟨hsplit, by linarith, fun e => ?_⟩
  have h0 : storedWork bars (N - T) = 0 := by linarith
  funext i
  have := (Finset.sum_eq_zero_iff_of_nonneg hnn).1 h0 i (Finset.mem_univ i)
  rw [div_eq_zero_iff] at this
  rcases this with h1 | h1
  · rcases mul_eq_zero.1 h1 with h1 | h1
    · exact sub_eq_zero.1 (pow_eq_zero_iff two_ne_zero |>.1 h1)
    · exact absurd h1 (hLi i).ne'
  · exact absurd h1 (hEi i).ne'

/-- C147.  Unit load: the displacement of a free joint is the sum of `N n L / (E A)` with `n` any tensions balancing a unit force
there. -/
theorem C147_unit_load (hs : SqrtFn sq) (hwf : WellFormed d) (hsp : SolverOk sp) (hms : Members sq d ms) (hst : Stable d.cons 2 ms)
    (hb : List.Forall₂ (IsBar d.nodes d.mats) d.elements bars) (hE : ∀ b ∈ bars, b.E * b.A ≠ 0)
    (h : Gui.solidsAuto sq sp de d plot = .ok res) {σ : List K}
    (hσ : Post.stressTruss sq d.nodes d.elements d.mats res.disp = .ok σ) {q : ℕ} {c : Fin 2} (hq : q < d.nodes.length)
    {n : Fin bars.length → K} (hn : BalancesUnit d.cons bars q c n) :
    entry res.disp q c = some (∑ i, tensions bars σ i * n i * bars[i].L / (bars[i].E * bars[i].A)) := by
  obtain ⟨hd, he⟩ := C18_nodal_equilibrium hwf hsp hms hst h
  have hw := bars_work_free hwf hb he.1 n (fun p j => if p = q ∧ j = c then 1 else 0) hn
  have hr : ∑ p ∈ Finset.range d.nodes.length, ∑ j : Fin 2, fieldOf res.disp p j * (if p = q ∧ j = c then 1 else 0) =
      fieldOf res.disp q c := by
    simp only [ite_and, mul_ite, mul_one, mul_zero]
    rw [Finset.sum_eq_single q]
    · simp
    · intro p _ hp
      simp [hp]
    · intro hh
      exact absurd (Finset.mem_range.2 hq) hh
  rw [hr] at hw
  have hx : entry res.disp q c = some (fieldOf res.disp q c) := by
    have hl : q < res.disp.length := by rw [hd.1]; exact hq
    have hr := hd.2 _ (List.getElem_mem hl)
    unfold fieldOf entry
    rw [List.getElem?_eq_getElem hl, Option.bind_some, List.getElem?_eq_getElem (by rw [hr]; exact c.2)]
    rfl
  rw [hx, ← hw]
  congr 1
  refine Finset.sum_congr rfl fun i _ => ?_
  rw [C147_elastic hs hb hd hσ i]
  have h1 := hE _ (List.getElem_mem i.2)
  have h2 := (bars_length hb _ (List.getElem_mem i.2)).1.ne'
  change bars[i].E * bars[i].A ≠ 0 at h1
  change bars[i].L ≠ 0 at h2
  have h3 := left_ne_zero_of_mul h1
  have h4 := right_ne_zero_of_mul h1
  field_simp

/-- C147.  A truss is stable when no supported field but zero leaves all lengths unchanged, and only then. -/
theorem C147_stable_iff (hs : SqrtFn sq) (hwf : WellFormed d) (hms : Members sq d ms)
    (hb : List.Forall₂ (IsBar d.nodes d.mats) d.elements bars) (hE : ∀ b ∈ bars, 0 < b.E * b.A) :
    Stable d.cons 2 ms ↔ ∀ u : ℕ → ℕ → K, Admissible d.cons 2 u → (∀ b ∈ bars, b.stretch u = 0) →
      ∀ p j, p < d.cons.length → j < 2 → u p j = 0 := by
  constructor
  · intro h u hu h0
    refine h u hu fun p j hf => ?_
    have := bars_internal hs hms hb u p ⟨j, hf.1⟩
    rw [this, jointForce_tensed, neg_neg]
    refine Finset.sum_eq_zero fun i _ => Finset.sum_eq_zero fun a _ => ?_
    have : bars[i].stretch u = 0 := h0 _ (List.getElem_mem _)
    rw [this, mul_zero]
    split_ifs
    · fin_cases a <;> simp [pull]
    · rfl
  · intro h u hu h0
    refine h u hu fun b hb' => ?_
    have hw := bars_work_free hwf hb hu (fun i => bars[i].E * bars[i].A / bars[i].L * bars[i].stretch u) (fun _ _ => 0) (by
      intro p j hf
      have := h0 p j hf
      rw [bars_internal hs hms hb u p j, neg_eq_zero] at this
      rw [this, zero_add])
    simp only [mul_zero, Finset.sum_const_zero] at hw
    have hEi : ∀ i : Fin bars.length, 0 < bars[i].E * bars[i].A / bars[i].L := fun i =>
      div_pos (hE _ (List.getElem_mem _)) (bars_length hb _ (List.getElem_mem _)).1
    have hz := (Finset.sum_eq_zero_iff_of_nonneg (by
      intro i _
      rw [mul_assoc]
      exact mul_nonneg (hEi i).le (mul_self_nonneg _))).1 hw
    obtain ⟨k, hk, rfl⟩ := List.mem_iff_getElem.1 hb'
    have := hz ⟨k, hk⟩ (Finset.mem_univ _)
    rw [mul_assoc] at this
    rcases mul_eq_zero.1 this with h1 | h1
    · exact absurd h1 (hEi ⟨k, hk⟩).ne'
    · exact mul_self_eq_zero.1 h1

/-! ## Counting bars -/

open Classical in
/-- The supported field with given values at the free degrees of freedom. -/
noncomputable def spreadFree (cons : List (List K)) (neq : ℕ) (w : Fin neq → K) (p j : ℕ) : K :=
  if Free cons 2 p j then (if h : Assem.rank cons 2 p j < neq then w ⟨_, h⟩ else 0) else 0

theorem spreadFree_admissible (cons : List (List K)) (neq : ℕ) (w : Fin neq → K) : Admissible cons 2 (spreadFree cons neq w) :=
  fun _ _ _ _ h => if_neg h

theorem stretch_add (b : Bar K) (u v : ℕ → ℕ → K) : b.stretch (fun p j => u p j + v p j) = b.stretch u + b.stretch v := by
  unfold Bar.stretch elongation
  ring

theorem stretch_smul (b : Bar K) (a : K) (u : ℕ → ℕ → K) : b.stretch (fun p j => a * u p j) = a * b.stretch u := by
  unfold Bar.stretch elongation
  ring

/-- Elongations as a linear map of the values at the free degrees of freedom. -/
noncomputable def stretchMap (cons : List (List K)) (neq : ℕ) (bars : List (Bar K)) : (Fin neq → K) →ₗ[K] (Fin bars.length → K) where
  toFun w i := bars[i].stretch (spreadFree cons neq w)
  map_add' v w := by
    funext i
    have e : spreadFree cons neq (v + w) = fun p j => spreadFree cons neq v p j + spreadFree cons neq w p j := by
      funext p j
      unfold spreadFree
      split_ifs <;> simp
    rw [e, stretch_add]
    rfl
  map_smul' a w := by
    funext i
    have e : spreadFree cons neq (a • w) = fun p j => a * spreadFree cons neq w p j := by
      funext p j
      unfold spreadFree
      split_ifs <;> simp
    rw [e, stretch_smul]
    rfl

theorem stretchMap_injective (hs : SqrtFn sq) (hwf : WellFormed d) (hms : Members sq d ms)
    (hb : List.Forall₂ (IsBar d.nodes d.mats) d.elements bars) (hE : ∀ b ∈ bars, 0 < b.E * b.A) (hst : Stable d.cons 2 ms)
    {neq : ℕ} {bc : List (List ℤ)} (hq : eqcounter d.cons 2 = .ok (neq, bc)) :
    Function.Injective (stretchMap d.cons neq bars) := by
  rw [← LinearMap.ker_eq_bot, LinearMap.ker_eq_bot']
  intro w hw
  have h0 := (C147_stable_iff hs hwf hms hb hE).1 hst (spreadFree d.cons neq w) (spreadFree_admissible _ _ _) (by
    intro b hb'
    obtain ⟨k, hk, rfl⟩ := List.mem_iff_getElem.1 hb'
    exact congrFun hw ⟨k, hk⟩)
  funext k
  obtain ⟨p, j, hf, hr⟩ := exists_free hq k.2
  have hp : p < d.cons.length := by
    obtain ⟨-, x, hx, -⟩ := hf
    obtain ⟨row, h1, -⟩ := entry_some.1 hx
    exact (List.getElem?_eq_some_iff.1 h1).1
  have := h0 p j hp hf.1
  rw [spreadFree, if_pos hf, dif_pos (by rw [hr]; exact k.2)] at this
  rw [Pi.zero_apply, ← this]
  congr 1
  exact Fin.ext hr.symm

/-- C147.  Maxwell's count: a stable truss has at least as many bars as equations. -/
theorem C147_maxwell (hs : SqrtFn sq) (hwf : WellFormed d) (hms : Members sq d ms)
    (hb : List.Forall₂ (IsBar d.nodes d.mats) d.elements bars) (hE : ∀ b ∈ bars, 0 < b.E * b.A) (hst : Stable d.cons 2 ms)
    {neq : ℕ} {bc : List (List ℤ)} (hq : eqcounter d.cons 2 = .ok (neq, bc)) : neq ≤ d.elements.length := by
  have := LinearMap.finrank_le_finrank_of_injective (stretchMap_injective hs hwf hms hb hE hst hq)
  simpa [hb.length_eq] using this

/-- C147.  With as many bars as equations the tensions are determined by balance alone. -/
theorem C147_determinate (hs : SqrtFn sq) (hwf : WellFormed d) (hsp : SolverOk sp) (hms : Members sq d ms) (hst : Stable d.cons 2 ms)
    (hb : List.Forall₂ (IsBar d.nodes d.mats) d.elements bars) (hE : ∀ b ∈ bars, 0 < b.E * b.A)
    {bc : List (List ℤ)} (hq : eqcounter d.cons 2 = .ok (d.elements.length, bc))
    (h : Gui.solidsAuto sq sp de d plot = .ok res) {σ : List K}
    (hσ : Post.stressTruss sq d.nodes d.elements d.mats res.disp = .ok σ) {N : Fin bars.length → K}
    (hN : Balances d.nodes.length d.cons d.loads bars N) : tensions bars σ = N := by
  have hT := C147_balances hs hwf hsp hms hst hb h hσ
  obtain ⟨hd, he⟩ := C18_nodal_equilibrium hwf hsp hms hst h
  have hinj := stretchMap_injective hs hwf hms hb hE hst hq
  have hsur := (LinearMap.injective_iff_surjective_of_finrank_eq_finrank (f := stretchMap d.cons d.elements.length bars)
    (by simp [hb.length_eq])).1 hinj
  obtain ⟨w, hw⟩ := hsur (tensions bars σ - N)
  have hadm := spreadFree_admissible d.cons d.elements.length w
  have h0 : ∀ p (j : Fin 2), Free d.cons 2 p j → jointForce (tensed bars (tensions bars σ)) p j + internal 2 ms (fieldOf res.disp) p j = 0 ∧
      jointForce (tensed bars N) p j + internal 2 ms (fieldOf res.disp) p j = 0 := by
    intro p j hf
    have hx := he.2 p j hf
    rw [hwf.size] at hx
    exact ⟨hT p j hf _ hx, hN p j hf _ hx⟩
  have w1 := bars_work_free hwf hb hadm (tensions bars σ) (fun p j => internal 2 ms (fieldOf res.disp) p j) fun p j hf => (h0 p j hf).1
  have w2 := bars_work_free hwf hb hadm N (fun p j => internal 2 ms (fieldOf res.disp) p j) fun p j hf => (h0 p j hf).2
  have e : ∑ i, (tensions bars σ - N) i * (tensions bars σ - N) i = 0 := by
    rw [← sub_eq_zero.2 (w1.trans w2.symm), ← Finset.sum_sub_distrib]
    refine Finset.sum_congr rfl fun i _ => ?_
    have := congrFun hw i
    change bars[i].stretch _ = _ at this
    rw [this]
    simp only [Pi.sub_apply]
    ring
  funext i
  have := (Finset.sum_eq_zero_iff_of_nonneg fun i _ => mul_self_nonneg _).1 e i (Finset.mem_univ i)
  exact sub_eq_zero.1 (mul_self_eq_zero.1 this)

end

/-! ## The truss of the notebook -/

/-- The truss of `/repo/examples/simple_truss/simple_truss.ipynb`, code cells 3-6, with any base `b`, height `h`, materials and load
`W`; the columns of the supports are kept apart, as `solids_auto` takes them. -/
noncomputable def simpleTruss (b h : ℝ) (E A : Fin 3 → ℝ) (W : ℝ) : Gui.Data ℝ where
  nodes := [[0, b, 0], [1, 0, h], [2, 0, 0]]
  cons := [[0, 0], [-1, 0], [-1, -1]]
  elements := [[0, 6, 0, 2, 0], [1, 6, 1, 0, 1], [2, 6, 2, 1, 2]]
  mats := [[E 0, A 0], [E 1, A 1], [E 2, A 2]]
  loads := [[0, 0, -W], [1, 0, 0]]

/-- Its bars. -/
noncomputable def simpleBars (b h : ℝ) (E A : Fin 3 → ℝ) : List (Bar ℝ) :=
  [⟨![2, 0], !![0, 0; b, 0], E 0, A 0, b⟩, ⟨![0, 1], !![b, 0; 0, h], E 1, A 1, Real.sqrt (b ^ 2 + h ^ 2)⟩,
   ⟨![1, 2], !![0, h; 0, 0], E 2, A 2, h⟩]

section
variable {b h : ℝ} {E A : Fin 3 → ℝ} {W : ℝ}

theorem simple_bars (hb : 0 < b) (hh : 0 < h) : List.Forall₂ (IsBar (simpleTruss b h E A W).nodes (simpleTruss b h E A W).mats)
    (simpleTruss b h E A W).elements (simpleBars b h E A) := by
  refine .cons ⟨0, 0, ![2, 0], [], rfl, rfl, ?_, ?_⟩ (.cons ⟨1, 1, ![0, 1], [], rfl, rfl, ?_, ?_⟩
    (.cons ⟨2, 2, ![1, 2], [], rfl, rfl, ?_, ?_⟩ .nil))
  · intro a; fin_cases a <;> simp [simpleTruss]
  · exact ⟨hb, by simp; ring⟩
  · intro a; fin_cases a <;> simp [simpleTruss]
  · refine ⟨Real.sqrt_pos.2 (by positivity), ?_⟩
    rw [Real.mul_self_sqrt (by positivity)]
    simp
  · intro a; fin_cases a <;> simp [simpleTruss]
  · exact ⟨hh, by simp; ring⟩

theorem simple_plane : PlaneModel (simpleTruss b h E A W) where
  nodes := by simp [simpleTruss]
  types := by
    intro el hel ty hty
    simp only [simpleTruss, List.mem_cons, List.not_mem_nil, or_false] at hel
    rcases hel with rfl | rfl | rfl <;> simp at hty <;> simp [← hty]

theorem simple_wf : WellFormed (simpleTruss b h E A W) where
  codes := by
    intro i j x hj hx
    obtain ⟨row, h1, h2⟩ := entry_some.1 hx
    have h1 := List.mem_of_getElem? h1
    have h2 := List.mem_of_getElem? h2
    simp only [simpleTruss, List.mem_cons, List.not_mem_nil, or_false] at h1
    rcases h1 with rfl | rfl | rfl <;> simp at h2
    · simp [h2]
    · rcases h2 with h2 | h2 <;> simp [h2]
    · simp [h2]
  width := by simp [simpleTruss]
  size := rfl

theorem simple_free (p j : ℕ) : Free (simpleTruss b h E A W).cons 2 p j ↔ (p = 0 ∧ j < 2) ∨ (p = 1 ∧ j = 1) := by
  unfold Free
  constructor
  · rintro ⟨hj, x, hx, h1, h2⟩
    match p, j, hj with
    | 0, j, hj => exact Or.inl ⟨rfl, hj⟩
    | 1, 1, _ => exact Or.inr ⟨rfl, rfl⟩
    | 1, 0, _ => simp [entry, simpleTruss] at hx; linarith
    | 2, 0, _ => simp [entry, simpleTruss] at hx; linarith
    | 2, 1, _ => simp [entry, simpleTruss] at hx; linarith
    | p + 3, j, _ => simp [entry, simpleTruss] at hx
  · rintro (⟨rfl, hj⟩ | ⟨rfl, rfl⟩)
    · refine ⟨hj, 0, ?_, by norm_num, by norm_num⟩
      rcases (by omega : j = 0 ∨ j = 1) with rfl | rfl <;> simp [entry, simpleTruss]
    · exact ⟨by norm_num, 0, by simp [entry, simpleTruss], by norm_num, by norm_num⟩

theorem simple_positive (hE : ∀ i, 0 < E i) (hA : ∀ i, 0 < A i) : ∀ x ∈ simpleBars b h E A, 0 < x.E * x.A := by
  intro x hx
  simp only [simpleBars, List.mem_cons, List.not_mem_nil, or_false] at hx
  rcases hx with rfl | rfl | rfl
  · exact mul_pos (hE 0) (hA 0)
  · exact mul_pos (hE 1) (hA 1)
  · exact mul_pos (hE 2) (hA 2)

theorem simple_stable (hb : 0 < b) (hh : 0 < h) (hE : ∀ i, 0 < E i) (hA : ∀ i, 0 < A i) {ms : List (Member ℝ)}
    (hms : Members Real.sqrt (simpleTruss b h E A W) ms) : Stable (simpleTruss b h E A W).cons 2 ms := by
  rw [C147_stable_iff sqrtFn_real simple_wf hms (simple_bars hb hh) (simple_positive hE hA)]
  intro u hu h0
  have f10 : u 1 0 = 0 := hu 1 0 (by simp [simpleTruss]) (by norm_num) (by rw [simple_free]; simp)
  have f20 : u 2 0 = 0 := hu 2 0 (by simp [simpleTruss]) (by norm_num) (by rw [simple_free]; simp)
  have f21 : u 2 1 = 0 := hu 2 1 (by simp [simpleTruss]) (by norm_num) (by rw [simple_free]; simp)
  have hs : 0 < Real.sqrt (b ^ 2 + h ^ 2) := Real.sqrt_pos.2 (by positivity)
  simp only [simpleBars, List.forall_mem_cons] at h0
  obtain ⟨e0, e1, e2, -⟩ := h0
  simp [Bar.stretch, elongation, f10, f20, f21, hb.ne', hh.ne', hs.ne'] at e0 e1 e2
  rw [e0, e2] at e1
  have e1' : u 0 1 = 0 := by
    have : h * u 0 1 = 0 := by linear_combination -e1
    exact (mul_eq_zero.1 this).resolve_left hh.ne'
  intro p j hp hj
  simp only [simpleTruss, List.length_cons, List.length_nil] at hp
  rcases (by omega : p = 0 ∨ p = 1 ∨ p = 2) with rfl | rfl | rfl <;> rcases (by omega : j = 0 ∨ j = 1) with rfl | rfl <;> assumption

theorem simple_loads : ∀ L ∈ (simpleTruss b h E A W).loads, 3 ≤ L.length ∧ ∃ p, Names (simpleTruss b h E A W).nodes.length L p := by
  intro L hL
  simp only [simpleTruss, List.mem_cons, List.not_mem_nil, or_false] at hL
  rcases hL with rfl | rfl
  · exact ⟨by simp, 0, (names_nat (by simp [simpleTruss]) (by simp)).2 rfl⟩
  · exact ⟨by simp, 1, (names_nat (by simp [simpleTruss]) (by simp)).2 rfl⟩

theorem simple_joint (n : Fin 3 → ℝ) (p : ℕ) (j : Fin 2) : jointForce (tensed (simpleBars b h E A) n) p j =
    -((∑ a : Fin 2, if (![2, 0] : Fin 2 → ℕ) a = p then pull !![0, 0; b, 0] b (n 0) (a, j) else 0) +
      (∑ a : Fin 2, if (![0, 1] : Fin 2 → ℕ) a = p then pull !![b, 0; 0, h] (Real.sqrt (b ^ 2 + h ^ 2)) (n 1) (a, j) else 0) +
      ∑ a : Fin 2, if (![1, 2] : Fin 2 → ℕ) a = p then pull !![0, h; 0, 0] h (n 2) (a, j) else 0) := by
  refine (jointForce_tensed (bars := simpleBars b h E A) n p j).trans ?_
  change -(∑ i : Fin 3, _) = _
  rw [Fin.sum_univ_three]
  rfl

/-- C147.  The truss of the notebook, for every base, height, materials and load: the program returns, and its stresses and
displacements are these. -/
theorem C147_simple_truss {sp de : Sol.Solver ℝ} (hsp : SolverOk sp) (hb : 0 < b) (hh : 0 < h) (hE : ∀ i, 0 < E i)
    (hA : ∀ i, 0 < A i) : ∃ res, Gui.solidsAuto Real.sqrt sp de (simpleTruss b h E A W) false = .ok res ∧
    Post.stressTruss Real.sqrt (simpleTruss b h E A W).nodes (simpleTruss b h E A W).elements (simpleTruss b h E A W).mats res.disp =
      .ok [-(W * b / h) / A 0, W * Real.sqrt (b ^ 2 + h ^ 2) / h / A 1, -W / A 2] ∧
    res.disp = [[-(W * b ^ 2 / (h * (E 0 * A 0))),
      -(W * b ^ 3 / (h ^ 2 * (E 0 * A 0)) + W * Real.sqrt (b ^ 2 + h ^ 2) ^ 3 / (h ^ 2 * (E 1 * A 1)) + W * h / (E 2 * A 2))],
      [0, -(W * h / (E 2 * A 2))], [0, 0]] := by
  have hbars := simple_bars (E := E) (A := A) (W := W) hb hh
  have hpos := simple_positive (b := b) (h := h) hE hA
  obtain ⟨ms, hms⟩ := truss_members sqrtFn_real hbars
  have hst := simple_stable hb hh hE hA hms
  obtain ⟨res, hres⟩ := C93_solids_auto_returns (de := de) simple_plane simple_wf hsp hms hst
    ⟨0, 0, (simple_free 0 0).2 (Or.inl ⟨rfl, by norm_num⟩)⟩ simple_loads
  obtain ⟨σ, hσ⟩ := C92_stress_exists sqrtFn_real hbars (fun x hx => right_ne_zero_of_mul (hpos x hx).ne') hres
  have hs : 0 < Real.sqrt (b ^ 2 + h ^ 2) := Real.sqrt_pos.2 (by positivity)
  have hss : Real.sqrt (b ^ 2 + h ^ 2) * Real.sqrt (b ^ 2 + h ^ 2) = b ^ 2 + h ^ 2 := Real.mul_self_sqrt (by positivity)
  set ℓ := Real.sqrt (b ^ 2 + h ^ 2) with hℓ
  have hq : ∃ bc, eqcounter (simpleTruss b h E A W).cons 2 = .ok (3, bc) := by
    obtain ⟨op, bc, neq, Kg, Mg, rhs, x, ok, full, plots, h1, -⟩ := auto_ok.1 hres
    have heq := (dme_ok.1 h1).1
    have hc := C01_neq_is_free_count heq
    have : {p : ℕ × ℕ | Free (simpleTruss b h E A W).cons 2 p.1 p.2} = {(0, 0), (0, 1), (1, 1)} := by
      ext ⟨p, j⟩
      simp only [Set.mem_ofPred_eq, simple_free, Set.mem_insert_iff, Set.mem_singleton_iff, Prod.mk.injEq]
      omega
    rw [this, Set.ncard_eq_toFinset_card'] at hc
    refine ⟨bc, ?_⟩
    rw [heq, hc]
    rfl
  obtain ⟨bc, hq⟩ := hq
  have hload0 : ∀ j : Fin 2, IsLoad (simpleTruss b h E A W).nodes.length (simpleTruss b h E A W).loads 0 j (if j = 0 then 0 else -W) := by
    intro j
    refine Or.inr ⟨[], [0, 0, -W], [[1, 0, 0]], rfl, (names_nat (by simp [simpleTruss]) (by simp)).2 rfl, ?_, ?_⟩
    · intro L' hL'
      rw [List.mem_singleton] at hL'
      subst hL'
      intro hn
      exact absurd ((names_nat (p := 1) (q := 0) (by simp [simpleTruss]) (by simp)).1 hn) (by norm_num)
    · fin_cases j <;> rfl
  have hload1 : ∀ j : Fin 2, IsLoad (simpleTruss b h E A W).nodes.length (simpleTruss b h E A W).loads 1 j 0 := by
    intro j
    refine Or.inr ⟨[[0, 0, -W]], [1, 0, 0], [], rfl, (names_nat (by simp [simpleTruss]) (by simp)).2 rfl, by simp, ?_⟩
    fin_cases j <;> rfl
  have hbal : Balances (simpleTruss b h E A W).nodes.length (simpleTruss b h E A W).cons (simpleTruss b h E A W).loads
      (simpleBars b h E A) (![-(W * b / h), W * ℓ / h, -W] : Fin 3 → ℝ) := by
    intro p j hf x hx
    rcases (simple_free p j).1 hf with ⟨rfl, -⟩ | ⟨rfl, hj⟩
    · obtain rfl := isLoad_unique hx (hload0 j)
      refine (congrArg (· + _) (simple_joint _ _ _)).trans ?_
      rw [← hℓ]
      fin_cases j <;> simp [Fin.sum_univ_two, pull] <;> field_simp <;> ring
    · obtain rfl := isLoad_unique hx (hload1 j)
      obtain rfl : j = 1 := Fin.ext hj
      refine (congrArg (· + _) (simple_joint _ _ _)).trans ?_
      rw [← hℓ]
      simp [Fin.sum_univ_two, pull]
      field_simp
      ring
  have hT := C147_determinate sqrtFn_real simple_wf hsp hms hst hbars hpos hq hres hσ hbal
  refine ⟨res, hres, ?_, ?_⟩
  · have hl : σ.length = 3 := mapM_length hσ
    match σ, hl with
    | [s0, s1, s2], _ =>
      have t0 := congrFun hT (0 : Fin 3)
      have t1 := congrFun hT (1 : Fin 3)
      have t2 := congrFun hT (2 : Fin 3)
      simp [tensions, simpleBars] at t0 t1 t2
      rw [hσ, ← t0, ← t1, ← t2, mul_div_cancel_right₀ _ (hA 0).ne', mul_div_cancel_right₀ _ (hA 1).ne',
        mul_div_cancel_right₀ _ (hA 2).ne']
  · obtain ⟨⟨hd1, hd2⟩, he⟩ := C18_nodal_equilibrium simple_wf hsp hms hst hres
    have unit : ∀ (q : ℕ) (c : Fin 2) (n : Fin 3 → ℝ), q < 3 → BalancesUnit (simpleTruss b h E A W).cons (simpleBars b h E A) q c n →
        entry res.disp q c = some (∑ i : Fin 3, (![-(W * b / h), W * ℓ / h, -W] : Fin 3 → ℝ) i * n i * (![b, ℓ, h] : Fin 3 → ℝ) i /
          (E i * A i)) := by
      intro q c n hq' hn
      rw [C147_unit_load sqrtFn_real simple_wf hsp hms hst hbars (fun x hx => (hpos x hx).ne') hres hσ hq' hn, hT]
      congr 1
    have d00 := unit 0 0 ![1, 0, 0] (by norm_num) (by
      intro p j hf
      refine (congrArg (· + _) (simple_joint _ _ _)).trans ?_
      rw [← hℓ]
      rcases (simple_free p j).1 hf with ⟨rfl, -⟩ | ⟨rfl, hj⟩
      · fin_cases j <;> simp [Fin.sum_univ_two, pull, hb.ne']
      · obtain rfl : j = 1 := Fin.ext hj
        simp [Fin.sum_univ_two, pull])
    have d01 := unit 0 1 ![b / h, -(ℓ / h), 1] (by norm_num) (by
      intro p j hf
      refine (congrArg (· + _) (simple_joint _ _ _)).trans ?_
      rw [← hℓ]
      rcases (simple_free p j).1 hf with ⟨rfl, -⟩ | ⟨rfl, hj⟩
      · fin_cases j <;> simp [Fin.sum_univ_two, pull] <;> field_simp <;> ring
      · obtain rfl : j = 1 := Fin.ext hj
        simp [Fin.sum_univ_two, pull]
        field_simp
        ring)
    have d11 := unit 1 1 ![0, 0, 1] (by norm_num) (by
      intro p j hf
      refine (congrArg (· + _) (simple_joint _ _ _)).trans ?_
      rw [← hℓ]
      rcases (simple_free p j).1 hf with ⟨rfl, -⟩ | ⟨rfl, hj⟩
      · fin_cases j <;> simp [Fin.sum_univ_two, pull]
      · obtain rfl : j = 1 := Fin.ext hj
        simp [Fin.sum_univ_two, pull, hh.ne'])
    have z10 := he.1 1 0 (by simp [simpleTruss]) (by norm_num) (by rw [simple_free]; simp)
    have z20 := he.1 2 0 (by simp [simpleTruss]) (by norm_num) (by rw [simple_free]; simp)
    have z21 := he.1 2 1 (by simp [simpleTruss]) (by norm_num) (by rw [simple_free]; simp)
    have hE0 := (hE 0).ne'
    have hE1 := (hE 1).ne'
    have hE2 := (hE 2).ne'
    have hA0 := (hA 0).ne'
    have hA1 := (hA 1).ne'
    have hA2 := (hA 2).ne'
    have hd1 : res.disp.length = 3 := hd1
    match hdis : res.disp, hd1 with
    | [r0, r1, r2], _ =>
      rw [hdis] at hd2 d00 d01 d11 z10 z20 z21
      have l0 := hd2 r0 (by simp)
      have l1 := hd2 r1 (by simp)
      have l2 := hd2 r2 (by simp)
      match r0, r1, r2, l0, l1, l2 with
      | [x0, y0], [x1, y1], [x2, y2], _, _, _ =>
        simp [entry, fieldOf, Fin.sum_univ_succ] at d00 d01 d11 z10 z20 z21
        subst d00 d01 d11 z10 z20 z21
        simp only [List.cons.injEq, and_true, true_and]
        refine ⟨⟨?_, ?_⟩, ?_⟩
        · field_simp
        · field_simp
          ring
        · field_simp

/-- C147.  The displacements printed in the notebook: `-0.015`, `-0.07098076` and `-0.005`. -/
theorem C147_notebook {sp de : Sol.Solver ℝ} (hsp : SolverOk sp) : ∃ res, Gui.solidsAuto Real.sqrt sp de
    (simpleTruss (10 * Real.sqrt 3 / 2) 5 (fun _ => 1e6) (fun _ => 0.01) 10) false = .ok res ∧
    res.disp = [[-0.015, -(0.045 + 0.015 * Real.sqrt 3)], [0, -0.005], [0, 0]] ∧
    |0.045 + 0.015 * Real.sqrt 3 - 0.07098076| < 5e-9 := by
  have h3 : Real.sqrt 3 * Real.sqrt 3 = 3 := Real.mul_self_sqrt (by norm_num)
  have h3p : 0 < Real.sqrt 3 := Real.sqrt_pos.2 (by norm_num)
  obtain ⟨res, h1, -, h2⟩ := C147_simple_truss (b := 10 * Real.sqrt 3 / 2) (h := 5) (E := fun _ => 1e6) (A := fun _ => 0.01) (W := 10)
    (de := de) hsp (by positivity) (by norm_num) (fun _ => by norm_num) fun _ => by norm_num
  refine ⟨res, h1, ?_, ?_⟩
  · have hl : Real.sqrt ((10 * Real.sqrt 3 / 2) ^ 2 + 5 ^ 2) = 10 := by
      rw [show (10 * Real.sqrt 3 / 2) ^ 2 + 5 ^ 2 = (10 : ℝ) ^ 2 by nlinarith]
      exact Real.sqrt_sq (by norm_num)
    rw [h2, hl]
    simp only [List.cons.injEq, and_true, true_and]
    refine ⟨⟨?_, ?_⟩, ?_⟩
    · norm_num
      nlinarith
    · have : Real.sqrt 3 ^ 3 = 3 * Real.sqrt 3 := by rw [pow_succ, pow_two, h3]
      norm_num [mul_pow, div_pow, this]
      ring
    · norm_num
  · rw [abs_lt]
    constructor <;> nlinarith

/-- A joint hung from two parallel bars and a third one: more bars than equations, so that balance leaves the tensions open. -/
example : ∃ bars : List (Bar ℝ), List.Forall₂ (IsBar trussR.nodes trussR.mats) ([0, 6, 0, 0, 2] :: trussR.elements) bars ∧
    (∀ b ∈ bars, 0 < b.E * b.A) ∧ ∃ N N' : Fin bars.length → ℝ, N ≠ N' ∧
    Balances trussR.nodes.length trussR.cons trussR.loads bars N ∧ Balances trussR.nodes.length trussR.cons trussR.loads bars N' := by
  have hl : ∀ j : Fin 2, IsLoad trussR.nodes.length trussR.loads 2 j (if j = 0 then 4 else -6) := by
    intro j
    refine Or.inr ⟨[], [2, 4, -6], [], rfl, (names_nat (by decide) rfl).2 rfl, by simp, ?_⟩
    fin_cases j <;> rfl
  have hfree : ∀ p j, Free trussR.cons 2 p j → p = 2 := by
    rintro p j ⟨hj, x, hx, h1, h2⟩
    obtain ⟨row, h3, h4⟩ := entry_some.1 hx
    match p, h3 with
    | 0, h3 =>
      simp [trussR] at h3
      subst h3
      have := List.mem_of_getElem? h4
      simp at this
      linarith
    | 1, h3 =>
      simp [trussR] at h3
      subst h3
      have := List.mem_of_getElem? h4
      simp at this
      linarith
    | 2, _ => rfl
    | p + 3, h3 => simp [trussR] at h3
  have key : ∀ t : ℝ, Balances trussR.nodes.length trussR.cons trussR.loads
      (⟨![0, 2], !![0, 0; 4, 3], 125, 1, 5⟩ :: trussBars) (![t, 5 - t, -9] : Fin 3 → ℝ) := by
    intro t p j hf x hx
    obtain rfl := hfree p j hf
    obtain rfl := isLoad_unique hx (hl j)
    refine (congrArg (· + _) (jointForce_tensed (bars := ⟨![0, 2], !![0, 0; 4, 3], 125, 1, 5⟩ :: trussBars) _ _ _)).trans ?_
    change -(∑ i : Fin 3, _) + _ = _
    rw [Fin.sum_univ_three]
    fin_cases j <;> simp [trussBars, Fin.sum_univ_two, pull] <;> ring
  refine ⟨⟨![0, 2], !![0, 0; 4, 3], 125, 1, 5⟩ :: trussBars, .cons ⟨0, 0, ![0, 2], [], rfl, rfl, ?_, ?_⟩ trussR_bars, ?_,
    (![0, 5 - 0, -9] : Fin 3 → ℝ), (![1, 5 - 1, -9] : Fin 3 → ℝ), ?_, key 0, key 1⟩
  · intro a; fin_cases a <;> simp [trussR]
  · constructor <;> norm_num
  · simp [trussBars]
  · intro e
    have := congrFun e (0 : Fin 3)
    norm_num at this

end
end SolidsPy
