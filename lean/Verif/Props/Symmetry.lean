import Verif.Props.Mirror
import Verif.Props.Refinement
import Verif.Props.GridModel
import Mathlib.Tactic.LinearCombination

/-! # Half of a symmetric model (C139) -/

set_option linter.unusedSectionVars false

namespace SolidsPy
open Spec Assem Matrix

section
variable {K : Type} [Field K] [LinearOrder K] [IsStrictOrderedRing K] [FloorRing K]
variable {sq : K → K} {sp de : Sol.Solver K} {d d' : Gui.Data K} {ms ms' : List (Member K)}
variable {i0 : Fin 2} {c : K} {ι ρ : ℕ → ℕ} {anti : Bool} {F F' : ℕ → ℕ → K}

/-- `d'` has the elements of `d` and their mirror images across the line where component `i0` of the position is `c`: `ι` gives
the place of a node of `d` in `d'` and `ρ` that of its mirror image, which is the same place for nodes shared by both halves. -/
structure Spec.Doubled (i0 : Fin 2) (c : K) (ι ρ : ℕ → ℕ) (d d' : Gui.Data K) : Prop where
  mats : d'.mats = d.mats
  width : ∀ r ∈ d'.nodes, r.length = 3
  kept : PutBy 1 0 ι d.nodes d'.nodes
  mirrored : PutBy (flipped i0) (fun i => if i = i0 then 2 * c else 0) ρ d.nodes d'.nodes
  cover : ∀ q < d'.nodes.length, ∃ p < d.nodes.length, q = ι p ∨ q = ρ p
  once : ∀ p < d.nodes.length, ∀ q < d.nodes.length, ι p = ι q ∨ ρ p = ρ q ∨ ι p = ρ q → p = q
  elements : ∃ c1 c2, d'.elements.Perm (c1 ++ c2) ∧
    List.Forall₂ (CopyOf d.nodes.length d'.nodes.length ι false) d.elements c1 ∧
    List.Forall₂ (CopyOf d.nodes.length d'.nodes.length ρ true) d.elements c2
  supports : ∀ p < d.nodes.length, ∀ j < 2, (Free d'.cons 2 (ρ p) j ↔ Free d'.cons 2 (ι p) j)

/-- The factor of component `j` in the mirror image of a symmetric or antisymmetric field. -/
def Spec.parity (i0 : Fin 2) (anti : Bool) (j : ℕ) : K := (if j = (i0 : ℕ) then -1 else 1) * (if anti then -1 else 1)

/-- The half is held like the whole, and its shared nodes are also held in the components where the mirror image has the opposite
sign. -/
def Spec.HalfHeld (i0 : Fin 2) (anti : Bool) (ι ρ : ℕ → ℕ) (d d' : Gui.Data K) : Prop :=
  ∀ p < d.nodes.length, ∀ j < 2, (Free d.cons 2 p j ↔ Free d'.cons 2 (ι p) j ∧ (ι p = ρ p → parity (K := K) i0 anti j = 1))

/-- The forces `F'` on the whole are symmetric or antisymmetric, those on the shared nodes being twice the forces `F` on the half. -/
def Spec.HalfLoaded (i0 : Fin 2) (anti : Bool) (ι ρ : ℕ → ℕ) (n : ℕ) (F F' : ℕ → ℕ → K) : Prop :=
  ∀ p < n, ∀ j < 2, (ι p = ρ p → F' (ι p) j = F p j + parity i0 anti j * F p j) ∧
    (ι p ≠ ρ p → F' (ι p) j = F p j ∧ F' (ρ p) j = parity i0 anti j * F p j)

/-- The field `U'` on the whole is `U` on the half and its mirror image on the other half. -/
def Spec.Unfolded (i0 : Fin 2) (anti : Bool) (ι ρ : ℕ → ℕ) (n : ℕ) (U U' : ℕ → ℕ → K) : Prop :=
  ∀ p < n, ∀ j < 2, U' (ι p) j = U p j ∧ U' (ρ p) j = parity i0 anti j * U p j

theorem parity_cases (i0 : Fin 2) (anti : Bool) (j : ℕ) : parity (K := K) i0 anti j = 1 ∨ parity (K := K) i0 anti j = -1 := by
  unfold parity
  split <;> split <;> simp

theorem parity_sq (i0 : Fin 2) (anti : Bool) (j : ℕ) : parity (K := K) i0 anti j * parity i0 anti j = 1 := by
  rcases parity_cases (K := K) i0 anti j with h | h <;> rw [h] <;> norm_num

theorem parity_neg {i0 : Fin 2} {anti : Bool} {j : ℕ} (h : parity (K := K) i0 anti j ≠ 1) : parity (K := K) i0 anti j = -1 :=
  (parity_cases i0 anti j).resolve_left h

theorem Spec.Doubled.sum (h : Doubled i0 c ι ρ d d') (g : ℕ → K) :
    ∑ q ∈ Finset.range d'.nodes.length, g q =
      ∑ p ∈ Finset.range d.nodes.length, (g (ι p) + if ι p = ρ p then 0 else g (ρ p)) := by
  have e : Finset.range d'.nodes.length = (Finset.range d.nodes.length).image ι ∪
      ((Finset.range d.nodes.length).filter fun p => ι p ≠ ρ p).image ρ := by
    ext q
    simp only [Finset.mem_range, Finset.mem_union, Finset.mem_image, Finset.mem_filter]
    constructor
    · intro hq
      obtain ⟨p, hp, h1 | h1⟩ := h.cover q hq
      · exact .inl ⟨p, hp, h1.symm⟩
      · by_cases h2 : ι p = ρ p
        · exact .inl ⟨p, hp, h2.trans h1.symm⟩
        · exact .inr ⟨p, ⟨hp, h2⟩, h1.symm⟩
    · rintro (⟨p, hp, rfl⟩ | ⟨p, ⟨hp, -⟩, rfl⟩)
      · exact (h.kept p hp).1
      · exact (h.mirrored p hp).1
  rw [e, Finset.sum_union, Finset.sum_image, Finset.sum_image, Finset.sum_filter, Finset.sum_add_distrib]
  · congr 1
    refine Finset.sum_congr rfl fun p _ => ?_
    by_cases h2 : ι p = ρ p
    · rw [if_neg (by simpa using h2), if_pos h2]
    · rw [if_pos h2, if_neg h2]
  · intro p hp q hq hpq
    simp only [Finset.coe_filter, Finset.mem_range, Set.mem_ofPred_eq] at hp hq
    exact h.once p hp.1 q hq.1 (.inr (.inl hpq))
  · intro p hp q hq hpq
    simp only [Finset.coe_range, Set.mem_Iio] at hp hq
    exact h.once p hp q hq (.inl hpq)
  · rw [Finset.disjoint_left]
    intro q hq hq'
    simp only [Finset.mem_range, Finset.mem_image, Finset.mem_filter] at hq hq'
    obtain ⟨p, hp, rfl⟩ := hq
    obtain ⟨r, ⟨hr, hne⟩, hpr⟩ := hq'
    obtain rfl := h.once p hp r hr (.inr (.inr hpr.symm))
    exact hne hpr.symm

theorem members_copied (hs : SqrtFn sq) {Q : Matrix (Fin 2) (Fin 2) K} {t : Fin 2 → K} (hp : PlaneModel d) (h3 : ∀ r ∈ d'.nodes, r.length = 3)
    {φ : ℕ → ℕ} {mirror : Bool} (hQ : Q.transpose * Q = 1) (hd : Q.det = if mirror then -1 else 1) (hφ : PutBy Q t φ d.nodes d'.nodes)
    (hms : Members sq d ms) {els' : List (List ℤ)}
    (hels : List.Forall₂ (CopyOf d.nodes.length d'.nodes.length φ mirror) d.elements els') :
    ∃ ms', List.Forall₂ (IsMember (Routine sq) d.mats d'.nodes) els' ms' ∧ ∀ V U, (ms'.map fun m => m.form 2 V U).sum =
      (ms.map fun m => m.form 2 (fun p => turned Q.transpose V (φ p)) (fun p => turned Q.transpose U (φ p))).sum := by
  unfold Members at hms
  have key : ∀ els : List (List ℤ), (∀ el ∈ els, el ∈ d.elements) → ∀ els',
      List.Forall₂ (CopyOf d.nodes.length d'.nodes.length φ mirror) els els' → ∀ ms,
      List.Forall₂ (IsMember (Routine sq) d.mats d.nodes) els ms → 
      ∃ ms', List.Forall₂ (IsMember (Routine sq) d.mats d'.nodes) els' ms' ∧ ∀ V U, (ms'.map fun m => m.form 2 V U).sum =
      (ms.map fun m => m.form 2 (fun p => turned Q.transpose V (φ p)) (fun p => turned Q.transpose U (φ p))).sum := by
    intro els hin els' hels
    induction hels with
    | nil =>
      intro ms h
      cases h
      exact ⟨[], .nil, fun _ _ => rfl⟩
    | cons hc _ ih =>
      intro ms h
      obtain _ | ⟨hm, h⟩ := h
      obtain ⟨ms', h1, h2⟩ := ih (fun el hel => hin el (List.mem_cons_of_mem _ hel)) _ h
      obtain ⟨m', c1, c2⟩ := member_copied hs hm hp.nodes h3 (hp.types _ (hin _ List.mem_cons_self)) hc hQ hd hφ
      refine ⟨m' :: ms', .cons c1 h1, fun V U => ?_⟩
      rw [List.map_cons, List.map_cons, List.sum_cons, List.sum_cons, h2, c2]
  exact key _ (fun _ h => h) _ hels _ hms

/-- The mirror image of a field on the whole, read on the half. -/
def folded (i0 : Fin 2) (ρ : ℕ → ℕ) (V : ℕ → ℕ → K) : ℕ → ℕ → K := fun p j => (if j = (i0 : ℕ) then -1 else 1) * V (ρ p) j

/-- The work on the whole is the sum of the work on the half of the field and of its mirror image. -/
theorem Spec.Doubled.members (hs : SqrtFn sq) (h : Doubled i0 c ι ρ d d') (hp : PlaneModel d) (hms : Members sq d ms) :
    ∃ ms', Members sq d' ms' ∧ ∀ V U, (ms'.map fun m => m.form 2 V U).sum =
      (ms.map fun m => m.form 2 (fun p => V (ι p)) (fun p => U (ι p))).sum +
      (ms.map fun m => m.form 2 (folded i0 ρ V) (folded i0 ρ U)).sum := by
  obtain ⟨c1, c2, hperm, h1, h2⟩ := h.elements
  obtain ⟨m1, a1, b1⟩ := members_copied hs hp h.width (Q := 1) (t := 0) (by simp) (by simp) h.kept hms h1
  obtain ⟨m2, a2, b2⟩ := members_copied hs hp h.width (flipped_orth i0) (by rw [flipped_det]; rfl) h.mirrored hms h2
  obtain ⟨ms', h4, h5⟩ := List.perm_comp_forall₂ hperm (List.rel_append a1 a2)
  refine ⟨ms', by unfold Members; rw [h.mats]; exact h4, fun V U => ?_⟩
  rw [(h5.map _).sum_eq, List.map_append, List.sum_append, b1, b2]
  have e1 : ∀ V : ℕ → ℕ → K, ∀ p < d.nodes.length, ∀ j < 2, turned (1 : Matrix (Fin 2) (Fin 2) K).transpose V (ι p) j = V (ι p) j := by
    intro V p _ j hj
    rcases (by omega : j = 0 ∨ j = 1) with rfl | rfl
    · simp [turned_zero]
    · simp [turned_one]
  have e2 : ∀ V : ℕ → ℕ → K, ∀ p < d.nodes.length, ∀ j < 2, turned (flipped i0 : Matrix (Fin 2) (Fin 2) K).transpose V (ρ p) j =
      folded i0 ρ V p j := by
    intro V p _ j hj
    have : (flipped i0 : Matrix (Fin 2) (Fin 2) K).transpose = flipped i0 := by
      unfold flipped
      rw [diagonal_transpose]
    rw [this, turned_flipped _ _ _ hj]
    rfl
  congr 1
  · exact forms_congr hms (fun p hp j hj => e1 V p hp j hj) (fun p hp j hj => e1 U p hp j hj)
  · exact forms_congr hms (fun p hp j hj => e2 V p hp j hj) (fun p hp j hj => e2 U p hp j hj)

theorem forms_add_left (ms : List (Member K)) (v w u : ℕ → ℕ → K) : (ms.map fun m => m.form 2 (fun p j => v p j + w p j) u).sum =
    (ms.map fun m => m.form 2 v u).sum + (ms.map fun m => m.form 2 w u).sum := by
  induction ms with
  | nil => simp
  | cons m t ih =>
    simp only [List.map_cons, List.sum_cons, ih]
    have : m.form 2 (fun p j => v p j + w p j) u = m.form 2 v u + m.form 2 w u := by
      simp only [Member.form, add_mul, Finset.sum_add_distrib]
    rw [this]
    ring

theorem forms_add_right (ms : List (Member K)) (v w u : ℕ → ℕ → K) : (ms.map fun m => m.form 2 u (fun p j => v p j + w p j)).sum =
    (ms.map fun m => m.form 2 u v).sum + (ms.map fun m => m.form 2 u w).sum := by
  induction ms with
  | nil => simp
  | cons m t ih =>
    simp only [List.map_cons, List.sum_cons, ih]
    have : m.form 2 u (fun p j => v p j + w p j) = m.form 2 u v + m.form 2 u w := by
      simp only [Member.form, Member.force, mul_add, Finset.sum_add_distrib]
    rw [this]
    ring

theorem forms_smul_left (ms : List (Member K)) (a : K) (v u : ℕ → ℕ → K) : (ms.map fun m => m.form 2 (fun p j => a * v p j) u).sum =
    a * (ms.map fun m => m.form 2 v u).sum := by
  induction ms with
  | nil => simp
  | cons m t ih =>
    simp only [List.map_cons, List.sum_cons, ih]
    have : m.form 2 (fun p j => a * v p j) u = a * m.form 2 v u := by
      simp only [Member.form, mul_assoc, Finset.mul_sum]
    rw [this]
    ring

theorem forms_smul_right (ms : List (Member K)) (a : K) (v u : ℕ → ℕ → K) : (ms.map fun m => m.form 2 u (fun p j => a * v p j)).sum =
    a * (ms.map fun m => m.form 2 u v).sum := by
  induction ms with
  | nil => simp
  | cons m t ih =>
    simp only [List.map_cons, List.sum_cons, ih]
    have : m.form 2 u (fun p j => a * v p j) = a * m.form 2 u v := by
      simp only [Member.form, Member.force, Finset.mul_sum]
      refine Finset.sum_congr rfl fun _ _ => Finset.sum_congr rfl fun _ _ => Finset.sum_congr rfl fun _ _ =>
        Finset.sum_congr rfl fun _ _ => ?_
      ring
    rw [this]
    ring

/-- The field plus its mirror image (with its sign), read on the half. -/
def both (i0 : Fin 2) (anti : Bool) (ι ρ : ℕ → ℕ) (V : ℕ → ℕ → K) : ℕ → ℕ → K := fun p j => V (ι p) j + parity i0 anti j * V (ρ p) j

/-- The sign of the mirror image. -/
def Spec.sign (anti : Bool) : K := if anti then -1 else 1

theorem sign_sq (anti : Bool) : sign (K := K) anti * sign anti = 1 := by
  cases anti <;> simp [sign]

theorem parity_eq (i0 : Fin 2) (anti : Bool) (j : ℕ) : parity (K := K) i0 anti j = (if j = (i0 : ℕ) then -1 else 1) * sign anti := rfl

theorem both_eq (V : ℕ → ℕ → K) : both i0 anti ι ρ V = fun p j => V (ι p) j + sign anti * folded i0 ρ V p j := by
  funext p j
  unfold both folded
  rw [parity_eq]
  ring

/-- Work of an unfolded field on the whole. -/
theorem unfolded_work (hms : Members sq d ms)
    {V U U' : ℕ → ℕ → K} {total : (ℕ → ℕ → K) → K}
    (hU : Unfolded i0 anti ι ρ d.nodes.length U U')
    (ht : ∀ V, total V = (ms.map fun m => m.form 2 (fun p => V (ι p)) (fun p => U' (ι p))).sum +
      (ms.map fun m => m.form 2 (folded i0 ρ V) (folded i0 ρ U')).sum) :
    total V = (ms.map fun m => m.form 2 (both i0 anti ι ρ V) U).sum := by
  rw [ht, both_eq, forms_add_left, forms_smul_left, ← forms_smul_right]
  congr 1
  · exact forms_congr hms (fun _ _ _ _ => rfl) (fun p hp j hj => (hU p hp j hj).1)
  · refine forms_congr hms (fun _ _ _ _ => rfl) (fun p hp j hj => ?_)
    unfold folded
    rw [(hU p hp j hj).2, parity_eq, ← mul_assoc, ← mul_assoc]
    split <;> ring

theorem both_admissible (h : Doubled i0 c ι ρ d d') (hh : HalfHeld i0 anti ι ρ d d') (hwf : WellFormed d) (hwf' : WellFormed d')
    {V : ℕ → ℕ → K} (hV : Admissible d'.cons 2 V) : Admissible d.cons 2 (both i0 anti ι ρ V) := by
  intro p j hp hj hf
  rw [hwf.size] at hp
  rw [hh p hp j hj] at hf
  unfold both
  by_cases hf' : Free d'.cons 2 (ι p) j
  · have : ¬ (ι p = ρ p → parity (K := K) i0 anti j = 1) := fun hh => hf ⟨hf', hh⟩
    push Not at this
    rw [← this.1, parity_neg this.2]
    ring
  · rw [hV (ι p) j (by rw [hwf'.size]; exact (h.kept p hp).1) hj hf',
      hV (ρ p) j (by rw [hwf'.size]; exact (h.mirrored p hp).1) hj (by rw [h.supports p hp j hj]; exact hf')]
    ring

theorem unfolded_admissible (h : Doubled i0 c ι ρ d d') (hh : HalfHeld i0 anti ι ρ d d') (hwf : WellFormed d) (hwf' : WellFormed d')
    {U U' : ℕ → ℕ → K} (hU : Admissible d.cons 2 U) (hu : Unfolded i0 anti ι ρ d.nodes.length U U') : Admissible d'.cons 2 U' := by
  intro q j hq hj hf
  rw [hwf'.size] at hq
  obtain ⟨p, hp, rfl | rfl⟩ := h.cover q hq
  · rw [(hu p hp j hj).1]
    exact hU p j (by rw [hwf.size]; exact hp) hj fun hf' => hf ((hh p hp j hj).1 hf').1
  · rw [(hu p hp j hj).2, hU p j (by rw [hwf.size]; exact hp) hj fun hf' => hf ((h.supports p hp j hj).2 ((hh p hp j hj).1 hf').1), mul_zero]

/-- An admissible field on the half unfolds. -/
theorem unfolded_exists (h : Doubled i0 c ι ρ d d') (hh : HalfHeld i0 anti ι ρ d d') (hwf : WellFormed d)
    {U : ℕ → ℕ → K} (hU : Admissible d.cons 2 U) : ∃ U', Unfolded i0 anti ι ρ d.nodes.length U U' := by
  classical
  let U' : ℕ → ℕ → K := fun q j => if H : ∃ p < d.nodes.length, q = ι p then U H.choose j else
    if H : ∃ p < d.nodes.length, q = ρ p then parity i0 anti j * U H.choose j else 0
  have e1 : ∀ p < d.nodes.length, ∀ j, U' (ι p) j = U p j := by
    intro p hp j
    have H : ∃ p' < d.nodes.length, ι p = ι p' := ⟨p, hp, rfl⟩
    dsimp only [U']
    rw [dif_pos H, ← h.once p hp _ H.choose_spec.1 (.inl H.choose_spec.2)]
  refine ⟨U', fun p hp j hj => ⟨e1 p hp j, ?_⟩⟩
  by_cases hm : ι p = ρ p
  · rw [← hm, e1 p hp j]
    rcases parity_cases (K := K) i0 anti j with hs | hs
    · rw [hs, one_mul]
    · rw [hU p j (by rw [hwf.size]; exact hp) hj, mul_zero]
      intro hf
      have := ((hh p hp j hj).1 hf).2 hm
      rw [hs] at this
      norm_num at this
  · have H1 : ¬ ∃ p' < d.nodes.length, ρ p = ι p' := by
      rintro ⟨p', hp', e⟩
      obtain rfl := h.once p' hp' p hp (.inr (.inr e.symm))
      exact hm e.symm
    have H2 : ∃ p' < d.nodes.length, ρ p = ρ p' := ⟨p, hp, rfl⟩
    dsimp only [U']
    rw [dif_neg H1, dif_pos H2, ← h.once p hp _ H2.choose_spec.1 (.inr (.inl H2.choose_spec.2))]

/-- External work on the whole is external work on the half. -/
theorem Spec.Doubled.external (h : Doubled i0 c ι ρ d d') (hl : HalfLoaded i0 anti ι ρ d.nodes.length F F') (V : ℕ → ℕ → K) :
    ∑ q ∈ Finset.range d'.nodes.length, ∑ j ∈ Finset.range 2, V q j * F' q j =
      ∑ p ∈ Finset.range d.nodes.length, ∑ j ∈ Finset.range 2, both i0 anti ι ρ V p j * F p j := by
  rw [h.sum]
  refine Finset.sum_congr rfl fun p hp => ?_
  rw [Finset.mem_range] at hp
  by_cases hm : ι p = ρ p
  · rw [if_pos hm, add_zero]
    refine Finset.sum_congr rfl fun j hj => ?_
    rw [Finset.mem_range] at hj
    rw [(hl p hp j hj).1 hm]
    unfold both
    rw [← hm]
    ring
  · rw [if_neg hm, ← Finset.sum_add_distrib]
    refine Finset.sum_congr rfl fun j hj => ?_
    rw [Finset.mem_range] at hj
    obtain ⟨h1, h2⟩ := (hl p hp j hj).2 hm
    rw [h1, h2]
    unfold both
    ring

/-- All elements of the whole are accepted if those of the half are. -/
theorem C139_accepted (hs : SqrtFn sq) (h : Doubled i0 c ι ρ d d') (hp : PlaneModel d) (hms : Members sq d ms) :
    ∃ ms', Members sq d' ms' := by
  obtain ⟨ms', h1, -⟩ := h.members hs hp hms
  exact ⟨ms', h1⟩

/-- Equilibrium of the half unfolds to equilibrium of the whole. -/
theorem C139_unfolds (hs : SqrtFn sq) (h : Doubled i0 c ι ρ d d') (hp : PlaneModel d) (hh : HalfHeld i0 anti ι ρ d d')
    (hwf : WellFormed d) (hwf' : WellFormed d') (hms : Members sq d ms) (hms' : Members sq d' ms') (hF : LoadField d F)
    (hF' : LoadField d' F') (hl : HalfLoaded i0 anti ι ρ d.nodes.length F F') {U U' : ℕ → ℕ → K}
    (hu : Unfolded i0 anti ι ρ d.nodes.length U U') (hU : Equilibrium d.cons 2 d.loads ms U) :
    Equilibrium d'.cons 2 d'.loads ms' U' := by
  obtain ⟨ms'', h1, h2⟩ := h.members hs hp hms
  obtain rfl := members_unique hms' h1
  obtain ⟨h3, h4⟩ := (equilibrium_weak hwf hms hF).1 hU
  refine (equilibrium_weak hwf' hms' hF').2 ⟨unfolded_admissible h hh hwf hwf' h3 hu, fun V hV => ?_⟩
  rw [h.external hl, h4 _ (both_admissible h hh hwf hwf' hV)]
  exact (unfolded_work (total := fun V => (ms'.map fun m => m.form 2 V U').sum) hms hu fun V => h2 V U').symm

/-- Work of any field of the whole on an unfolded one. -/
theorem folded_work (hms : Members sq d ms) {V V' U : ℕ → ℕ → K} {total : (ℕ → ℕ → K) → K}
    (hV : Unfolded i0 anti ι ρ d.nodes.length V V')
    (ht : ∀ U, total U = (ms.map fun m => m.form 2 (fun p => V' (ι p)) (fun p => U (ι p))).sum +
      (ms.map fun m => m.form 2 (folded i0 ρ V') (folded i0 ρ U)).sum) :
    total U = (ms.map fun m => m.form 2 V (both i0 anti ι ρ U)).sum := by
  rw [ht, both_eq, forms_add_right, forms_smul_right, ← forms_smul_left]
  congr 1
  · exact forms_congr hms (fun p hp j hj => (hV p hp j hj).1) (fun _ _ _ _ => rfl)
  · refine forms_congr hms (fun p hp j hj => ?_) (fun _ _ _ _ => rfl)
    unfold folded
    rw [(hV p hp j hj).2, parity_eq, ← mul_assoc, ← mul_assoc]
    split <;> ring

/-- The mean of an equilibrium of the whole and its mirror image is an equilibrium of the half. -/
theorem C139_folds (hs : SqrtFn sq) (h : Doubled i0 c ι ρ d d') (hp : PlaneModel d) (hh : HalfHeld i0 anti ι ρ d d')
    (hwf : WellFormed d) (hwf' : WellFormed d') (hms : Members sq d ms) (hms' : Members sq d' ms') (hF : LoadField d F)
    (hF' : LoadField d' F') (hl : HalfLoaded i0 anti ι ρ d.nodes.length F F') {U' : ℕ → ℕ → K}
    (hU : Equilibrium d'.cons 2 d'.loads ms' U') :
    Equilibrium d.cons 2 d.loads ms (fun p j => (U' (ι p) j + parity i0 anti j * U' (ρ p) j) / 2) := by
  obtain ⟨ms'', h1, h2⟩ := h.members hs hp hms
  obtain rfl := members_unique hms' h1
  obtain ⟨h3, h4⟩ := (equilibrium_weak hwf' hms' hF').1 hU
  have e : (fun p j => (U' (ι p) j + parity i0 anti j * U' (ρ p) j) / 2) = fun p j => (1 / 2 : K) * both i0 anti ι ρ U' p j := by
    funext p j
    unfold both
    ring
  rw [e]
  refine (equilibrium_weak hwf hms hF).2 ⟨?_, fun V hV => ?_⟩
  · intro p j hp hj hf
    dsimp only
    rw [both_admissible h hh hwf hwf' h3 p j hp hj hf, mul_zero]
  · obtain ⟨V', hV'⟩ := unfolded_exists h hh hwf hV
    have h5 := h4 V' (unfolded_admissible h hh hwf hwf' hV hV')
    rw [h.external hl, folded_work (total := fun U => (ms'.map fun m => m.form 2 V' U).sum) hms hV' fun U => h2 V' U] at h5
    rw [forms_smul_right, ← h5, Finset.mul_sum]
    refine Finset.sum_congr rfl fun p hp => ?_
    rw [Finset.mem_range] at hp
    rw [Finset.mul_sum]
    refine Finset.sum_congr rfl fun j hj => ?_
    rw [Finset.mem_range] at hj
    unfold both
    rw [(hV' p hp j hj).1, (hV' p hp j hj).2]
    linear_combination (-(1 / 2) * V p j * F p j) * parity_sq (K := K) i0 anti j

/-- If the whole is stable, so is the half. -/
theorem C139_stable (hs : SqrtFn sq) (h : Doubled i0 c ι ρ d d') (hp : PlaneModel d) (hh : HalfHeld i0 anti ι ρ d d')
    (hwf : WellFormed d) (hwf' : WellFormed d') (hms : Members sq d ms) (hms' : Members sq d' ms') (hst : Stable d'.cons 2 ms') :
    Stable d.cons 2 ms := by
  obtain ⟨ms'', h1, h2⟩ := h.members hs hp hms
  obtain rfl := members_unique hms' h1
  rw [stable_weak hwf hms]
  intro U hU H p hp j hj
  obtain ⟨U', hU'⟩ := unfolded_exists h hh hwf hU
  rw [← (hU' p hp j hj).1]
  refine (stable_weak hwf' hms').1 hst U' (unfolded_admissible h hh hwf hwf' hU hU') (fun V hV => ?_) _ (h.kept p hp).1 j hj
  rw [unfolded_work (total := fun V => (ms'.map fun m => m.form 2 V U').sum) hms hU' fun V => h2 V U']
  exact H _ (both_admissible h hh hwf hwf' hV)

/-- The whole is stable exactly when the half is stable with both the symmetric and the antisymmetric supports. -/
theorem C139_stable_iff (hs : SqrtFn sq) (h : Doubled i0 c ι ρ d d') (hp : PlaneModel d) {cons : Table K}
    (hh : HalfHeld i0 false ι ρ d d') (hh' : HalfHeld i0 true ι ρ { d with cons := cons } d')
    (hwf : WellFormed d) (hwfa : WellFormed { d with cons := cons }) (hwf' : WellFormed d') (hms : Members sq d ms) (hms' : Members sq d' ms') :
    Stable d'.cons 2 ms' ↔ Stable d.cons 2 ms ∧ Stable cons 2 ms := by
  have ha : Doubled i0 c ι ρ { d with cons := cons } d' :=
    ⟨h.mats, h.width, h.kept, h.mirrored, h.cover, h.once, h.elements, h.supports⟩
  have hpa : PlaneModel { d with cons := cons } := ⟨hp.nodes, hp.types⟩
  have hmsa : Members sq { d with cons := cons } ms := hms
  refine ⟨fun hst => ⟨C139_stable hs h hp hh hwf hwf' hms hms' hst, C139_stable hs ha hpa hh' hwfa hwf' hmsa hms' hst⟩, ?_⟩
  rintro ⟨s1, s2⟩
  obtain ⟨ms'', h1, h2⟩ := h.members hs hp hms
  obtain rfl := members_unique hms' h1
  rw [stable_weak hwf' hms']
  intro U hU H
  have z1 : ∀ p < d.nodes.length, ∀ j < 2, both i0 false ι ρ U p j = 0 := by
    refine (stable_weak hwf hms).1 s1 _ (both_admissible h hh hwf hwf' hU) fun V hV => ?_
    obtain ⟨V', hV'⟩ := unfolded_exists h hh hwf hV
    rw [← folded_work (total := fun U => (ms'.map fun m => m.form 2 V' U).sum) hms hV' fun U => h2 V' U]
    exact H V' (unfolded_admissible h hh hwf hwf' hV hV')
  have z2 : ∀ p < d.nodes.length, ∀ j < 2, both i0 true ι ρ U p j = 0 := by
    refine (stable_weak hwfa hmsa).1 s2 _ (both_admissible ha hh' hwfa hwf' hU) fun V hV => ?_
    obtain ⟨V', hV'⟩ := unfolded_exists ha hh' hwfa hV
    rw [← folded_work (total := fun U => (ms'.map fun m => m.form 2 V' U).sum) hmsa hV' fun U => h2 V' U]
    exact H V' (unfolded_admissible ha hh' hwfa hwf' hV hV')
  have key : ∀ p < d.nodes.length, ∀ j < 2, U (ι p) j = 0 ∧ U (ρ p) j = 0 := by
    intro p hp j hj
    have a := z1 p hp j hj
    have b := z2 p hp j hj
    unfold both at a b
    have e : parity (K := K) i0 true j = - parity i0 false j := by
      unfold parity
      simp
    rw [e] at b
    have u0 : U (ι p) j = 0 := by linarith
    rw [u0, zero_add] at a
    have : parity (K := K) i0 false j ≠ 0 := by
      intro h0
      have := parity_sq (K := K) i0 false j
      rw [h0] at this
      simp at this
    exact ⟨u0, (mul_eq_zero.1 a).resolve_left this⟩
  intro q hq j hj
  obtain ⟨p, hp, rfl | rfl⟩ := h.cover q hq
  · exact (key p hp j hj).1
  · exact (key p hp j hj).2

theorem disp_entry {res : Gui.Result K} {n p j : ℕ} (hl : res.disp.length = n) (hw : ∀ r ∈ res.disp, r.length = 2) (hp : p < n) (hj : j < 2) :
    entry res.disp p j = some (fieldOf res.disp p j) := by
  have hp' : p < res.disp.length := by rw [hl]; exact hp
  have hr := hw _ (List.getElem_mem hp')
  have : entry res.disp p j = some (res.disp[p][j]'(by omega)) := by
    rw [entry_some]
    exact ⟨_, List.getElem?_eq_getElem hp', List.getElem?_eq_getElem _⟩
  unfold fieldOf
  rw [this]
  rfl

/-- The displacements of the whole are those of the half and their mirror images. -/
theorem C139_displacements (hs : SqrtFn sq) (h : Doubled i0 c ι ρ d d') (hp : PlaneModel d) (hh : HalfHeld i0 anti ι ρ d d')
    (hwf : WellFormed d) (hwf' : WellFormed d') (hsp : SolverOk sp) (hms : Members sq d ms) (hms' : Members sq d' ms')
    (hst : Stable d'.cons 2 ms') (hF : LoadField d F) (hF' : LoadField d' F') (hl : HalfLoaded i0 anti ι ρ d.nodes.length F F')
    {plot plot' : Bool} {res res' : Gui.Result K} (hr : Gui.solidsAuto sq sp de d plot = .ok res)
    (hr' : Gui.solidsAuto sq sp de d' plot' = .ok res') {p : ℕ} (hpn : p < d.nodes.length) {j : ℕ} (hj : j < 2) :
    ∃ x, entry res.disp p j = some x ∧ entry res'.disp (ι p) j = some x ∧ entry res'.disp (ρ p) j = some (parity i0 anti j * x) := by
  have hst2 := C139_stable hs h hp hh hwf hwf' hms hms' hst
  obtain ⟨⟨e1, e2⟩, e3⟩ := C18_nodal_equilibrium hwf hsp hms hst2 hr
  obtain ⟨U', hU'⟩ := unfolded_exists h hh hwf e3.1
  have := C19_only_equilibrium hwf' hsp hms' hst hr' (C139_unfolds hs h hp hh hwf hwf' hms hms' hF hF' hl hU' e3)
  refine ⟨_, disp_entry e1 e2 hpn hj, ?_, ?_⟩
  · rw [this _ j (h.kept p hpn).1 hj, (hU' p hpn j hj).1]
  · rw [this _ j (h.mirrored p hpn).1 hj, (hU' p hpn j hj).2]

/-- Where the half alone is stable, its displacements and their mirror images balance the loads on the whole. -/
theorem C139_half_suffices (hs : SqrtFn sq) (h : Doubled i0 c ι ρ d d') (hp : PlaneModel d) (hh : HalfHeld i0 anti ι ρ d d')
    (hwf : WellFormed d) (hwf' : WellFormed d') (hsp : SolverOk sp) (hms : Members sq d ms) (hms' : Members sq d' ms')
    (hst : Stable d.cons 2 ms) (hF : LoadField d F) (hF' : LoadField d' F') (hl : HalfLoaded i0 anti ι ρ d.nodes.length F F')
    {plot : Bool} {res : Gui.Result K} (hr : Gui.solidsAuto sq sp de d plot = .ok res) :
    (∃ U', Unfolded i0 anti ι ρ d.nodes.length (fieldOf res.disp) U' ∧ Equilibrium d'.cons 2 d'.loads ms' U') ∧
    ∀ U', Equilibrium d'.cons 2 d'.loads ms' U' → ∀ p < d.nodes.length, ∀ j < 2,
      entry res.disp p j = some ((U' (ι p) j + parity i0 anti j * U' (ρ p) j) / 2) := by
  obtain ⟨⟨e1, e2⟩, e3⟩ := C18_nodal_equilibrium hwf hsp hms hst hr
  constructor
  · obtain ⟨U', hU'⟩ := unfolded_exists h hh hwf e3.1
    exact ⟨U', hU', C139_unfolds hs h hp hh hwf hwf' hms hms' hF hF' hl hU' e3⟩
  · intro U' hU' p hpn j hj
    exact C19_only_equilibrium hwf hsp hms hst hr (C139_folds hs h hp hh hwf hwf' hms hms' hF hF' hl hU') p j hpn hj

end

/-! ## Case: a disc of four triangles pressed from above and below -/

section
variable {K : Type} [Field K] [LinearOrder K] [IsStrictOrderedRing K] [FloorRing K]

/-- Rows of a table of loads from node positions and forces. -/
def loadRows (l : List (ℕ × K × K)) : Table K := l.map fun e => [(e.1 : K), e.2.1, e.2.2]

/-- The force at a node. -/
def forceAt : List (ℕ × K × K) → ℕ → ℕ → K
  | [], _, _ => 0
  | e :: l, p, j => if e.1 = p then (if j = 0 then e.2.1 else e.2.2) else forceAt l p j

theorem loads_at {n : ℕ} {l : List (ℕ × K × K)} (hn : ∀ e ∈ l, e.1 < n) (hd : (l.map Prod.fst).Nodup) (p : ℕ) {j : ℕ} (hj : j < 2) :
    IsLoad n (loadRows l) p j (forceAt l p j) := by
  induction l with
  | nil => exact .inl ⟨fun L hL => by simp [loadRows] at hL, rfl⟩
  | cons e l ih =>
    rw [List.map_cons, List.nodup_cons] at hd
    have hN : ∀ e' ∈ e :: l, ∀ q, Names n [(e'.1 : K), e'.2.1, e'.2.2] q ↔ q = e'.1 := fun e' he' q => names_nat (hn e' he') rfl
    unfold forceAt
    by_cases hp : e.1 = p
    · subst hp
      rw [if_pos rfl]
      refine .inr ⟨[], [(e.1 : K), e.2.1, e.2.2], loadRows l, rfl, (hN e List.mem_cons_self _).2 rfl, fun L hL hLN => ?_, ?_⟩
      · obtain ⟨e', he', rfl⟩ := List.mem_map.1 hL
        have := (hN e' (List.mem_cons_of_mem _ he') _).1 hLN
        exact hd.1 (List.mem_map.2 ⟨e', he', this.symm⟩)
      · rcases (by omega : j = 0 ∨ j = 1) with rfl | rfl <;> simp
    · rw [if_neg hp]
      have hp' : ¬ Names n [(e.1 : K), e.2.1, e.2.2] p := fun h => hp ((hN e List.mem_cons_self _).1 h).symm
      rcases ih (fun e' he' => hn e' (List.mem_cons_of_mem _ he')) hd.2 with ⟨h1, h2⟩ | ⟨pre, L, post, h1, h2, h3, h4⟩
      · refine .inl ⟨fun L hL => ?_, h2⟩
        rcases List.mem_cons.1 hL with rfl | hL
        · exact hp'
        · exact h1 L hL
      · exact .inr ⟨[(e.1 : K), e.2.1, e.2.2] :: pre, L, post, by rw [List.cons_append, ← h1]; rfl, h2, h3, h4⟩

theorem free_code {cons : Table K} {p j : ℕ} (hj : j < 2) (h : entry cons p j = some 0) : Free cons 2 p j :=
  ⟨hj, 0, h, by norm_num, by norm_num⟩

theorem held_code {cons : Table K} {p j : ℕ} (h : entry cons p j = some (-1)) : ¬ Free cons 2 p j := by
  rintro ⟨-, x, hx, h1, -⟩
  rw [h, Option.some.injEq] at hx
  rw [← hx] at h1
  exact lt_irrefl _ h1

/-- Rows listing their nodes by position. -/
theorem copy_nat {n n' : ℕ} {φ : ℕ → ℕ} {mirror : Bool} {id id' ty mi : ℤ} {l l' : List ℕ} (hl : ∀ v ∈ l, v < n)
    (hl' : l' = (inOrder mirror l).map φ) (hn' : ∀ v ∈ l', v < n') :
    CopyOf n n' φ mirror (id :: ty :: mi :: List.map (fun v : ℕ => (v : ℤ)) l) (id' :: ty :: mi :: List.map (fun v : ℕ => (v : ℤ)) l') := by
  refine ⟨rfl, rfl, fun ps hps => ?_⟩
  obtain rfl : ps = l := by
    simp only [List.drop_succ_cons, List.drop_zero, List.forall₂_map_left_iff] at hps
    clear hl'
    induction hps with
    | nil => rfl
    | cons h _ ih =>
      rw [ih fun w hw => hl w (List.mem_cons_of_mem _ hw)]
      congr 1
      have := hl _ List.mem_cons_self
      rcases h with ⟨h1, h2 | h2⟩ <;> omega
  rw [← hl']
  simp only [List.drop_succ_cons, List.drop_zero]
  clear hl' hps hl
  induction l' with
  | nil => exact .nil
  | cons v l' ih => exact .cons ⟨hn' v List.mem_cons_self, .inl rfl⟩ (ih fun w hw => hn' w (List.mem_cons_of_mem _ hw))

end

/-- A quarter: the triangle on the right above the centre, on rollers along both axes. -/
noncomputable def discQuarter : Gui.Data ℝ where
  nodes := [[0, 0, 0], [1, 1, 0], [2, 0, 1]]
  cons := [[-1, -1], [0, -1], [-1, 0]]
  elements := [[0, 3, 0, 0, 1, 2]]
  mats := [[10, 1 / 4]]
  loads := loadRows [(2, 0, -1)]

/-- The upper half, on rollers along the first axis. -/
noncomputable def discHalf : Gui.Data ℝ where
  nodes := [[0, 0, 0], [1, 1, 0], [2, 0, 1], [3, -1, 0]]
  cons := [[0, -1], [0, -1], [0, 0], [0, -1]]
  elements := [[0, 3, 0, 0, 1, 2], [1, 3, 0, 0, 2, 3]]
  mats := [[10, 1 / 4]]
  loads := loadRows [(2, 0, -2)]

/-- The whole, without supports, its last element listed first. -/
noncomputable def discWhole : Gui.Data ℝ where
  nodes := [[0, 0, 0], [1, 1, 0], [2, 0, 1], [3, -1, 0], [4, 0, -1]]
  cons := [[0, 0], [0, 0], [0, 0], [0, 0], [0, 0]]
  elements := [[3, 3, 0, 0, 3, 4], [0, 3, 0, 0, 1, 2], [1, 3, 0, 0, 2, 3], [2, 3, 0, 0, 4, 1]]
  mats := [[10, 1 / 4]]
  loads := loadRows [(4, 0, 2), (2, 0, -2)]

theorem disc_once : Doubled 0 0 id (fun p => if p = 1 then 3 else p) discQuarter discHalf where
  mats := rfl
  width := by simp [discHalf]
  kept := by
    intro p hp
    have hp : p < 3 := hp
    refine ⟨show p < 4 by omega, fun i => ?_⟩
    rcases (by omega : p = 0 ∨ p = 1 ∨ p = 2) with rfl | rfl | rfl <;>
      revert i <;> rw [Fin.forall_fin_two] <;> norm_num [coordOf, fieldOf, entry, discHalf, discQuarter]
  mirrored := by
    intro p hp
    have hp : p < 3 := hp
    refine ⟨show (if p = 1 then 3 else p) < 4 by split <;> omega, fun i => ?_⟩
    rcases (by omega : p = 0 ∨ p = 1 ∨ p = 2) with rfl | rfl | rfl <;>
      revert i <;> rw [Fin.forall_fin_two] <;> norm_num [coordOf, fieldOf, entry, discHalf, discQuarter, flipped]
  cover := by
    intro q hq
    have hq : q < 4 := hq
    rcases (by omega : q < 3 ∨ q = 3) with h | rfl
    · exact ⟨q, h, .inl rfl⟩
    · exact ⟨1, by simp [discQuarter], .inr rfl⟩
  once := by
    intro p hp q hq h
    have hp : p < 3 := hp
    have hq : q < 3 := hq
    simp only [id] at h
    split_ifs at h <;> omega
  elements := by
    refine ⟨[[0, 3, 0, 0, 1, 2]], [[1, 3, 0, 0, 2, 3]], List.Perm.refl _, .cons ?_ .nil, .cons ?_ .nil⟩
    · exact copy_nat (l := [0, 1, 2]) (l' := [0, 1, 2]) (by decide) (by decide) (by decide)
    · exact copy_nat (l := [0, 1, 2]) (l' := [0, 2, 3]) (by decide) (by decide) (by decide)
  supports := by
    intro p hp j hj
    have hp : p < 3 := hp
    rcases (by omega : p = 1 ∨ p ≠ 1) with rfl | h
    · rcases (by omega : j = 0 ∨ j = 1) with rfl | rfl
      · exact iff_of_true (free_code (by omega) rfl) (free_code (by omega) rfl)
      · exact iff_of_false (held_code rfl) (held_code rfl)
    · dsimp only [id]
      rw [if_neg h]

theorem disc_twice : Doubled 1 0 id (fun p => if p = 2 then 4 else p) discHalf discWhole where
  mats := rfl
  width := by simp [discWhole]
  kept := by
    intro p hp
    have hp : p < 4 := hp
    refine ⟨show p < 5 by omega, fun i => ?_⟩
    rcases (by omega : p = 0 ∨ p = 1 ∨ p = 2 ∨ p = 3) with rfl | rfl | rfl | rfl <;>
      revert i <;> rw [Fin.forall_fin_two] <;> norm_num [coordOf, fieldOf, entry, discHalf, discWhole]
  mirrored := by
    intro p hp
    have hp : p < 4 := hp
    refine ⟨show (if p = 2 then 4 else p) < 5 by split <;> omega, fun i => ?_⟩
    rcases (by omega : p = 0 ∨ p = 1 ∨ p = 2 ∨ p = 3) with rfl | rfl | rfl | rfl <;>
      revert i <;> rw [Fin.forall_fin_two] <;> norm_num [coordOf, fieldOf, entry, discHalf, discWhole, flipped]
  cover := by
    intro q hq
    have hq : q < 5 := hq
    rcases (by omega : q < 4 ∨ q = 4) with h | rfl
    · exact ⟨q, h, .inl rfl⟩
    · exact ⟨2, by simp [discHalf], .inr rfl⟩
  once := by
    intro p hp q hq h
    have hp : p < 4 := hp
    have hq : q < 4 := hq
    simp only [id] at h
    split_ifs at h <;> omega
  elements := by
    refine ⟨[[0, 3, 0, 0, 1, 2], [1, 3, 0, 0, 2, 3]], [[2, 3, 0, 0, 4, 1], [3, 3, 0, 0, 3, 4]], ?_, .cons ?_ (.cons ?_ .nil),
      .cons ?_ (.cons ?_ .nil)⟩
    · show ([[3, 3, 0, 0, 3, 4], [0, 3, 0, 0, 1, 2], [1, 3, 0, 0, 2, 3], [2, 3, 0, 0, 4, 1]] : List (List ℤ)).Perm _
      decide
    · exact copy_nat (l := [0, 1, 2]) (l' := [0, 1, 2]) (by decide) (by decide) (by decide)
    · exact copy_nat (l := [0, 2, 3]) (l' := [0, 2, 3]) (by decide) (by decide) (by decide)
    · exact copy_nat (l := [0, 1, 2]) (l' := [0, 4, 1]) (by decide) (by decide) (by decide)
    · exact copy_nat (l := [0, 2, 3]) (l' := [0, 3, 4]) (by decide) (by decide) (by decide)
  supports := by
    intro p hp j hj
    have hp : p < 4 := hp
    have : ∀ q < 5, Free discWhole.cons 2 q j := by
      intro q hq
      rcases (by omega : q = 0 ∨ q = 1 ∨ q = 2 ∨ q = 3 ∨ q = 4) with rfl | rfl | rfl | rfl | rfl <;>
        rcases (by omega : j = 0 ∨ j = 1) with rfl | rfl <;> exact free_code (by omega) rfl
    exact iff_of_true (this _ (by split <;> omega)) (this _ (show p < 5 by omega))

theorem disc_held : HalfHeld 0 false id (fun p => if p = 1 then 3 else p) discQuarter discHalf := by
  intro p hp j hj
  have hp : p < 3 := hp
  rcases (by omega : p = 0 ∨ p = 1 ∨ p = 2) with rfl | rfl | rfl <;> rcases (by omega : j = 0 ∨ j = 1) with rfl | rfl
  · exact iff_of_false (held_code rfl) fun h => by
      have := h.2 rfl
      norm_num [parity] at this
  · exact iff_of_false (held_code rfl) fun h => held_code (cons := discHalf.cons) rfl h.1
  · exact iff_of_true (free_code (by omega) rfl) ⟨free_code (by omega) rfl, fun h => absurd h (by decide)⟩
  · exact iff_of_false (held_code rfl) fun h => held_code (cons := discHalf.cons) rfl h.1
  · exact iff_of_false (held_code rfl) fun h => by
      have := h.2 rfl
      norm_num [parity] at this
  · exact iff_of_true (free_code (by omega) rfl) ⟨free_code (by omega) rfl, fun h => by norm_num [parity]⟩

theorem disc_held' : HalfHeld 1 false id (fun p => if p = 2 then 4 else p) discHalf discWhole := by
  intro p hp j hj
  have hp : p < 4 := hp
  rcases (by omega : p = 0 ∨ p = 1 ∨ p = 2 ∨ p = 3) with rfl | rfl | rfl | rfl <;> rcases (by omega : j = 0 ∨ j = 1) with rfl | rfl
  all_goals first
    | exact iff_of_false (held_code rfl) fun h => by
        have := h.2 rfl
        norm_num [parity] at this
    | refine iff_of_true (free_code (by omega) rfl) ⟨free_code (by omega) rfl, fun h => ?_⟩
  all_goals first
    | norm_num [parity]; done
    | revert h; decide

theorem disc_wf : WellFormed discQuarter ∧ WellFormed discHalf ∧ WellFormed discWhole := by
  refine ⟨⟨?_, by simp [discQuarter], rfl⟩, ⟨?_, by simp [discHalf], rfl⟩, ⟨?_, by simp [discWhole], rfl⟩⟩
  all_goals
    intro i j x hj hx
    obtain ⟨row, h1, h2⟩ := entry_some.1 hx
    have hr := List.mem_of_getElem? h1
    have hx := List.mem_of_getElem? h2
  · simp only [discQuarter, List.mem_cons, List.not_mem_nil, or_false] at hr
    rcases hr with rfl | rfl | rfl <;> simp at hx <;> first | simp [hx] | (rcases hx with rfl | rfl <;> simp)
  · simp only [discHalf, List.mem_cons, List.not_mem_nil, or_false] at hr
    rcases hr with rfl | rfl | rfl | rfl <;> simp at hx <;> rcases hx with rfl | rfl <;> simp
  · simp only [discWhole, List.mem_cons, List.not_mem_nil, or_false] at hr
    rcases hr with rfl | rfl | rfl | rfl | rfl <;> simp at hx <;> simp [hx]

theorem disc_plane : PlaneModel discQuarter ∧ PlaneModel discHalf := by
  refine ⟨⟨by simp [discQuarter], ?_⟩, ⟨by simp [discHalf], ?_⟩⟩
  · intro el hel ty hty
    simp only [discQuarter, List.mem_cons, List.not_mem_nil, or_false] at hel
    subst hel
    simp at hty
    simp [← hty]
  · intro el hel ty hty
    simp only [discHalf, List.mem_cons, List.not_mem_nil, or_false] at hel
    rcases hel with rfl | rfl <;> simp at hty <;> simp [← hty]

theorem disc_mesh {m : Member ℝ} (h : Members Real.sqrt discQuarter [m]) (hn : m.nodes = [0, 1, 2]) : SolidMesh Real.sqrt discQuarter [m] where
  nodes := disc_plane.1.nodes
  members := h
  firm := by
    intro el hel ty hty
    simp only [discQuarter, List.mem_cons, List.not_mem_nil, or_false] at hel
    subst hel
    simp at hty
    simp [← hty]
  elastic := by
    intro el hel mi q params _ _ hp
    have := List.mem_of_getElem? hp
    simp only [discQuarter, List.mem_singleton] at this
    exact ⟨10, 1 / 4, [], this, by norm_num, by norm_num, by norm_num, by simp⟩
  used := by
    intro p hp
    have hp : p < 3 := hp
    rcases (by omega : p = 0 ∨ p = 1 ∨ p = 2) with rfl | rfl | rfl <;> simp [hn]
  connected := by
    intro a ha b hb
    simp only [List.mem_cons, List.not_mem_nil, or_false] at ha hb
    subst ha hb
    exact .refl

/-- The quarter is analysed, and its displacements, mirrored twice, balance the forces on the whole, which has no supports; every
other equilibrium of the whole brings the pressed nodes as much nearer to each other. -/
example : ∃ res ms U, Gui.solidsAuto Real.sqrt cramerR cramerR discQuarter false = .ok res ∧ Members Real.sqrt discWhole ms ∧
    Equilibrium discWhole.cons 2 discWhole.loads ms U ∧ entry res.disp 2 1 = some (U 2 1) ∧ U 4 1 = - U 2 1 ∧ U 3 0 = - U 1 0 ∧
    ∀ U', Equilibrium discWhole.cons 2 discWhole.loads ms U' → U' 2 1 - U' 4 1 = U 2 1 - U 4 1 := by
  obtain ⟨m, h0, n0⟩ := tri_exists (mats := discQuarter.mats) (nodes := discQuarter.nodes) (id := 0) (a := 0) (b := 1) (c := 2) rfl rfl rfl rfl
    (by norm_num) (by norm_num)
  have hms : Members Real.sqrt discQuarter [m] := .cons h0 .nil
  obtain ⟨mh, hmh⟩ := C139_accepted sqrtFn_real disc_once disc_plane.1 hms
  obtain ⟨mw, hmw⟩ := C139_accepted sqrtFn_real disc_twice disc_plane.2 hmh
  have hst : Stable discQuarter.cons 2 [m] := by
    refine (C95_stable_iff sqrtFn_real (disc_mesh hms n0) disc_wf.1).2 fun g hg p j hp hj => ?_
    have g1 := hg 0 0 (by simp [discQuarter]) (by omega) (held_code rfl)
    have g2 := hg 2 0 (by simp [discQuarter]) (by omega) (held_code rfl)
    have g3 := hg 0 1 (by simp [discQuarter]) (by omega) (held_code rfl)
    norm_num [Motion.move, coordOf, fieldOf, entry, discQuarter] at g1 g2 g3
    rw [g1] at g2
    have : g.spin = 0 := by linarith
    unfold Motion.move
    rw [g1, this, g3]
    split <;> ring
  have l1 : ∀ L ∈ discQuarter.loads, 3 ≤ L.length ∧ ∃ p, Names discQuarter.nodes.length L p := by
    intro L hL
    obtain rfl : L = [((2 : ℕ) : ℝ), 0, -1] := by simpa [discQuarter, loadRows] using hL
    exact ⟨by simp, 2, (names_nat (p := 2) (by simp [discQuarter]) rfl).2 rfl⟩
  obtain ⟨res, hr⟩ := C93_solids_auto_returns (de := cramerR) disc_plane.1 disc_wf.1 cramerR_ok hms hst
    ⟨2, 1, free_code (by omega) rfl⟩ l1
  have f1 : LoadField discQuarter (forceAt [(2, 0, -1)]) := fun p j _ hj => loads_at (by decide) (by decide) p hj
  have f2 : LoadField discHalf (forceAt [(2, 0, -2)]) := fun p j _ hj => loads_at (by decide) (by decide) p hj
  have f3 : LoadField discWhole (forceAt [(4, 0, 2), (2, 0, -2)]) := fun p j _ hj => loads_at (by decide) (by decide) p hj
  have hl1 : HalfLoaded 0 false id (fun p => if p = 1 then 3 else p) discQuarter.nodes.length (forceAt [(2, 0, -1)])
      (forceAt [(2, 0, (-2 : ℝ))]) := by
    intro p hp j hj
    have hp : p < 3 := hp
    rcases (by omega : p = 0 ∨ p = 1 ∨ p = 2) with rfl | rfl | rfl <;> rcases (by omega : j = 0 ∨ j = 1) with rfl | rfl <;>
      norm_num [forceAt, parity]
  have hl2 : HalfLoaded 1 false id (fun p => if p = 2 then 4 else p) discHalf.nodes.length (forceAt [(2, 0, -2)])
      (forceAt [(4, 0, (2 : ℝ)), (2, 0, -2)]) := by
    intro p hp j hj
    have hp : p < 4 := hp
    rcases (by omega : p = 0 ∨ p = 1 ∨ p = 2 ∨ p = 3) with rfl | rfl | rfl | rfl <;> rcases (by omega : j = 0 ∨ j = 1) with rfl | rfl <;>
      norm_num [forceAt, parity]
  obtain ⟨⟨U1, u1, q1⟩, w1⟩ := C139_half_suffices sqrtFn_real disc_once disc_plane.1 disc_held disc_wf.1 disc_wf.2.1 cramerR_ok hms hmh hst
    f1 f2 hl1 hr
  obtain ⟨U2, u2⟩ := unfolded_exists disc_twice disc_held' disc_wf.2.1 q1.1
  have q2 := C139_unfolds sqrtFn_real disc_twice disc_plane.2 disc_held' disc_wf.2.1 disc_wf.2.2 hmh hmw f2 f3 hl2 u2 q1
  have a1 := u1 2 (by simp [discQuarter]) 1 (by omega)
  have a2 := u2 2 (by simp [discHalf]) 1 (by omega)
  have a3 := u1 1 (by simp [discQuarter]) 0 (by omega)
  have a4 := u2 1 (by simp [discHalf]) 0 (by omega)
  have a5 := u2 3 (by simp [discHalf]) 0 (by omega)
  norm_num [parity] at a1 a2 a3 a4 a5
  have key : ∀ U', Equilibrium discWhole.cons 2 discWhole.loads mw U' → entry res.disp 2 1 = some ((U' 2 1 - U' 4 1) / 2) := by
    intro U' hU'
    have := w1 _ (C139_folds sqrtFn_real disc_twice disc_plane.2 disc_held' disc_wf.2.1 disc_wf.2.2 hmh hmw f2 f3 hl2 hU') 2
      (by simp [discQuarter]) 1 (by omega)
    rw [this]
    norm_num [parity]
    ring
  refine ⟨res, mw, U2, hr, hmw, q2, ?_, ?_, ?_, ?_⟩
  · rw [key U2 q2, a2.1, a2.2]
    norm_num
  · rw [a2.1, a2.2]
  · rw [a5, a4, a3.2, a3.1]
  · intro U' hU'
    have := (key U' hU').symm.trans (key U2 q2)
    rw [Option.some.injEq] at this
    linarith

/-- The square cut in two, mirrored across the second axis. -/
noncomputable def cutMirrored : Gui.Data ℝ where
  nodes := [[0, 0, 0], [1, -2, 0], [2, -2, 2], [3, 0, 2]]
  cons := [[-1, -1], [0, 0], [0, 0], [-1, -1]]
  elements := [[0, 3, 0, 0, 2, 1], [1, 3, 0, 0, 3, 2]]
  mats := [[10, 1 / 4]]
  loads := [[1, -1, 0]]

theorem cut_mirrored : Mirrored (flipped 0) 0 cutTwo cutMirrored where
  placed :=
    { elements := rfl
      mats := rfl
      size := rfl
      width := by simp [cutMirrored]
      coord := by
        intro p hp i
        have hp : p < 4 := hp
        rcases (by omega : p = 0 ∨ p = 1 ∨ p = 2 ∨ p = 3) with rfl | rfl | rfl | rfl <;>
          revert i <;> rw [Fin.forall_fin_two] <;> norm_num [coordOf, fieldOf, entry, cutTwo, cutMirrored, flipped]
      rows := by simp [cutTwo]
      loads := by norm_num [cutTwo, cutMirrored, turnLoad, flipped]
      supports := fun u => supports_flipped 0 cutTwo.cons u }
  elements := by simp [cutTwo, cutMirrored, reverseRow, reversed]

/-- Case for C138: the square drawn the other way round moves the other way. -/
example : ∃ res res', Gui.solidsAuto Real.sqrt cramerR cramerR cutTwo false = .ok res ∧
    Gui.solidsAuto Real.sqrt cramerR cramerR cutMirrored false = .ok res' ∧
    ∃ x y, entry res.disp 1 0 = some x ∧ entry res.disp 1 1 = some y ∧ entry res'.disp 1 0 = some (-x) ∧ entry res'.disp 1 1 = some y := by
  obtain ⟨m0, m1, hms, a0, a1⟩ := cutTwo_members
  have hm := cut_mesh hms a0 a1
  have hst := (C95_stable_iff sqrtFn_real hm cut_wf.1).2 cut_supported.1
  have hp : PlaneModel cutTwo := ⟨hm.nodes, by
    intro el hel ty hty
    simp only [cutTwo, List.mem_cons, List.not_mem_nil, or_false] at hel
    rcases hel with rfl | rfl <;> simp at hty <;> simp [← hty]⟩
  have hw : WellFormed cutMirrored := ⟨cut_wf.1.codes, cut_wf.1.width, cut_wf.1.size⟩
  have hl : ∀ L ∈ cutTwo.loads, 3 ≤ L.length ∧ ∃ p, Names cutTwo.nodes.length L p := by
    intro L hL
    obtain rfl : L = [1, 1, 0] := by simpa [cutTwo] using hL
    exact ⟨by simp, 1, (names_nat (p := 1) (by simp [cutTwo]) (by simp)).2 rfl⟩
  have hf : ∃ p j, Free cutTwo.cons 2 p j := ⟨1, 0, free_code (by omega) rfl⟩
  obtain ⟨res, hr⟩ := C93_solids_auto_returns (de := cramerR) hp cut_wf.1 cramerR_ok hms hst hf hl
  obtain ⟨res', hr'⟩ := C138_returns (de := cramerR) sqrtFn_real hp cut_mirrored (flipped_orth 0) (flipped_det 0) cut_wf.1 hw cramerR_ok hms hst hf
    fun L hL => (hl L hL).2
  have key := fun i : Fin 2 => C138_displacements sqrtFn_real hp cut_mirrored (flipped_orth 0) (flipped_det 0) cut_wf.1 hw cramerR_ok hms hst
    hr hr' (p := 1) (by simp [cutTwo]) i
  obtain ⟨x, y, h1, h2, h3⟩ := key 0
  obtain ⟨x', y', h4, h5, h6⟩ := key 1
  obtain rfl : x = x' := by simpa [h1] using h4
  obtain rfl : y = y' := by simpa [h2] using h5
  exact ⟨res, res', hr, hr', x, y, h1, h2, by simpa [flipped] using h3, by simpa [flipped] using h6⟩

end SolidsPy
