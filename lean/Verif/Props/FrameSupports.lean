import Verif.Props.FrameSplit

/-! # C125: which supports hold a frame -/

set_option linter.unusedSectionVars false

namespace SolidsPy
open Spec Assem Matrix

section
variable {K : Type} [Field K] [LinearOrder K] [IsStrictOrderedRing K] [FloorRing K]
variable {sq : K → K} {cons mats nodes : Table K} {elements : List (List ℤ)} {el : List ℤ} {m : Member K}
  {a b : ℕ} {X : Matrix (Fin 2) (Fin 2) K} {L EI EA γ ν : K} {U V : ℕ → ℕ → K} {ks : List (Member K)}

/-- The small rigid motion `g` of a frame: the nodes turn with it. -/
def Spec.Motion.carry (g : Motion K) (nodes : Table K) (p j : ℕ) : K := if j = 2 then g.spin else g.move nodes p j

/-- The same with the sense of the turning reversed as far as the first displacement is concerned: what the beams of the code take for a
rigid motion. -/
def Spec.Motion.mirrored (g : Motion K) (nodes : Table K) (p j : ℕ) : K :=
  if j = 0 then g.x + g.spin * coordOf nodes p 1 else if j = 1 then g.y + g.spin * coordOf nodes p 0 else g.spin

/-- The two nodes are the ends of a beam. -/
def Spec.Ends (nodes : Table K) (elements : List (List ℤ)) (p q : ℕ) : Prop :=
  ∃ el ∈ elements, List.Forall₂ (Resolves nodes.length) (el.drop 3) [p, q] ∨ List.Forall₂ (Resolves nodes.length) (el.drop 3) [q, p]

/-- A frame in one piece of beams that are stiff in bending and along their axes. -/
structure Spec.RigidFrame (mats nodes : Table K) (elements : List (List ℤ)) : Prop where
  stiff : ∀ el ∈ elements, ∃ a b X L EI EA γ ν, IsBeam mats nodes el a b X L EI EA γ ν ∧ 0 < EI ∧ 0 < EA
  linked : ∀ p < nodes.length, ∀ q < nodes.length, Relation.ReflTransGen (Ends nodes elements) p q

/-- The supports leave the frame no rigid motion. -/
def Spec.HeldFrame (cons nodes : Table K) : Prop :=
  ∀ g : Motion K, Admissible cons 3 (g.carry nodes) → ∀ p j, p < cons.length → j < 3 → g.carry nodes p j = 0

/-- Component `j` of node `p` is supported. -/
def Spec.Held3 (cons : Table K) (p j : ℕ) : Prop := p < cons.length ∧ ¬ Free cons 3 p j

theorem beam_coords (h : IsBeam mats nodes el a b X L EI EA γ ν) : (∀ i : Fin 2, coordOf nodes a i = X 0 i) ∧ ∀ i : Fin 2, coordOf nodes b i = X 1 i := by
  obtain ⟨ia, ha⟩ := h.first
  obtain ⟨ib, hb⟩ := h.second
  unfold coordOf fieldOf entry
  rw [ha, hb]
  constructor <;> exact Fin.forall_fin_two.2 ⟨rfl, rfl⟩

/-- A beam stores no energy exactly when its ends turn alike and are displaced as the (mirrored) turning requires. -/
theorem beam_still_iff (hs : SqrtFn sq) (h : IsBeam mats nodes el a b X L EI EA γ ν) (hEI : 0 < EI) (hEA : 0 < EA)
    (hm : IsMember (Routine sq) mats nodes el m) : m.form 3 U U = 0 ↔
      U b 2 = U a 2 ∧ U b 0 - U a 0 = U a 2 * (coordOf nodes b 1 - coordOf nodes a 1) ∧
        U b 1 - U a 1 = U a 2 * (coordOf nodes b 0 - coordOf nodes a 0) := by
  have hL := h.length
  have hne := hL.1.ne'
  have hLL : (X 1 0 - X 0 0) ^ 2 + (X 1 1 - X 0 1) ^ 2 = L * L := hL.2.symm
  obtain ⟨ca, cb⟩ := beam_coords h
  have ca0 := ca 0
  have ca1 := ca 1
  have cb0 := cb 0
  have cb1 := cb 1
  simp only [Fin.val_zero, Fin.val_one] at ca0 ca1 cb0 cb1
  rw [(h.spring hs hm).2, ca0, ca1, cb0, cb1]
  have hb := deflection_bends (a := a) (b := b) (X := X) hne U
  have hst := extension_stretches (a := a) (b := b) (X := X) hne U
  have e0 := hb.start
  have e1 := hb.slope
  have e2 := hb.stop
  have e3 := hb.slope'
  have f0 := hst.start
  have f1 := hst.stop
  have a2 : (extension a b X L U).coeff 2 = 0 := Polynomial.coeff_eq_zero_of_natDegree_lt (by have := hst.linear; omega)
  have a3 : (extension a b X L U).coeff 3 = 0 := Polynomial.coeff_eq_zero_of_natDegree_lt (by have := hst.linear; omega)
  have h3 := hst.linear.trans (by norm_num : 1 ≤ 3)
  rw [(eval_cubic hb.cubic _).1, (across_left U).1] at e0
  rw [(eval_cubic hb.cubic _).1, (across_right U).1] at e2
  rw [(eval_cubic hb.cubic _).2.1, show endsOf a b U (0, 2) = U a 2 from rfl] at e1
  rw [(eval_cubic hb.cubic _).2.1, show endsOf a b U (1, 2) = U b 2 from rfl] at e3
  rw [(eval_cubic h3 _).1, (across_left U).2] at f0
  rw [(eval_cubic h3 _).1, (across_right U).2, a2, a3] at f1
  generalize deflection a b X L U = P at *
  generalize extension a b X L U = A at *
  have e : bendInt L P P = 4 * L * ((P.coeff 2 + 3 / 2 * P.coeff 3 * L) ^ 2 + 3 / 4 * (P.coeff 3 * L) ^ 2) := by
    unfold bendInt
    ring
  constructor
  · intro h0
    have n1 := mul_nonneg hEI.le (bendInt_nonneg hL.1 P)
    have n2 : 0 ≤ EA * (A.coeff 1 * A.coeff 1 * L) := mul_nonneg hEA.le (mul_nonneg (mul_self_nonneg _) hL.1.le)
    have z1 := (mul_eq_zero.1 (by linarith : EI * bendInt L P P = 0)).resolve_left hEI.ne'
    have z2 := (mul_eq_zero.1 (by linarith : EA * (A.coeff 1 * A.coeff 1 * L) = 0)).resolve_left hEA.ne'
    have a1 : A.coeff 1 = 0 := mul_self_eq_zero.1 ((mul_eq_zero.1 z2).resolve_right hne)
    rw [e] at z1
    have z1 := (mul_eq_zero.1 z1).resolve_left (mul_ne_zero (by norm_num) hne)
    have s1 := sq_nonneg (P.coeff 2 + 3 / 2 * P.coeff 3 * L)
    have s2 := sq_nonneg (P.coeff 3 * L)
    have t2 : (P.coeff 3 * L) ^ 2 = 0 := by linarith
    have t1 : (P.coeff 2 + 3 / 2 * P.coeff 3 * L) ^ 2 = 0 := by linarith
    have p3 : P.coeff 3 = 0 := (mul_eq_zero.1 (pow_eq_zero_iff (by omega) |>.1 t2)).resolve_right hne
    have p2 : P.coeff 2 = 0 := by
      have := pow_eq_zero_iff (by omega) |>.1 t1
      rw [p3] at this
      simpa using this
    rw [p2, p3] at e0 e1 e2 e3
    rw [a1] at f1
    have g2 : U b 2 = U a 2 := by linarith
    have hc1 : P.coeff 1 = U a 2 := by linarith
    rw [hc1] at e2
    rw [div_eq_iff hne] at e0 e2 f0 f1
    have k1 : (X 1 1 - X 0 1) * (U b 0 - U a 0) + (X 1 0 - X 0 0) * (U b 1 - U a 1) = U a 2 * (L * L) := by
      linear_combination e2 - e0
    have k2 : (X 1 0 - X 0 0) * (U b 0 - U a 0) - (X 1 1 - X 0 1) * (U b 1 - U a 1) = 0 := by
      linear_combination f1 - f0
    have hL2 : L * L ≠ 0 := mul_ne_zero hne hne
    refine ⟨g2, mul_left_cancel₀ hL2 ?_, mul_left_cancel₀ hL2 ?_⟩
    · linear_combination (X 1 1 - X 0 1) * k1 + (X 1 0 - X 0 0) * k2 - (U b 0 - U a 0) * hLL
    · linear_combination (X 1 0 - X 0 0) * k1 - (X 1 1 - X 0 1) * k2 - (U b 1 - U a 1) * hLL
  · rintro ⟨g2, g0, g1⟩
    have g0' : U b 0 = U a 0 + U a 2 * (X 1 1 - X 0 1) := by linarith
    have g1' : U b 1 = U a 1 + U a 2 * (X 1 0 - X 0 0) := by linarith
    rw [g0', g1', div_eq_iff hne] at e2 f1
    rw [div_eq_iff hne] at e0 f0
    have a1 : A.coeff 1 = 0 := by
      have : A.coeff 1 * (L * L) = 0 := by linear_combination f0 - f1
      exact (mul_eq_zero.1 this).resolve_right (mul_ne_zero hne hne)
    have k1 : P.coeff 2 * L + P.coeff 3 * L ^ 2 = 0 := by
      have : (P.coeff 2 * L + P.coeff 3 * L ^ 2) * (L * L) = 0 := by linear_combination e0 - e2 + U a 2 * hLL + L * L * e1
      exact (mul_eq_zero.1 this).resolve_right (mul_ne_zero hne hne)
    have k2 : 2 * P.coeff 2 * L + 3 * P.coeff 3 * L ^ 2 = 0 := by linear_combination e1 - e3 + g2
    have p3 : P.coeff 3 = 0 := by
      have : P.coeff 3 * (L * L) = 0 := by linear_combination k2 - 2 * k1
      exact (mul_eq_zero.1 this).resolve_right (mul_ne_zero hne hne)
    have p2 : P.coeff 2 = 0 := by
      rw [p3] at k1
      have : P.coeff 2 * L = 0 := by linear_combination k1
      exact (mul_eq_zero.1 this).resolve_right hne
    rw [e, p2, p3, a1]
    simp

/-- A beam that stores no energy does no work either. -/
theorem beam_still_work (hs : SqrtFn sq) (h : IsBeam mats nodes el a b X L EI EA γ ν) (hEI : 0 < EI) (hEA : 0 < EA)
    (hm : IsMember (Routine sq) mats nodes el m) (h0 : m.form 3 U U = 0) (V : ℕ → ℕ → K) : m.form 3 V U = 0 := by
  rw [(h.spring hs hm).2] at h0 ⊢
  have hL := h.length
  have hne := hL.1.ne'
  generalize deflection a b X L U = P at *
  generalize extension a b X L U = A at *
  have n1 := mul_nonneg hEI.le (bendInt_nonneg hL.1 P)
  have n2 : 0 ≤ EA * (A.coeff 1 * A.coeff 1 * L) := mul_nonneg hEA.le (mul_nonneg (mul_self_nonneg _) hL.1.le)
  have z1 := (mul_eq_zero.1 (by linarith : EI * bendInt L P P = 0)).resolve_left hEI.ne'
  have z2 := (mul_eq_zero.1 (by linarith : EA * (A.coeff 1 * A.coeff 1 * L) = 0)).resolve_left hEA.ne'
  have a1 : A.coeff 1 = 0 := mul_self_eq_zero.1 ((mul_eq_zero.1 z2).resolve_right hne)
  have e : bendInt L P P = 4 * L * ((P.coeff 2 + 3 / 2 * P.coeff 3 * L) ^ 2 + 3 / 4 * (P.coeff 3 * L) ^ 2) := by
    unfold bendInt
    ring
  rw [e] at z1
  have z1 := (mul_eq_zero.1 z1).resolve_left (mul_ne_zero (by norm_num) hne)
  have s1 := sq_nonneg (P.coeff 2 + 3 / 2 * P.coeff 3 * L)
  have s2 := sq_nonneg (P.coeff 3 * L)
  have t2 : (P.coeff 3 * L) ^ 2 = 0 := by linarith
  have t1 : (P.coeff 2 + 3 / 2 * P.coeff 3 * L) ^ 2 = 0 := by linarith
  have p3 : P.coeff 3 = 0 := (mul_eq_zero.1 (pow_eq_zero_iff (by omega) |>.1 t2)).resolve_right hne
  have p2 : P.coeff 2 = 0 := by
    have := pow_eq_zero_iff (by omega) |>.1 t1
    rw [p3] at this
    simpa using this
  unfold bendInt
  rw [p2, p3, a1]
  simp

theorem mirrored_fields (g : Motion K) (p : ℕ) : g.mirrored nodes p 0 = g.x + g.spin * coordOf nodes p 1 ∧
    g.mirrored nodes p 1 = g.y + g.spin * coordOf nodes p 0 ∧ g.mirrored nodes p 2 = g.spin := ⟨rfl, rfl, rfl⟩

/-- C125.  The frame stores no energy exactly in the mirrored rigid motions of the whole. -/
theorem C125_zero_energy (hs : SqrtFn sq) (h : RigidFrame mats nodes elements)
    (hk : List.Forall₂ (IsMember (Routine sq) mats nodes) elements ks) (u : ℕ → ℕ → K) :
    (∀ m ∈ ks, m.form 3 u u = 0) ↔ ∃ g : Motion K, ∀ p < nodes.length, ∀ j < 3, u p j = g.mirrored nodes p j := by
  constructor
  · intro h0
    refine ⟨⟨u 0 0 - u 0 2 * coordOf nodes 0 1, u 0 1 - u 0 2 * coordOf nodes 0 0, u 0 2⟩, fun p hp => ?_⟩
    have step : ∀ p q, Ends nodes elements p q → u q 2 = u p 2 ∧ u q 0 - u p 0 = u p 2 * (coordOf nodes q 1 - coordOf nodes p 1) ∧
        u q 1 - u p 1 = u p 2 * (coordOf nodes q 0 - coordOf nodes p 0) := by
      rintro p q ⟨el, hel, hr⟩
      obtain ⟨a, b, X, L, EI, EA, γ, ν, hb, h1, h2⟩ := h.stiff el hel
      obtain ⟨m, hm, hr'⟩ := forall₂_mem' hk hel
      have t := (beam_still_iff hs hb h1 h2 hr').1 (h0 m hm)
      rcases hr with hr | hr
      · have := forall₂_resolves_unique hr hb.ends
        simp only [List.cons.injEq, and_true] at this
        obtain ⟨rfl, rfl⟩ := this
        exact t
      · have := forall₂_resolves_unique hr hb.ends
        simp only [List.cons.injEq, and_true] at this
        obtain ⟨rfl, rfl⟩ := this
        obtain ⟨t2, t0, t1⟩ := t
        refine ⟨t2.symm, ?_, ?_⟩
        · rw [t2]
          linarith
        · rw [t2]
          linarith
    have all : ∀ q, Relation.ReflTransGen (Ends nodes elements) 0 q → u q 2 = u 0 2 ∧
        u q 0 - u 0 0 = u 0 2 * (coordOf nodes q 1 - coordOf nodes 0 1) ∧ u q 1 - u 0 1 = u 0 2 * (coordOf nodes q 0 - coordOf nodes 0 0) := by
      intro q hq
      induction hq with
      | refl => simp
      | tail _ h2 ih =>
        obtain ⟨i2, i0, i1⟩ := ih
        obtain ⟨t2, t0, t1⟩ := step _ _ h2
        rw [i2] at t0 t1 t2
        exact ⟨t2, by linear_combination i0 + t0, by linear_combination i1 + t1⟩
    obtain ⟨t2, t0, t1⟩ := all p (h.linked 0 (by omega) p hp)
    intro j hj
    rcases (by omega : j = 0 ∨ j = 1 ∨ j = 2) with rfl | rfl | rfl
    · rw [(mirrored_fields _ p).1]
      linear_combination t0
    · rw [(mirrored_fields _ p).2.1]
      linear_combination t1
    · exact t2
  · rintro ⟨g, hg⟩ m hm
    obtain ⟨el, hel, hr⟩ := forall₂_mem hk hm
    obtain ⟨a, b, X, L, EI, EA, γ, ν, hb, h1, h2⟩ := h.stiff el hel
    obtain ⟨_, -, ha⟩ := forall₂_mem hb.ends (y := a) (by simp)
    obtain ⟨_, -, hb'⟩ := forall₂_mem hb.ends (y := b) (by simp)
    rw [beam_still_iff hs hb h1 h2 hr, hg b hb'.1 2 (by omega), hg a ha.1 2 (by omega), hg b hb'.1 0 (by omega), hg a ha.1 0 (by omega),
      hg b hb'.1 1 (by omega), hg a ha.1 1 (by omega), (mirrored_fields g a).1, (mirrored_fields g a).2.1, (mirrored_fields g a).2.2,
      (mirrored_fields g b).1, (mirrored_fields g b).2.1, (mirrored_fields g b).2.2]
    exact ⟨rfl, by ring, by ring⟩

/-- C125.  Where some beam is not parallel to the first axis, the true rigid motions without energy are the translations only. -/
theorem C125_true_motions (hs : SqrtFn sq) (h : RigidFrame mats nodes elements)
    (hk : List.Forall₂ (IsMember (Routine sq) mats nodes) elements ks) {p q : ℕ} (hp : p < nodes.length) (hq : q < nodes.length)
    (hpq : coordOf nodes p 1 ≠ coordOf nodes q 1) (g : Motion K) : (∀ m ∈ ks, m.form 3 (g.carry nodes) (g.carry nodes) = 0) ↔ g.spin = 0 := by
  rw [C125_zero_energy hs h hk]
  constructor
  · rintro ⟨g', hg'⟩
    have s : g.spin = g'.spin := hg' p hp 2 (by omega)
    have e1 : g.x - g.spin * coordOf nodes p 1 = g'.x + g'.spin * coordOf nodes p 1 := hg' p hp 0 (by omega)
    have e2 : g.x - g.spin * coordOf nodes q 1 = g'.x + g'.spin * coordOf nodes q 1 := hg' q hq 0 (by omega)
    rw [← s] at e1 e2
    have : g.spin * (coordOf nodes p 1 - coordOf nodes q 1) = 0 := by linear_combination (e2 - e1) / 2
    exact (mul_eq_zero.1 this).resolve_right (sub_ne_zero.2 hpq)
  · intro h0
    refine ⟨g, fun p _ j hj => ?_⟩
    rcases (by omega : j = 0 ∨ j = 1 ∨ j = 2) with rfl | rfl | rfl
    · rw [(mirrored_fields g p).1, h0, show g.carry nodes p 0 = g.x - g.spin * coordOf nodes p 1 from rfl, h0]
      ring
    · rfl
    · rfl

theorem carry_fields (g : Motion K) (p : ℕ) : g.carry nodes p 0 = g.x - g.spin * coordOf nodes p 1 ∧
    g.carry nodes p 1 = g.y + g.spin * coordOf nodes p 0 ∧ g.carry nodes p 2 = g.spin := ⟨rfl, rfl, rfl⟩

/-- C125.  Which supports hold a frame: one in each direction, and one against turning or two parallel ones with different lines of action. -/
theorem C125_held_iff (h0 : 0 < cons.length) : HeldFrame cons nodes ↔ (∃ p, Held3 cons p 0) ∧ (∃ q, Held3 cons q 1) ∧
    ((∃ r, Held3 cons r 2) ∨ ∃ p q, ∃ j < 2, Held3 cons p j ∧ Held3 cons q j ∧ coordOf nodes p (1 - j) ≠ coordOf nodes q (1 - j)) := by
  constructor
  · intro H
    have c1 : ∃ p, Held3 cons p 0 := by
      by_contra hno
      push Not at hno
      have := H ⟨1, 0, 0⟩ (fun p j hp hj hf => ?_) 0 0 h0 (by omega)
      · rw [(carry_fields _ 0).1] at this
        simp at this
      · rcases (by omega : j = 0 ∨ j = 1 ∨ j = 2) with rfl | rfl | rfl
        · exact absurd ⟨hp, hf⟩ (hno p)
        · rw [(carry_fields _ p).2.1]
          simp
        · rw [(carry_fields _ p).2.2]
    have c2 : ∃ p, Held3 cons p 1 := by
      by_contra hno
      push Not at hno
      have := H ⟨0, 1, 0⟩ (fun p j hp hj hf => ?_) 0 1 h0 (by omega)
      · rw [(carry_fields _ 0).2.1] at this
        simp at this
      · rcases (by omega : j = 0 ∨ j = 1 ∨ j = 2) with rfl | rfl | rfl
        · rw [(carry_fields _ p).1]
          simp
        · exact absurd ⟨hp, hf⟩ (hno p)
        · rw [(carry_fields _ p).2.2]
    refine ⟨c1, c2, ?_⟩
    by_contra hno
    push Not at hno
    obtain ⟨n1, n2⟩ := hno
    obtain ⟨p1, h1⟩ := c1
    obtain ⟨p2, h2⟩ := c2
    have := H ⟨coordOf nodes p1 1, -coordOf nodes p2 0, 1⟩ (fun p j hp hj hf => ?_) 0 2 h0 (by omega)
    · rw [(carry_fields _ 0).2.2] at this
      simp at this
    · rcases (by omega : j = 0 ∨ j = 1 ∨ j = 2) with rfl | rfl | rfl
      · rw [(carry_fields _ p).1, n2 p1 p 0 (by omega) h1 ⟨hp, hf⟩]
        ring
      · rw [(carry_fields _ p).2.1, n2 p2 p 1 (by omega) h2 ⟨hp, hf⟩]
        ring
      · exact absurd ⟨hp, hf⟩ (n1 p)
  · rintro ⟨⟨p1, h1⟩, ⟨p2, h2⟩, h3⟩ g hg p j hp hj
    have e1 := hg p1 0 h1.1 (by omega) h1.2
    have e2 := hg p2 1 h2.1 (by omega) h2.2
    rw [(carry_fields g _).1] at e1
    rw [(carry_fields g _).2.1] at e2
    have hz : g.spin = 0 := by
      rcases h3 with ⟨r, hr⟩ | ⟨q1, q2, i, hi, k1, k2, hne⟩
      · exact hg r 2 hr.1 (by omega) hr.2
      · have f1 := hg q1 i k1.1 (by omega) k1.2
        have f2 := hg q2 i k2.1 (by omega) k2.2
        rcases (by omega : i = 0 ∨ i = 1) with rfl | rfl
        · rw [(carry_fields g _).1] at f1 f2
          have : g.spin * (coordOf nodes q1 1 - coordOf nodes q2 1) = 0 := by linear_combination f2 - f1
          exact (mul_eq_zero.1 this).resolve_right (sub_ne_zero.2 hne)
        · rw [(carry_fields g _).2.1] at f1 f2
          have : g.spin * (coordOf nodes q1 0 - coordOf nodes q2 0) = 0 := by linear_combination f1 - f2
          exact (mul_eq_zero.1 this).resolve_right (sub_ne_zero.2 hne)
    rw [hz] at e1 e2
    rcases (by omega : j = 0 ∨ j = 1 ∨ j = 2) with rfl | rfl | rfl
    · rw [(carry_fields g p).1, hz]
      linear_combination e1
    · rw [(carry_fields g p).2.1, hz]
      linear_combination e2
    · exact hz

/-- Supports act in the directions of the axes, so that they hold a frame against the mirrored motions exactly when they do so against the
true ones. -/
theorem held_mirrored : HeldFrame cons nodes ↔ ∀ g : Motion K, Admissible cons 3 (g.mirrored nodes) →
    ∀ p j, p < cons.length → j < 3 → g.mirrored nodes p j = 0 := by
  have key : ∀ (g : Motion K) p j, j < 3 → ((⟨-g.x, g.y, g.spin⟩ : Motion K).mirrored nodes p j = 0 ↔ g.carry nodes p j = 0) := by
    intro g p j hj
    rcases (by omega : j = 0 ∨ j = 1 ∨ j = 2) with rfl | rfl | rfl
    · rw [(mirrored_fields _ p).1, (carry_fields g p).1]
      dsimp only
      constructor <;> intro h <;> linear_combination -h
    · exact Iff.rfl
    · exact Iff.rfl
  constructor
  · intro H g hg p j hp hj
    have e : (⟨- -g.x, g.y, g.spin⟩ : Motion K) = g := by rw [neg_neg]
    have := H ⟨-g.x, g.y, g.spin⟩ (fun p j hp hj hf => by
      rw [← key, e]
      · exact hg p j hp hj hf
      · exact hj) p j hp hj
    rw [← key _ _ _ hj, e] at this
    exact this
  · intro H g hg p j hp hj
    rw [← key g p j hj]
    exact H _ (fun p j hp hj hf => (key g p j hj).2 (hg p j hp hj hf)) p j hp hj

/-- C125.  The frame is stable exactly when the supports prevent every rigid motion. -/
theorem C125_stable_iff (hs : SqrtFn sq) (h : RigidFrame mats nodes elements) (hf : Frame cons nodes elements)
    (hk : List.Forall₂ (IsMember (Routine sq) mats nodes) elements ks) : Stable cons 3 ks ↔ HeldFrame cons nodes := by
  rw [held_mirrored]
  have hpos : ∀ u, ∀ m ∈ ks, 0 ≤ m.form 3 u u := by
    intro u m hm
    obtain ⟨el, hel, hr⟩ := forall₂_mem hk hm
    obtain ⟨a, b, X, L, EI, EA, γ, ν, hb, h1, h2⟩ := h.stiff el hel
    rw [(hb.spring hs hr).2]
    exact add_nonneg (mul_nonneg h1.le (bendInt_nonneg hb.length.1 _)) (mul_nonneg h2.le (mul_nonneg (mul_self_nonneg _) hb.length.1.le))
  constructor
  · intro hst g hg
    refine hst _ hg fun p j hfr => ?_
    have h0 := (C125_zero_energy hs h hk (g.mirrored nodes)).2 ⟨g, fun _ _ _ _ => rfl⟩
    rw [internal_unit ks _ p hfr.1]
    refine List.sum_eq_zero fun y hy => ?_
    obtain ⟨m, hm, rfl⟩ := List.mem_map.1 hy
    obtain ⟨el, hel, hr⟩ := forall₂_mem hk hm
    obtain ⟨a, b, X, L, EI, EA, γ, ν, hb, h1, h2⟩ := h.stiff el hel
    exact beam_still_work hs hb h1 h2 hr (h0 m hm) _
  · intro H u hu h0 p j hp hj
    have e : (ks.map fun m => m.form 3 u u).sum = 0 := by
      rw [← virtual_work (members_lt hk)]
      refine Finset.sum_eq_zero fun p hp => Finset.sum_eq_zero fun j hj => ?_
      rw [Finset.mem_range] at hp hj
      by_cases hfr : Free cons 3 p j
      · rw [h0 p j hfr, mul_zero]
      · rw [hu p j (by rw [hf.size]; exact hp) hj hfr, zero_mul]
    obtain ⟨g, hg⟩ := (C125_zero_energy hs h hk u).1 ((sum_pos_zero (hpos u)).1 e)
    rw [hg p (by rw [← hf.size]; exact hp) j hj]
    exact H g (fun p j hp hj hfr => by
      rw [← hg p (by rw [← hf.size]; exact hp) j hj]
      exact hu p j hp hj hfr) p j hp hj

/-- C125.  One clamped node holds the whole frame. -/
theorem C125_clamped {p : ℕ} (hp : p < cons.length) (hc : ∀ j < 3, ¬ Free cons 3 p j) : HeldFrame cons nodes :=
  (C125_held_iff (by omega)).2 ⟨⟨p, hp, hc 0 (by omega)⟩, ⟨p, hp, hc 1 (by omega)⟩, .inl ⟨p, hp, hc 2 (by omega)⟩⟩

/-- C125.  A held frame is solved, for all loads on its nodes. -/
theorem C125_solved (hs : SqrtFn sq) (h : RigidFrame mats nodes elements) (hf : Frame cons nodes elements) (hh : HeldFrame cons nodes)
    {loads : Table K} {sp de : Sol.Solver K} (hsp : SolverOk sp) (hde : SolverOk de) (sparse : Bool)
    (hl : ∀ L ∈ loads, 4 ≤ L.length ∧ ∃ p, Names nodes.length L p) :
    ∃ ks full, List.Forall₂ (IsMember (Routine sq) mats nodes) elements ks ∧
      frameRun sq sp de sparse cons elements mats nodes loads = .ok full ∧ Equilibrium cons 3 loads ks (fieldOf full) := by
  obtain ⟨ks, hk⟩ : ∃ ks, List.Forall₂ (IsMember (Routine sq) mats nodes) elements ks := by
    have hst := h.stiff
    clear hf h
    induction elements with
    | nil => exact ⟨[], .nil⟩
    | cons el t ih =>
      obtain ⟨ks, hk⟩ := ih fun e he => hst e (by simp [he])
      obtain ⟨a, b, X, L, EI, EA, γ, ν, hb, -⟩ := hst el (by simp)
      obtain ⟨m, hm⟩ := hb.exists_member hs
      exact ⟨m :: ks, .cons hm hk⟩
  obtain ⟨full, h1, h2⟩ := C117_solved hf hk ((C125_stable_iff hs h hf hk).2 hh) hsp hde sparse hl
  exact ⟨ks, full, hk, h1, h2⟩

end

section
variable {sq : ℝ → ℝ} {cons mats nodes : Table ℝ} {elements : List (List ℤ)} {neq : ℕ} {ks ms : List (Member ℝ)}
  {Kg Mg : Matrix (Fin neq) (Fin neq) ℝ} {w : Fin neq → ℝ} {φ : Fin neq → Fin neq → ℝ}

/-- C125.  A squared frequency is zero exactly when as many independent mirrored rigid motions are left free by the supports. -/
theorem C125_zero_frequencies (hs : SqrtFn sq) (h : BeamModel sq cons mats nodes elements ks ms Kg Mg) (hr : RigidFrame mats nodes elements)
    (h0 : 0 < nodes.length) (hm : Modes Kg Mg w φ) (k : Fin neq) : w k = 0 ↔ ∃ g : Fin (k + 1) → Motion ℝ,
      (∀ i, Admissible cons 3 ((g i).mirrored nodes)) ∧
        ∀ c : Fin (k + 1) → ℝ, ∑ i, c i * (g i).x = 0 → ∑ i, c i * (g i).y = 0 → ∑ i, c i * (g i).spin = 0 → c = 0 := by
  have he : ∀ el ∈ elements, ElasticBeam mats nodes el := by
    intro el hel
    obtain ⟨a, b, X, L, EI, EA, γ, ν, hb, h1, h2⟩ := hr.stiff el hel
    exact ⟨a, b, X, L, EI, EA, γ, ν, hb, h1.le, h2.le⟩
  have hpos : ∀ u, ∀ m ∈ ks, 0 ≤ m.form 3 u u := by
    intro u m hm
    obtain ⟨el, hel, hr'⟩ := forall₂_mem h.springs hm
    obtain ⟨a, b, X, L, EI, EA, γ, ν, hb, h1, h2⟩ := hr.stiff el hel
    rw [(hb.spring hs hr').2]
    exact add_nonneg (mul_nonneg h1.le (bendInt_nonneg hb.length.1 _)) (mul_nonneg h2.le (mul_nonneg (mul_self_nonneg _) hb.length.1.le))
  have e1 : w k = 0 ↔ w k ≤ 0 := ⟨fun h => h.le, fun hle => le_antisymm hle (C122_nonneg hs h he hm k)⟩
  rw [e1, C122_minmax hs h hm]
  have comb : ∀ {n : ℕ} (c : Fin n → ℝ) (g : Fin n → Motion ℝ) p j, j < 3 → ∑ i, c i * (g i).mirrored nodes p j =
      (⟨∑ i, c i * (g i).x, ∑ i, c i * (g i).y, ∑ i, c i * (g i).spin⟩ : Motion ℝ).mirrored nodes p j := by
    intro n c g p j hj
    rcases (by omega : j = 0 ∨ j = 1 ∨ j = 2) with rfl | rfl | rfl
    · simp only [(mirrored_fields _ p).1, mul_add, Finset.sum_add_distrib, Finset.sum_mul, mul_assoc]
    · simp only [(mirrored_fields _ p).2.1, mul_add, Finset.sum_add_distrib, Finset.sum_mul, mul_assoc]
    · rfl
  have hsz := h.frame.size
  constructor
  · rintro ⟨u, h1, h2, h3⟩
    have hz : ∀ c : Fin (k + 1) → ℝ, ∃ g : Motion ℝ, ∀ p < nodes.length, ∀ j < 3, ∑ i, c i * u i p j = g.mirrored nodes p j := by
      intro c
      have h3 := h3 c
      rw [zero_mul] at h3
      exact (C125_zero_energy hs hr h.springs _).1 ((sum_pos_zero (hpos _)).1 (le_antisymm h3 (List.sum_nonneg fun y hy => by
        obtain ⟨m, hm, rfl⟩ := List.mem_map.1 hy
        exact hpos _ m hm)))
    have one : ∀ i : Fin (k + 1), ∃ g : Motion ℝ, ∀ p < nodes.length, ∀ j < 3, u i p j = g.mirrored nodes p j := by
      intro i
      obtain ⟨g, hg⟩ := hz (Pi.single i 1)
      refine ⟨g, fun p hp j hj => ?_⟩
      rw [← hg p hp j hj, Finset.sum_eq_single i (by intro b _ hb; rw [Pi.single_eq_of_ne hb, zero_mul]) (by simp), Pi.single_eq_same, one_mul]
    choose g hg using one
    refine ⟨g, fun i p j hp hj hf => ?_, fun c cx cy cs => h2 c fun p hp j hj => ?_⟩
    · rw [← hg i p (by rw [← hsz]; exact hp) j hj]
      exact h1 i p j hp hj hf
    · rw [Finset.sum_congr rfl fun i _ => by rw [hg i p (by rw [← hsz]; exact hp) j hj], comb c g p j hj, cx, cy, cs]
      rcases (by omega : j = 0 ∨ j = 1 ∨ j = 2) with rfl | rfl | rfl
      · rw [(mirrored_fields _ p).1]
        simp
      · rw [(mirrored_fields _ p).2.1]
        simp
      · rfl
  · rintro ⟨g, h1, h2⟩
    refine ⟨fun i => (g i).mirrored nodes, h1, fun c hc => ?_, fun c => ?_⟩
    · have hc : ∀ j < 3, _ := fun j hj => (comb c g 0 j hj).symm.trans (hc 0 (by omega) j hj)
      have c2 : ∑ i, c i * (g i).spin = 0 := hc 2 (by omega)
      have c0 := hc 0 (by omega)
      have c1 := hc 1 (by omega)
      rw [(mirrored_fields _ 0).1] at c0
      rw [(mirrored_fields _ 0).2.1] at c1
      dsimp only at c0 c1
      rw [c2, zero_mul, add_zero] at c0 c1
      exact h2 c c0 c1 c2
    · rw [zero_mul]
      refine (List.sum_eq_zero fun y hy => ?_).le
      obtain ⟨m, hm, rfl⟩ := List.mem_map.1 hy
      exact (C125_zero_energy hs hr h.springs _).2 ⟨_, fun p _ j hj => comb c g p j hj⟩ m hm

/-- C125.  A frame in one piece without supports has exactly three zero frequencies. -/
theorem C125_floating (hs : SqrtFn sq) (h : BeamModel sq cons mats nodes elements ks ms Kg Mg) (hr : RigidFrame mats nodes elements)
    (h0 : 0 < nodes.length) (hm : Modes Kg Mg w φ) (hfree : ∀ p < nodes.length, ∀ j < 3, Free cons 3 p j) (k : Fin neq) :
    w k = 0 ↔ (k : ℕ) < 3 := by
  rw [C125_zero_frequencies hs h hr h0 hm]
  constructor
  · rintro ⟨g, -, hi⟩
    by_contra hk
    let A : Matrix (Fin 3) (Fin (k + 1)) ℝ := Matrix.of fun l a => ![(g a).x, (g a).y, (g a).spin] l
    obtain ⟨c, hz, hc⟩ := (Submodule.ne_bot_iff _).1 (LinearMap.ker_ne_bot_of_finrank_lt (f := A.mulVecLin) (by simp; omega))
    have hz : A.mulVec c = 0 := LinearMap.mem_ker.1 hz
    have get : ∀ l, ∑ a, c a * A l a = 0 := by
      intro l
      exact (by simp [Matrix.mulVec, dotProduct, mul_comm] : _ = A.mulVec c l).trans (congrFun hz l)
    exact hc (hi c (get 0) (get 1) (get 2))
  · intro hk
    refine ⟨fun a => ⟨if (a : ℕ) = 0 then 1 else 0, if (a : ℕ) = 1 then 1 else 0, if (a : ℕ) = 2 then 1 else 0⟩, ?_, ?_⟩
    · intro a p j hp hj hf
      exact absurd (hfree p (by rw [← h.frame.size]; exact hp) j hj) hf
    · intro c hx hy hw
      dsimp only at hx hy hw
      have one : ∀ i : Fin (k + 1), ∑ a, c a * (if (a : ℕ) = i then 1 else 0) = c i := by
        intro i
        rw [Finset.sum_eq_single i (by intro b _ hb; rw [if_neg (fun h => hb (Fin.ext h)), mul_zero]) (by simp)]
        simp
      funext i
      rw [← one i]
      rcases (by omega : (i : ℕ) = 0 ∨ (i : ℕ) = 1 ∨ (i : ℕ) = 2) with h' | h' | h' <;> rw [h'] <;> assumption

end

/-- The frame of the tests is a rigid frame. -/
theorem testFrame_rigid : RigidFrame testFrame.2.2.1 testFrame.2.2.2.1 testFrame.2.1 where
  stiff el hel := by
    obtain ⟨a, b, X, L, h⟩ := testFrame_beams el hel
    exact ⟨a, b, X, L, _, _, _, _, h, by norm_num, by norm_num⟩
  linked := by
    have h01 : Ends testFrame.2.2.2.1 testFrame.2.1 0 1 := ⟨[0, 8, 0, 0, 1], by simp [testFrame],
      .inl (.cons ⟨by simp [testFrame], .inl rfl⟩ (.cons ⟨by simp [testFrame], .inl rfl⟩ .nil))⟩
    have h12 : Ends testFrame.2.2.2.1 testFrame.2.1 1 2 := ⟨[1, 8, 0, 1, 2], by simp [testFrame],
      .inl (.cons ⟨by simp [testFrame], .inl rfl⟩ (.cons ⟨by simp [testFrame], .inl rfl⟩ .nil))⟩
    have symm : ∀ p q, Ends testFrame.2.2.2.1 testFrame.2.1 p q → Ends testFrame.2.2.2.1 testFrame.2.1 q p :=
      fun p q ⟨el, hel, h⟩ => ⟨el, hel, h.symm⟩
    intro p hp q hq
    have hp : p < 3 := hp
    have hq : q < 3 := hq
    have to0 : ∀ p < 3, Relation.ReflTransGen (Ends testFrame.2.2.2.1 testFrame.2.1) p 0 := by
      intro p hp
      rcases (by omega : p = 0 ∨ p = 1 ∨ p = 2) with rfl | rfl | rfl
      · exact .refl
      · exact .single (symm _ _ h01)
      · exact .tail (.single (symm _ _ h12)) (symm _ _ h01)
    have from0 : ∀ p < 3, Relation.ReflTransGen (Ends testFrame.2.2.2.1 testFrame.2.1) 0 p := by
      intro p hp
      rcases (by omega : p = 0 ∨ p = 1 ∨ p = 2) with rfl | rfl | rfl
      · exact .refl
      · exact .single h01
      · exact .tail (.single h01) h12
    exact (to0 p hp).trans (from0 q hq)

/-- Held by one clamp only, it is solved for every load on its nodes. -/
example {loads : Table ℝ} (hl : ∀ L ∈ loads, 4 ≤ L.length ∧ ∃ p, Names 3 L p) (sparse : Bool) : ∃ full,
    frameRun Real.sqrt cramerR cramerR sparse [[-1, -1, -1], [0, 0, 0], [0, 0, 0]] testFrame.2.1 testFrame.2.2.1 testFrame.2.2.2.1 loads =
      .ok full := by
  have hf : Frame [[(-1 : ℝ), -1, -1], [0, 0, 0], [0, 0, 0]] testFrame.2.2.2.1 testFrame.2.1 :=
    ⟨by
      intro i j v hj hv
      obtain ⟨row, h1, h2⟩ := entry_some.1 hv
      have hlt : i < 3 := (List.getElem?_eq_some_iff.1 h1).1
      rcases (by omega : i = 0 ∨ i = 1 ∨ i = 2) with rfl | rfl | rfl <;> rcases (by omega : j = 0 ∨ j = 1 ∨ j = 2) with rfl | rfl | rfl <;>
        simp at h1 <;> subst h1 <;> simp at h2 <;> simp [← h2], by simp, by simp [testFrame], testFrame_frame.beams⟩
  obtain ⟨ks, full, -, h, -⟩ := C125_solved sqrtFn_real testFrame_rigid hf (C125_clamped (p := 0) (by simp) (by
    rintro j hj ⟨-, v, hv, h1, h2⟩
    rcases (by omega : j = 0 ∨ j = 1 ∨ j = 2) with rfl | rfl | rfl <;> simp [entry] at hv <;> rw [← hv] at h1 <;> norm_num at h1))
    cramerR_ok cramerR_ok sparse hl
  exact ⟨full, h⟩

/-- Turning the frame of the tests as a rigid body stores energy in the model. -/
example {ks : List (Member ℝ)} (hk : List.Forall₂ (IsMember (Routine Real.sqrt) testFrame.2.2.1 testFrame.2.2.2.1) testFrame.2.1 ks) :
    ∃ m ∈ ks, m.form 3 ((⟨0, 0, 1⟩ : Motion ℝ).carry testFrame.2.2.2.1) ((⟨0, 0, 1⟩ : Motion ℝ).carry testFrame.2.2.2.1) ≠ 0 := by
  have h := C125_true_motions sqrtFn_real testFrame_rigid hk (p := 0) (q := 1) (by simp [testFrame]) (by simp [testFrame])
    (by simp [coordOf, fieldOf, entry, testFrame]) ⟨0, 0, 1⟩
  by_contra hno
  push Not at hno
  exact one_ne_zero (h.1 hno)

end SolidsPy
