import Verif.Props.StrainFrames
import Verif.Props.Inexact

/-! # Nodal strains and stresses as a function of the displacements (C172) -/

set_option linter.unusedSectionVars false

namespace SolidsPy
open Spec Assem Matrix Fem Uel Gauss

section
variable {K : Type} [Field K] [LinearOrder K] [IsStrictOrderedRing K] [FloorRing K]
variable {nodes mats : Table K} {els : List (List ℤ)}

/-- Two nodes belong to a common element. -/
def Spec.Share (nn : ℕ) (els : List (List ℤ)) (p q : ℕ) : Prop := ∃ el ∈ els, Lists nn el p ∧ Lists nn el q

/-- The linear function of the nodal displacements with coefficients `G`. -/
def Spec.weigh (nn : ℕ) (G : ℕ → Fin 2 → K) (u : ℕ → ℕ → K) : K := ∑ p ∈ Finset.range nn, ∑ j : Fin 2, G p j * u p j

theorem StrainRoutine.linear {n : ℕ} {st f pts m} (h : StrainRoutine (K := K) n st f pts m) (X : Matrix (Fin n) (Fin 2) K) :
    ∃ B : ℕ → Matrix (Fin 3) (Fin n × Fin 2) K, ∀ u r, st X u = .ok r → ∀ a, r.1.getD a 0 = (B a).mulVec u := by
  refine ⟨fun a => match pts[a]? with
    | some p => bMat2 (grad (f (p.1 : K) (p.2 : K)).2 X)
    | none => 0, fun u r hr a => ?_⟩
  obtain ⟨eps, xl⟩ := r
  obtain ⟨-, h2, -⟩ := h.ok.1 hr
  dsimp only
  rw [h2, List.getD_eq_getElem?_getD]
  cases hp : pts[a]? with
  | some p =>
    rw [List.getElem?_append_left (by rw [List.length_map]; exact (List.getElem?_eq_some_iff.1 hp).1), List.getElem?_map, hp]
    rfl
  | none =>
    rw [List.getElem?_append_right (by rw [List.length_map]; exact List.getElem?_eq_none_iff.1 hp)]
    dsimp only
    rw [zero_mulVec]
    cases hz : (List.replicate (m - pts.length) (0 : Fin 3 → K))[a - (pts.map fun p => (bMat2 (grad (f (p.1 : K) (p.2 : K)).2 X)).mulVec u).length]? with
    | none => rfl
    | some e => exact (List.mem_replicate.1 (List.mem_of_getElem? hz)).2

theorem elemStrains_linear (iet : ℤ) (xs : Table K) : ∃ B : ℕ → Fin 3 → ℕ → Fin 2 → K, ∀ us eps, Post.elemStrains iet xs us = .ok eps →
    ∀ a i, eps.getD a 0 i = ∑ b ∈ Finset.range xs.length, ∑ j : Fin 2, B a i b j * (us.getD b []).getD j 0 := by
  have key : ∀ {n : ℕ} {st f pts m}, StrainRoutine (K := K) n st f pts m → ∃ B : ℕ → Fin 3 → ℕ → Fin 2 → K, ∀ (us : Table K) X r,
      toMat n 2 xs = .ok X → st X (fun a => (us.getD a.1 []).getD a.2 0) = .ok r →
      ∀ a i, r.1.getD a 0 i = ∑ b ∈ Finset.range xs.length, ∑ j : Fin 2, B a i b j * (us.getD b []).getD j 0 := by
    intro n st f pts m hst
    cases hX : toMat n 2 xs with
    | error e => exact ⟨0, fun us X r h => by cases h⟩
    | ok X =>
      obtain ⟨B, hB⟩ := hst.linear X
      refine ⟨fun a i b j => if hb : b < n then B a i (⟨b, hb⟩, j) else 0, fun us X' r h hr a i => ?_⟩
      cases h
      have hn : xs.length = n := by
        have := congrArg List.length (toMat_ok hX)
        simpa [matRows] using this
      rw [hB _ _ hr a, Matrix.mulVec, dotProduct, Fintype.sum_prod_type, hn, Finset.sum_range]
      refine Finset.sum_congr rfl fun b _ => Finset.sum_congr rfl fun j _ => ?_
      dsimp only
      rw [dif_pos b.2]
  obtain ⟨B1, h1⟩ := key .el4
  obtain ⟨B2, h2⟩ := key .el6
  obtain ⟨B3, h3⟩ := key .el3
  by_cases e1 : iet = 1
  · subst e1
    refine ⟨B1, fun us eps h => ?_⟩
    obtain ⟨X, hX, h⟩ := bind_ok.1 h
    obtain ⟨r, hr, h⟩ := bind_ok.1 h
    obtain rfl := pure_ok.1 h
    exact h1 us X r hX hr
  by_cases e2 : iet = 2
  · subst e2
    refine ⟨B2, fun us eps h => ?_⟩
    obtain ⟨X, hX, h⟩ := bind_ok.1 h
    obtain ⟨r, hr, h⟩ := bind_ok.1 h
    obtain rfl := pure_ok.1 h
    exact h2 us X r hX hr
  by_cases e3 : iet = 3
  · subst e3
    refine ⟨B3, fun us eps h => ?_⟩
    obtain ⟨X, hX, h⟩ := bind_ok.1 h
    obtain ⟨r, hr, h⟩ := bind_ok.1 h
    obtain rfl := pure_ok.1 h
    exact h3 us X r hX hr
  · refine ⟨0, fun us eps h => ?_⟩
    unfold Post.elemStrains at h
    dsimp only at h
    split at h
    · exact absurd rfl e1
    · exact absurd rfl e2
    · exact absurd rfl e3
    · cases h

/-- What one element contributes, for all displacements at once. -/
theorem elemPart_linear (iet : ℤ) (ndof nne : ℕ) (nodes mats : Table K) (el : List ℤ) :
    ∃ (M : ℕ → Fin 3 → ℕ → Fin 2 → K) (C : Matrix (Fin 3) (Fin 3) K), (∀ a i p j, ¬ Lists nodes.length el p → M a i p j = 0) ∧
      ∀ sol eps C', sol.length = nodes.length → (∀ z ∈ el.drop 3, ∃ k, Resolves nodes.length z k) →
        ElemPart iet ndof nne nodes mats sol el eps C' →
        C' = C ∧ ∀ a i, eps.getD a 0 i = weigh nodes.length (M a i) (fieldOf sol) := by
  classical
  by_cases hex : ∃ sol eps C, ElemPart iet ndof nne nodes mats sol el eps C
  swap
  · exact ⟨0, 0, fun _ _ _ _ _ => rfl, fun sol eps C' _ _ h => absurd ⟨sol, eps, C', h⟩ hex⟩
  obtain ⟨_, _, C, mi, row, xs, _, h1, h2, h3, -, -, h4, -, -⟩ := hex
  obtain ⟨B, hB⟩ := elemStrains_linear iet xs
  refine ⟨fun a i p j => ∑ b ∈ Finset.range xs.length, if ∃ z, (el.drop 3)[b]? = some z ∧ Resolves nodes.length z p then B a i b j else 0,
    C, fun a i p j hp => Finset.sum_eq_zero fun b _ => ?_, fun sol eps C' hl hres h => ?_⟩
  · rw [if_neg]
    rintro ⟨z, hz, hr⟩
    exact hp ⟨z, List.mem_of_getElem? hz, hr⟩
  · obtain ⟨mi', row', xs', us, h1', h2', h3', -, -, h4', h5, h6⟩ := h
    rw [h1, Except.ok.injEq] at h1'
    subst h1'
    rw [h2, Except.ok.injEq] at h2'
    subst h2'
    rw [h3, Except.ok.injEq] at h3'
    rw [h4, Except.ok.injEq] at h4'
    subst h4'
    refine ⟨h3'.symm, fun a i => ?_⟩
    rw [hB us eps h6 a i]
    have hlen : xs.length = (el.drop 3).length := mapM_length h4
    have hb : ∀ b ∈ Finset.range xs.length, ∑ j : Fin 2, B a i b j * (us.getD b []).getD j 0 =
        ∑ p ∈ Finset.range nodes.length, ∑ j : Fin 2,
          (if ∃ z, (el.drop 3)[b]? = some z ∧ Resolves nodes.length z p then B a i b j else 0) * fieldOf sol p j := by
      intro b hb
      have hb' : b < (el.drop 3).length := by rw [← hlen]; exact Finset.mem_range.1 hb
      have hz := List.getElem?_eq_getElem hb'
      obtain ⟨p, hp⟩ := hres _ (List.getElem_mem hb')
      rw [Finset.sum_eq_single_of_mem p (Finset.mem_range.2 hp.1)]
      · refine Finset.sum_congr rfl fun j _ => ?_
        rw [if_pos ⟨_, hz, hp⟩, dispOf_read h5 hz (by rw [hl]; exact hp)]
      · intro q _ hq
        refine Finset.sum_eq_zero fun j _ => ?_
        rw [if_neg, zero_mul]
        rintro ⟨z, hz', hr⟩
        rw [hz, Option.some.injEq] at hz'
        subst hz'
        exact hq (resolves_unique hr hp)
    rw [Finset.sum_congr rfl hb, Finset.sum_comm]
    unfold weigh
    refine Finset.sum_congr rfl fun p _ => ?_
    rw [Finset.sum_comm]
    refine Finset.sum_congr rfl fun j _ => ?_
    rw [Finset.sum_mul]

theorem weigh_sum {α : Type} (nn : ℕ) (l : List α) (G : α → ℕ → Fin 2 → K) (u : ℕ → ℕ → K) :
    (l.map fun x => weigh nn (G x) u).sum = weigh nn (fun p j => (l.map fun x => G x p j).sum) u := by
  induction l with
  | nil => simp [weigh]
  | cons a l ih =>
    rw [List.map_cons, List.sum_cons, ih]
    unfold weigh
    simp only [List.map_cons, List.sum_cons, add_mul, Finset.sum_add_distrib]

theorem weigh_smul (nn : ℕ) (c : K) (G : ℕ → Fin 2 → K) (u : ℕ → ℕ → K) :
    c * weigh nn G u = weigh nn (fun p j => c * G p j) u := by
  unfold weigh
  simp only [Finset.mul_sum, mul_assoc]

/-- C172.  For every mesh there are fixed numbers, zero for nodes without a common element, by which the nodal strains and stresses are
computed from the displacements, whatever these are. -/
theorem C172_matrix (nodes mats : Table K) (els : List (List ℤ)) : ∃ G H : ℕ → Fin 3 → ℕ → Fin 2 → K,
    (∀ k i p j, ¬ Share nodes.length els k p → G k i p j = 0 ∧ H k i p j = 0) ∧
    ∀ sol E S, sol.length = nodes.length → Post.strainNodes nodes els mats sol = .ok (E, S) →
      ∀ k : Fin nodes.length, (∃ el ∈ els, Lists nodes.length el k) → ∀ i,
        E k i = some (weigh nodes.length (G k i) (fieldOf sol)) ∧ S k i = some (weigh nodes.length (H k i) (fieldOf sol)) := by
  classical
  by_cases hex : ∃ sol E S, Post.strainNodes nodes els mats sol = .ok (E, S)
  swap
  · exact ⟨0, 0, fun _ _ _ _ _ => ⟨rfl, rfl⟩, fun sol E S _ h => absurd ⟨sol, E, S, h⟩ hex⟩
  obtain ⟨sol0, E0, S0, h0⟩ := hex
  obtain ⟨el0, iet, ndof, nne, ng, a1, a2, a3, -⟩ := strainNodes_ok h0
  choose M C hM hC using elemPart_linear iet ndof nne nodes mats
  have hz : ∀ {k p : ℕ}, ¬ Share nodes.length els k p → ∀ x ∈ occurrences nodes.length els k, ∀ i j, M x.1 x.2 i p j = 0 := by
    intro k p hp x hx i j
    obtain ⟨h1, h2⟩ := mem_occurrences.1 hx
    exact hM _ _ _ _ _ fun h => hp ⟨x.1, h1, lists_iff_spots.2 (List.ne_nil_of_mem h2), h⟩
  refine ⟨fun k i p j => ((occurrences nodes.length els k).length : K)⁻¹ *
      ((occurrences nodes.length els k).map fun x => M x.1 x.2 i p j).sum,
    fun k i p j => ((occurrences nodes.length els k).length : K)⁻¹ *
      ((occurrences nodes.length els k).map fun x => ∑ i', C x.1 i i' * M x.1 x.2 i' p j).sum, fun k i p j hp => ?_,
    fun sol E S hl h k hk i => ?_⟩
  · constructor
    · dsimp only
      rw [List.sum_eq_zero, mul_zero]
      intro y hy
      obtain ⟨x, hx, rfl⟩ := List.mem_map.1 hy
      exact hz hp x hx i j
    · dsimp only
      rw [List.sum_eq_zero, mul_zero]
      intro y hy
      obtain ⟨x, hx, rfl⟩ := List.mem_map.1 hy
      exact Finset.sum_eq_zero fun i' _ => by rw [hz hp x hx i' j, mul_zero]
  · obtain ⟨el0', iet', ndof', nne', ng', b1, b2, b3, eps, C', b4, b5⟩ := strainNodes_ok h
    rw [a1, Option.some.injEq] at b1
    subst b1
    rw [a2, Option.some.injEq] at b2
    subst b2
    rw [a3, Except.ok.injEq] at b3
    simp only [Prod.mk.injEq] at b3
    obtain ⟨rfl, rfl, -⟩ := b3
    have hne := occurrences_ne_nil.2 hk
    have hpart : ∀ x ∈ occurrences nodes.length els k, C' x.1 = C x.1 ∧
        ∀ i, (eps x.1).getD x.2 0 i = weigh nodes.length (M x.1 x.2 i) (fieldOf sol) := by
      intro x hx
      obtain ⟨h1, -⟩ := mem_occurrences.1 hx
      obtain ⟨c1, c2, -⟩ := b4 _ h1
      obtain ⟨g1, g2⟩ := hC x.1 sol _ _ hl c2 c1
      exact ⟨g1, g2 x.2⟩
    rw [(b5 k i).1, (b5 k i).2]
    unfold mean
    rw [if_neg hne, if_neg hne]
    constructor
    · congr 1
      rw [← weigh_smul, ← weigh_sum, div_eq_inv_mul]
      congr 2
      exact List.map_congr_left fun x hx => (hpart x hx).2 i
    · congr 1
      rw [← weigh_smul, ← weigh_sum, div_eq_inv_mul]
      congr 2
      refine List.map_congr_left fun x hx => ?_
      rw [(hpart x hx).1, Matrix.mulVec, dotProduct]
      simp only [(hpart x hx).2]
      simp only [weigh_smul]
      unfold weigh
      rw [Finset.sum_comm]
      refine Finset.sum_congr rfl fun p _ => ?_
      rw [Finset.sum_comm]
      refine Finset.sum_congr rfl fun j _ => ?_
      rw [Finset.sum_mul]

/-! ## Consequences -/

variable {sol sol' sol'' : Table K}

theorem elemStrains_any {iet : ℤ} {xs us : Table K} {eps : List (Fin 3 → K)} (h : Post.elemStrains iet xs us = .ok eps) (us' : Table K) :
    ∃ eps', Post.elemStrains iet xs us' = .ok eps' ∧ eps'.length = eps.length := by
  have key : ∀ {n : ℕ} {st f pts m} (hst : StrainRoutine (K := K) n st f pts m) {X : Matrix (Fin n) (Fin 2) K} {u u' : Fin n × Fin 2 → K} {r},
      st X u = .ok r → ∃ r', st X u' = .ok r' ∧ r'.1.length = r.1.length := by
    intro n st f pts m hst X u u' r hr
    obtain ⟨eps, xl⟩ := r
    obtain ⟨h1, rfl, -⟩ := hst.ok.1 hr
    exact ⟨_, hst.ok.2 ⟨h1, rfl, rfl⟩, by simp⟩
  unfold Post.elemStrains at h ⊢
  dsimp only at h ⊢
  split at h
  · obtain ⟨X, hX, h⟩ := bind_ok.1 h
    obtain ⟨r, hr, h⟩ := bind_ok.1 h
    obtain rfl := pure_ok.1 h
    obtain ⟨r', h1, h2⟩ := key .el4 hr
    exact ⟨r'.1, by rw [hX, ok_bind, h1, ok_bind]; rfl, h2⟩
  · obtain ⟨X, hX, h⟩ := bind_ok.1 h
    obtain ⟨r, hr, h⟩ := bind_ok.1 h
    obtain rfl := pure_ok.1 h
    obtain ⟨r', h1, h2⟩ := key .el6 hr
    exact ⟨r'.1, by rw [hX, ok_bind, h1, ok_bind]; rfl, h2⟩
  · obtain ⟨X, hX, h⟩ := bind_ok.1 h
    obtain ⟨r, hr, h⟩ := bind_ok.1 h
    obtain rfl := pure_ok.1 h
    obtain ⟨r', h1, h2⟩ := key .el3 hr
    exact ⟨r'.1, by rw [hX, ok_bind, h1, ok_bind]; rfl, h2⟩
  · cases h

/-- C172.  Whether `strain_nodes` returns does not depend on the displacements. -/
theorem C172_returns {r} (h : Post.strainNodes nodes els mats sol = .ok r) (hl : sol'.length = nodes.length)
    (hw : ∀ r ∈ sol', 2 ≤ r.length) : ∃ E S, Post.strainNodes nodes els mats sol' = .ok (E, S) := by
  obtain ⟨E, S⟩ := r
  obtain ⟨el0, iet, ndof, nne, ng, a1, a2, a3, eps, C, a4, -⟩ := strainNodes_ok h
  have loop : ∀ (l : List (List ℤ)) (acc : Post.NodeAcc K nodes.length), (∀ el ∈ l, el ∈ els) →
      ∃ acc', l.foldlM (Post.strainElem iet ndof nne nodes mats sol') acc = .ok acc' := by
    intro l
    induction l with
    | nil => exact fun acc _ => ⟨acc, rfl⟩
    | cons el l ih =>
      intro acc hl'
      obtain ⟨⟨mi, row, xs, us, h1, h2, h3, h4, h5, h6, -, h8⟩, b2, b3⟩ := a4 el (hl' el List.mem_cons_self)
      obtain ⟨us', h7'⟩ : ∃ us', dispOf sol' el = .ok us' := by
        unfold dispOf
        rw [mapM_exists]
        intro z hz
        obtain ⟨k, hk⟩ := b2 z hz
        rw [← hl] at hk
        have hg := pyGet_resolves.2 ⟨k, hk, List.getElem?_eq_getElem hk.1⟩
        have hl := hw _ (List.getElem_mem hk.1)
        rw [hg, ok_bind, pyGet_zero.2 (List.getElem?_eq_getElem (by omega)), ok_bind, pyGet_one.2 (List.getElem?_eq_getElem (by omega)), ok_bind]
        exact ⟨_, rfl⟩
      obtain ⟨eps', h8', h9⟩ := elemStrains_any h8 us'
      rw [List.foldlM_cons, strainElem_ok.2 ⟨eps', C el, ⟨mi, row, xs, us', h1, h2, h3, h4, h5, h6, h7', h8'⟩, b2, by omega, rfl⟩, ok_bind]
      exact ih _ fun e he => hl' e (List.mem_cons_of_mem _ he)
  obtain ⟨acc', hacc⟩ := loop els ⟨fun _ _ => 0, fun _ _ => 0, fun _ => 0⟩ fun _ h => h
  unfold Post.strainNodes
  rw [pyGet_zero.2 a1, ok_bind, pyGet_one.2 a2, ok_bind, a3, ok_bind]
  dsimp only
  rw [hacc, ok_bind]
  exact ⟨_, _, rfl⟩

/-- Three entries of tables, all undefined or the third `a` times the first and `b` times the second. -/
def Spec.Combined (a b : K) (x y z : Option K) : Prop :=
  (x = none ∧ y = none ∧ z = none) ∨ ∃ x' y', x = some x' ∧ y = some y' ∧ z = some (a * x' + b * y')

theorem weigh_combination {nn : ℕ} {G : ℕ → Fin 2 → K} {u v w : ℕ → ℕ → K} {a b : K}
    (h : ∀ p < nn, ∀ j : Fin 2, G p j ≠ 0 → w p j = a * u p j + b * v p j) : weigh nn G w = a * weigh nn G u + b * weigh nn G v := by
  unfold weigh
  rw [Finset.mul_sum, Finset.mul_sum, ← Finset.sum_add_distrib]
  refine Finset.sum_congr rfl fun p hp => ?_
  rw [Finset.mul_sum, Finset.mul_sum, ← Finset.sum_add_distrib]
  refine Finset.sum_congr rfl fun j _ => ?_
  by_cases hG : G p j = 0
  · simp [hG]
  · rw [h p (Finset.mem_range.1 hp) j hG]
    ring

/-- C172.  If the displacements of the nodes which have an element in common with node `k` are combined, so are the strains and
stresses of node `k`; the displacements elsewhere do not matter. -/
theorem C172_combination (hl : sol.length = nodes.length) (hl' : sol'.length = nodes.length) (hl'' : sol''.length = nodes.length) {E S E' S' E'' S''}
    (h : Post.strainNodes nodes els mats sol = .ok (E, S)) (h' : Post.strainNodes nodes els mats sol' = .ok (E', S'))
    (h'' : Post.strainNodes nodes els mats sol'' = .ok (E'', S'')) (a b : K) (k : Fin nodes.length)
    (hk : ∀ p < nodes.length, Share nodes.length els k p → ∀ j < 2, fieldOf sol'' p j = a * fieldOf sol p j + b * fieldOf sol' p j) (i : Fin 3) :
    Combined a b (E k i) (E' k i) (E'' k i) ∧ Combined a b (S k i) (S' k i) (S'' k i) := by
  obtain ⟨G, H, h0, hG⟩ := C172_matrix nodes mats els
  by_cases hn : ∃ el ∈ els, Lists nodes.length el k
  · obtain ⟨g1, g2⟩ := hG sol E S hl h k hn i
    obtain ⟨g1', g2'⟩ := hG sol' E' S' hl' h' k hn i
    obtain ⟨g1'', g2''⟩ := hG sol'' E'' S'' hl'' h'' k hn i
    refine ⟨.inr ⟨_, _, g1, g1', ?_⟩, .inr ⟨_, _, g2, g2', ?_⟩⟩
    · rw [g1'', weigh_combination (a := a) (b := b) (u := fieldOf sol) (v := fieldOf sol')]
      intro p hp j hj
      exact hk p hp (by by_contra hs; exact hj (h0 _ _ _ _ hs).1) j j.2
    · rw [g2'', weigh_combination (a := a) (b := b) (u := fieldOf sol) (v := fieldOf sol')]
      intro p hp j hj
      exact hk p hp (by by_contra hs; exact hj (h0 _ _ _ _ hs).2) j j.2
  · obtain ⟨g1, g2⟩ := C77_orphans h k i
    obtain ⟨g1', g2'⟩ := C77_orphans h' k i
    obtain ⟨g1'', g2''⟩ := C77_orphans h'' k i
    exact ⟨.inl ⟨g1.2 hn, g1'.2 hn, g1''.2 hn⟩, .inl ⟨g2.2 hn, g2'.2 hn, g2''.2 hn⟩⟩

/-- The table of the displacements of a rigid motion. -/
def motionTable (g : Motion K) (nodes : Table K) : Table K := (List.range nodes.length).map fun p => [g.move nodes p 0, g.move nodes p 1]

theorem motionTable_field (g : Motion K) (nodes : Table K) {p j : ℕ} (hp : p < nodes.length) (hj : j < 2) :
    fieldOf (motionTable g nodes) p j = g.move nodes p j := by
  have : (motionTable g nodes)[p]? = some [g.move nodes p 0, g.move nodes p 1] := by
    simp [motionTable, List.getElem?_range hp]
  refine entry_field (entry_some.2 ⟨_, this, ?_⟩)
  interval_cases j <;> rfl

theorem motionTable_samples (g : Motion K) (nodes : Table K) :
    Samples nodes (motionTable g nodes) ![g.x, g.y] !![0, -g.spin; g.spin, 0] := by
  refine ⟨by simp [motionTable], fun p nd u hnd hu x y hx hy => ?_⟩
  have hp := (List.getElem?_eq_some_iff.1 hnd).1
  have : (motionTable g nodes)[p]? = some [g.move nodes p 0, g.move nodes p 1] := by
    simp [motionTable, List.getElem?_range hp]
  rw [this, Option.some.injEq] at hu
  subst hu
  have e1 : coordOf nodes p 0 = x := entry_field (entry_some.2 ⟨nd, hnd, hx⟩)
  have e2 : coordOf nodes p 1 = y := entry_field (entry_some.2 ⟨nd, hnd, hy⟩)
  simp [Motion.move, e1, e2, sub_eq_add_neg]

/-- C172.  A rigid motion (shift and small rotation) of the elements around a node adds nothing to its strains and stresses. -/
theorem C172_rigid (hl : sol.length = nodes.length) (hl' : sol'.length = nodes.length) {E S E' S'}
    (h : Post.strainNodes nodes els mats sol = .ok (E, S)) (h' : Post.strainNodes nodes els mats sol' = .ok (E', S')) (g : Motion K)
    (k : Fin nodes.length) (hk : ∀ p < nodes.length, Share nodes.length els k p → ∀ j < 2,
      fieldOf sol' p j = fieldOf sol p j + g.move nodes p j) : E' k = E k ∧ S' k = S k := by
  obtain ⟨Eg, Sg, hg⟩ := C172_returns (sol' := motionTable g nodes) h (by simp [motionTable]) (by simp [motionTable])
  have hz : ∀ i, (Eg k i = none ∨ Eg k i = some 0) ∧ (Sg k i = none ∨ Sg k i = some 0) := by
    intro i
    obtain ⟨el0, iet, ndof, nne, ng, h1, h2, h3, eps, Cs, h4, h5⟩ := strainNodes_ok hg
    have hs : (![(!![0, -g.spin; g.spin, 0] : Matrix (Fin 2) (Fin 2) K) 0 0, (!![0, -g.spin; g.spin, 0] : Matrix (Fin 2) (Fin 2) K) 1 1,
        (!![0, -g.spin; g.spin, 0] : Matrix (Fin 2) (Fin 2) K) 0 1 + (!![0, -g.spin; g.spin, 0] : Matrix (Fin 2) (Fin 2) K) 1 0] : Fin 3 → K) = 0 := by
      funext i
      fin_cases i <;> simp
    have hv : ∀ x ∈ occurrences nodes.length els k, (eps x.1).getD x.2 0 = 0 := by
      intro x hx
      have hm := (mem_occurrences.1 hx).1
      have hall : ∀ e ∈ eps x.1, e = 0 := by
        intro e he
        rcases (h4 _ hm).1.affine (motionTable_samples g nodes) with ⟨-, h6⟩ | ⟨-, h6⟩ | ⟨-, h6⟩ <;> rw [h6, hs] at he
        · exact (List.mem_replicate.1 he).2
        · exact (List.mem_replicate.1 he).2
        · simpa using he
      rw [List.getD_eq_getElem?_getD]
      cases hq : (eps x.1)[x.2]? with
      | none => rfl
      | some e => exact hall e (List.mem_of_getElem? hq)
    rw [(h5 k i).1, (h5 k i).2]
    unfold mean
    by_cases hn : occurrences nodes.length els k = []
    · rw [if_pos hn, if_pos hn]
      exact ⟨.inl rfl, .inl rfl⟩
    · rw [if_neg hn, if_neg hn]
      refine ⟨.inr ?_, .inr ?_⟩
      · rw [List.sum_eq_zero, zero_div]
        intro y hy
        obtain ⟨x, hx, rfl⟩ := List.mem_map.1 hy
        rw [hv x hx]
        rfl
      · rw [List.sum_eq_zero, zero_div]
        intro y hy
        obtain ⟨x, hx, rfl⟩ := List.mem_map.1 hy
        rw [hv x hx, mulVec_zero]
        rfl
  have hc := C172_combination hl (by simp [motionTable]) hl' h hg h' 1 1 k (by
    intro p hp hs j hj
    rw [hk p hp hs j hj, motionTable_field g nodes hp hj]
    ring)
  have fin : ∀ {x y z : Option K}, (y = none ∨ y = some 0) → Combined 1 1 x y z → z = x := by
    rintro x y z hy (⟨rfl, -, rfl⟩ | ⟨x', y', rfl, rfl, rfl⟩)
    · rfl
    · rcases hy with hy | hy
      · cases hy
      · cases hy
        simp
  exact ⟨funext fun i => fin (hz i).1 (hc i).1, funext fun i => fin (hz i).2 (hc i).2⟩

theorem weigh_bound {nn : ℕ} (G : ℕ → Fin 2 → K) {u v : ℕ → ℕ → K} {δ : K} (h : ∀ p < nn, ∀ j < 2, |u p j - v p j| ≤ δ) :
    |weigh nn G u - weigh nn G v| ≤ (∑ p ∈ Finset.range nn, ∑ j : Fin 2, |G p j|) * δ := by
  unfold weigh
  rw [← Finset.sum_sub_distrib, Finset.sum_mul]
  refine (Finset.abs_sum_le_sum_abs _ _).trans (Finset.sum_le_sum fun p hp => ?_)
  rw [← Finset.sum_sub_distrib, Finset.sum_mul]
  refine (Finset.abs_sum_le_sum_abs _ _).trans (Finset.sum_le_sum fun j _ => ?_)
  rw [← mul_sub, abs_mul]
  exact mul_le_mul_of_nonneg_left (h p (Finset.mem_range.1 hp) j j.2) (abs_nonneg _)

/-- C172.  For every mesh there is a number `c` such that displacements within `δ` give strains and stresses within `c δ`. -/
theorem C172_bound (nodes mats : Table K) (els : List (List ℤ)) : ∃ c : K, 0 ≤ c ∧ ∀ sol sol' E S E' S' (δ : K), sol.length = nodes.length →
    sol'.length = nodes.length → Post.strainNodes nodes els mats sol = .ok (E, S) → Post.strainNodes nodes els mats sol' = .ok (E', S') →
    (∀ p < nodes.length, ∀ j < 2, |fieldOf sol p j - fieldOf sol' p j| ≤ δ) → ∀ k i,
      (E k i = none ∧ E' k i = none ∧ S k i = none ∧ S' k i = none) ∨
      ∃ x x' y y', E k i = some x ∧ E' k i = some x' ∧ |x - x'| ≤ c * δ ∧ S k i = some y ∧ S' k i = some y' ∧ |y - y'| ≤ c * δ := by
  obtain ⟨G, H, h0, hG⟩ := C172_matrix nodes mats els
  have hnn : ∀ (G : ℕ → Fin 2 → K), 0 ≤ ∑ p ∈ Finset.range nodes.length, ∑ j : Fin 2, |G p j| := fun G =>
    Finset.sum_nonneg fun p _ => Finset.sum_nonneg fun j _ => abs_nonneg _
  have hnn' : ∀ k, 0 ≤ ∑ i : Fin 3, ((∑ p ∈ Finset.range nodes.length, ∑ j : Fin 2, |G k i p j|) +
      ∑ p ∈ Finset.range nodes.length, ∑ j : Fin 2, |H k i p j|) := fun k => Finset.sum_nonneg fun i _ => add_nonneg (hnn _) (hnn _)
  refine ⟨∑ k ∈ Finset.range nodes.length, ∑ i : Fin 3, ((∑ p ∈ Finset.range nodes.length, ∑ j : Fin 2, |G k i p j|) +
    ∑ p ∈ Finset.range nodes.length, ∑ j : Fin 2, |H k i p j|), Finset.sum_nonneg fun k _ => hnn' k, ?_⟩
  intro sol sol' E S E' S' δ hl hl' h h' hd k i
  by_cases hn : ∃ el ∈ els, Lists nodes.length el k
  · right
    obtain ⟨g1, g2⟩ := hG sol E S hl h k hn i
    obtain ⟨g1', g2'⟩ := hG sol' E' S' hl' h' k hn i
    have hδ : 0 ≤ δ := (abs_nonneg _).trans (hd k k.2 0 (by omega))
    have le1 : (∑ p ∈ Finset.range nodes.length, ∑ j : Fin 2, |G k i p j|) + ∑ p ∈ Finset.range nodes.length, ∑ j : Fin 2, |H k i p j| ≤
        ∑ k ∈ Finset.range nodes.length, ∑ i : Fin 3, ((∑ p ∈ Finset.range nodes.length, ∑ j : Fin 2, |G k i p j|) +
          ∑ p ∈ Finset.range nodes.length, ∑ j : Fin 2, |H k i p j|) :=
      (Finset.single_le_sum (f := fun i : Fin 3 => (∑ p ∈ Finset.range nodes.length, ∑ j : Fin 2, |G k i p j|) +
        ∑ p ∈ Finset.range nodes.length, ∑ j : Fin 2, |H k i p j|) (fun i _ => add_nonneg (hnn _) (hnn _)) (Finset.mem_univ i)).trans
      (Finset.single_le_sum (f := fun k : ℕ => ∑ i : Fin 3, ((∑ p ∈ Finset.range nodes.length, ∑ j : Fin 2, |G k i p j|) +
        ∑ p ∈ Finset.range nodes.length, ∑ j : Fin 2, |H k i p j|)) (fun k _ => hnn' k) (Finset.mem_range.2 k.2))
    exact ⟨_, _, _, _, g1, g1', (weigh_bound _ hd).trans (mul_le_mul_of_nonneg_right (by linarith [hnn (H k i)]) hδ), g2, g2',
      (weigh_bound _ hd).trans (mul_le_mul_of_nonneg_right (by linarith [hnn (G k i)]) hδ)⟩
  · left
    obtain ⟨g1, g2⟩ := C77_orphans h k i
    obtain ⟨g1', g2'⟩ := C77_orphans h' k i
    exact ⟨g1.2 hn, g1'.2 hn, g2.2 hn, g2'.2 hn⟩

/-! ## The driver -/

variable {sq : K → K} {sp de sp' de' : Sol.Solver K} {d : Gui.Data K} {ms : List (Member K)}

/-- C172.  Superposition of loads: the strains and stresses are superposed. -/
theorem C172_superposition (hwf : WellFormed d) (hsp : SolverOk sp) (hms : Members sq d ms) (hst : Stable d.cons 2 ms) (a b : K)
    (rows : List (K × List K × List K)) (hlen : ∀ t ∈ rows, t.2.1.length = t.2.2.length) {r1 r2 r3 : Gui.Result K} {E1 S1 E2 S2 E3 S3}
    (h1 : Gui.solidsAutoStrains sq sp de { d with loads := rows.map fun t => t.1 :: t.2.1 } false = .ok (r1, E1, S1))
    (h2 : Gui.solidsAutoStrains sq sp de { d with loads := rows.map fun t => t.1 :: t.2.2 } false = .ok (r2, E2, S2))
    (h3 : Gui.solidsAutoStrains sq sp de { d with loads := (rows.map fun t =>
      t.1 :: List.zipWith (fun x y => a * x + b * y) t.2.1 t.2.2) } false = .ok (r3, E3, S3)) (k : Fin d.nodes.length) (i : Fin 3) :
    Combined a b (E1 k i) (E2 k i) (E3 k i) ∧ Combined a b (S1 k i) (S2 k i) (S3 k i) := by
  obtain ⟨g1, e1⟩ := C100_same_run.1 h1
  obtain ⟨g2, e2⟩ := C100_same_run.1 h2
  obtain ⟨g3, e3⟩ := C100_same_run.1 h3
  have hc := C22_linear_response hwf hsp hms hst a b rows hlen g1 g2 g3
  exact C172_combination (disp_shape g1).1 (disp_shape g2).1 (disp_shape g3).1 e1 e2 e3 a b k (fun p hp _ j hj => entry_field (hc p j hp hj)) i

/-- C172.  For every stable model there is a number `c` such that, whatever the solver and the loads, unbalanced forces of at most `ε` mean
strains and stresses within `c ε` of those computed with exact solutions. -/
theorem C172_solver (hwf : WellFormed d) (hms : Members sq d ms) (hst : Stable d.cons 2 ms) : ∃ c : K, 0 ≤ c ∧
    ∀ (sp de sp' de' : Sol.Solver K) (L : Table K) (ε : K) res E S res' E' S', SolverOk sp' → 0 ≤ ε →
      Gui.solidsAutoStrains sq sp de { d with loads := L } false = .ok (res, E, S) →
      Gui.solidsAutoStrains sq sp' de' { d with loads := L } false = .ok (res', E', S') →
      NearEquilibrium d.cons 2 L ms ε (fieldOf res.disp) → ∀ (k : Fin d.nodes.length) (i : Fin 3),
        (E k i = none ∧ E' k i = none ∧ S k i = none ∧ S' k i = none) ∨
        ∃ x x' y y', E k i = some x ∧ E' k i = some x' ∧ |x - x'| ≤ c * ε ∧ S k i = some y ∧ S' k i = some y' ∧ |y - y'| ≤ c * ε := by
  obtain ⟨C, hC, h1⟩ := C162_error_bound hwf hms hst
  obtain ⟨c, hc, h2⟩ := C172_bound d.nodes d.mats d.elements
  refine ⟨c * C, mul_nonneg hc hC, ?_⟩
  intro sp de sp' de' L ε res E S res' E' S' hsp hε h h' hN k i
  obtain ⟨g, e⟩ := C100_same_run.1 h
  obtain ⟨g', e'⟩ := C100_same_run.1 h'
  have hV := (C18_nodal_equilibrium (d := { d with loads := L }) ⟨hwf.codes, hwf.width, hwf.size⟩ hsp hms hst g').2
  rw [mul_assoc]
  exact h2 res.disp res'.disp E S E' S' (C * ε) (disp_shape g).1 (disp_shape g').1 e e' (fun p hp j hj => h1 sp de L false res ε _ g hV hN hε p j hp hj) k i

end

/-! ## Cases -/

section demo

/-- Other displacements of the right edge of the mesh of two squares. -/
def tornSol : Table ℚ := [[0, 3], [1/10, 3], [7, -5], [1/5, 3], [3/10, 3], [11, 13], [0, 0]]

/-- Case for C172: the strains at the left edge do not notice them. -/
example : ∃ E S E' S', Post.strainNodes caseNodes caseEls caseMats caseSol = .ok (E, S) ∧
    Post.strainNodes caseNodes caseEls caseMats tornSol = .ok (E', S') ∧
    E' ⟨0, by decide⟩ = E ⟨0, by decide⟩ ∧ S' ⟨0, by decide⟩ = S ⟨0, by decide⟩ := by
  obtain ⟨⟨E, S⟩, h⟩ : ∃ r, Post.strainNodes caseNodes caseEls caseMats caseSol = .ok r := isOk_exists (by decide +kernel)
  obtain ⟨E', S', h'⟩ := C172_returns (sol' := tornSol) h rfl (by decide)
  have hr := C172_rigid (nodes := caseNodes) (els := caseEls) (mats := caseMats) (sol := caseSol) (sol' := tornSol)
    (by decide) (by decide) h h' ⟨0, 0, 0⟩ ⟨0, by decide⟩ (by
    intro p hp hs j hj
    obtain ⟨el, hel, h0, h1⟩ := hs
    have hp' : p = 0 ∨ p = 1 ∨ p = 3 ∨ p = 4 := by
      change p < 7 at hp
      have : el = [0, 1, 0, 0, 1, 4, 3] := by
        simp only [caseEls, List.mem_cons, List.not_mem_nil, or_false] at hel
        rcases hel with rfl | rfl
        · rfl
        · exact absurd (show (0 : ℕ) ∈ (List.range 7).filter fun p => decide (spots 7 [1, 1, 0, 1, 2, 5, 4] p ≠ []) from
            List.mem_filter.2 ⟨by decide, decide_eq_true (lists_iff_spots.1 h0)⟩) (by decide)
      subst this
      have hm : p ∈ (List.range 7).filter fun p => decide (spots 7 [0, 1, 0, 0, 1, 4, 3] p ≠ []) :=
        List.mem_filter.2 ⟨List.mem_range.2 hp, decide_eq_true (lists_iff_spots.1 h1)⟩
      have he : ((List.range 7).filter fun p => decide (spots 7 [0, 1, 0, 0, 1, 4, 3] p ≠ [])) = [0, 1, 3, 4] := by decide
      rw [he] at hm
      simpa using hm
    rcases hp' with rfl | rfl | rfl | rfl <;> interval_cases j <;> (simp [Motion.move]; decide +kernel))
  exact ⟨E, S, E', S', h, h', hr⟩

/-- Case for C172: two plates in tension superposed. -/
example : ∃ ms r1 E1 S1 r2 E2 S2 r3 E3 S3, Members Real.sqrt (tensionPlate (4 : ℝ) 2 1000 (1 / 4) 10 2 1) ms ∧
    Stable (tensionPlate (4 : ℝ) 2 1000 (1 / 4) 10 2 1).cons 2 ms ∧
    Gui.solidsAutoStrains Real.sqrt cramerR cramerR (tensionPlate (4 : ℝ) 2 1000 (1 / 4) 10 2 1) false = .ok (r1, E1, S1) ∧
    Gui.solidsAutoStrains Real.sqrt cramerR cramerR (tensionPlate (4 : ℝ) 2 1000 (1 / 4) 20 2 1) false = .ok (r2, E2, S2) ∧
    Gui.solidsAutoStrains Real.sqrt cramerR cramerR (tensionPlate (4 : ℝ) 2 1000 (1 / 4) 80 2 1) false = .ok (r3, E3, S3) ∧
    ∀ k : Fin (tensionPlate (4 : ℝ) 2 1000 (1 / 4) 10 2 1).nodes.length, ∀ i,
      Combined 2 3 (E1 k i) (E2 k i) (E3 k i) ∧ Combined 2 3 (S1 k i) (S2 k i) (S3 k i) := by
  have run := fun σ : ℝ => C100_tension (K := ℝ) (L := 4) (H := 2) (E := 1000) (nu := 1 / 4) (nx := 2) (ny := 1) (de := cramerR) (σ := σ)
    sqrtFn_real cramerR_ok (by norm_num) (by norm_num) (by norm_num) (by norm_num)
  obtain ⟨r1, E1, S1, h1, -⟩ := run 10
  obtain ⟨r2, E2, S2, h2, -⟩ := run 20
  obtain ⟨r3, E3, S3, h3, -⟩ := run 80
  obtain ⟨ms, hm⟩ := C97_mesh (sq := Real.sqrt) (plate_grid (4 : ℝ) 2 1000 (1 / 4) 10 2 1) (by norm_num) (by norm_num) (by norm_num) (by norm_num)
    (by simp)
  have hst := (C95_stable_iff sqrtFn_real hm (plate_wf _ _ _ _ _ _ _)).2 (plate_supported (by omega) (by norm_num))
  refine ⟨ms, r1, E1, S1, r2, E2, S2, r3, E3, S3, hm.members, hst, h1, h2, h3, fun k i => ?_⟩
  have gen : ∀ (rows : List (ℝ × List ℝ × List ℝ)) (l1 l2 l3 : Table ℝ), (∀ t ∈ rows, t.2.1.length = t.2.2.length) →
      l1 = rows.map (fun t => t.1 :: t.2.1) → l2 = rows.map (fun t => t.1 :: t.2.2) →
      l3 = rows.map (fun t => t.1 :: List.zipWith (fun x y => 2 * x + 3 * y) t.2.1 t.2.2) →
      Gui.solidsAutoStrains Real.sqrt cramerR cramerR { tensionPlate (4 : ℝ) 2 1000 (1 / 4) 10 2 1 with loads := l1 } false = .ok (r1, E1, S1) →
      Gui.solidsAutoStrains Real.sqrt cramerR cramerR { tensionPlate (4 : ℝ) 2 1000 (1 / 4) 10 2 1 with loads := l2 } false = .ok (r2, E2, S2) →
      Gui.solidsAutoStrains Real.sqrt cramerR cramerR { tensionPlate (4 : ℝ) 2 1000 (1 / 4) 10 2 1 with loads := l3 } false = .ok (r3, E3, S3) →
      Combined 2 3 (E1 k i) (E2 k i) (E3 k i) ∧ Combined 2 3 (S1 k i) (S2 k i) (S3 k i) := by
    rintro rows _ _ _ hr rfl rfl rfl h1 h2 h3
    exact C172_superposition (d := tensionPlate (4 : ℝ) 2 1000 (1 / 4) 10 2 1) (plate_wf _ _ _ _ _ _ _) cramerR_ok hm.members hst 2 3 rows hr
      h1 h2 h3 k i
  refine gen ((List.range 2).map fun r => (((nodeNo 2 r 2 : ℕ) : ℝ), [10 * tributary 1 (2 / 1 : ℝ) r, 0], [20 * tributary 1 (2 / 1 : ℝ) r, 0]))
    (tensionPlate (4 : ℝ) 2 1000 (1 / 4) 10 2 1).loads (tensionPlate (4 : ℝ) 2 1000 (1 / 4) 20 2 1).loads
    (tensionPlate (4 : ℝ) 2 1000 (1 / 4) 80 2 1).loads (by simp) ?_ ?_ ?_ h1 h2 h3
  · simp [tensionPlate, List.map_map, Function.comp_def]
  · simp [tensionPlate, List.map_map, Function.comp_def]
  · simp only [tensionPlate, List.map_map, Function.comp_def]
    refine List.map_congr_left fun r _ => ?_
    simp only [List.zipWith_cons_cons, List.zipWith_nil_left]
    norm_num
    ring

/-- Case for C172: how the strains of the plate depend on the solver. -/
example : ∃ c : ℝ, 0 ≤ c ∧ ∀ (sp de : Sol.Solver ℝ) (ε : ℝ) res E S, 0 ≤ ε →
    Gui.solidsAutoStrains Real.sqrt sp de (tensionPlate (4 : ℝ) 2 1000 (1 / 4) 10 2 1) false = .ok (res, E, S) →
    ∀ ms, Members Real.sqrt (tensionPlate (4 : ℝ) 2 1000 (1 / 4) 10 2 1) ms →
    NearEquilibrium (tensionPlate (4 : ℝ) 2 1000 (1 / 4) 10 2 1).cons 2 (tensionPlate (4 : ℝ) 2 1000 (1 / 4) 10 2 1).loads ms ε (fieldOf res.disp) →
    ∀ k, ∃ x, S k 0 = some x ∧ |x - 10| ≤ c * ε := by
  obtain ⟨r1, E1, S1, h1, -, h2⟩ := C100_tension (K := ℝ) (L := 4) (H := 2) (E := 1000) (nu := 1 / 4) (nx := 2) (ny := 1) (de := cramerR) (σ := 10)
    sqrtFn_real cramerR_ok (by norm_num) (by norm_num) (by norm_num) (by norm_num)
  obtain ⟨ms, hm⟩ := C97_mesh (sq := Real.sqrt) (plate_grid (4 : ℝ) 2 1000 (1 / 4) 10 2 1) (by norm_num) (by norm_num) (by norm_num) (by norm_num)
    (by simp)
  have hst := (C95_stable_iff sqrtFn_real hm (plate_wf _ _ _ _ _ _ _)).2 (plate_supported (by omega) (by norm_num))
  obtain ⟨c, hc, hall⟩ := C172_solver (plate_wf _ _ _ _ _ _ _) hm.members hst
  refine ⟨c, hc, fun sp de ε res E S hε h ms' hms' hN k => ?_⟩
  obtain rfl := members_unique hm.members hms'
  rcases hall sp de cramerR cramerR _ ε res E S r1 E1 S1 cramerR_ok hε h h1 hN k 0 with ⟨-, h3, -⟩ | ⟨x, x', y, y', -, -, -, h3, h4, h5⟩
  · rw [(h2 k 0).1] at h3
    cases h3
  · rw [(h2 k 0).2, Option.some.injEq] at h4
    subst h4
    exact ⟨y, h3, h5⟩

end demo

end SolidsPy
