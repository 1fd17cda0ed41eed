import Verif.Spec.Recovery
import Verif.Props.Kinematics
import Verif.Props.Materials
import Verif.Props.LineTables
import Verif.Model.Post

/-! # The loops of `strain_nodes` -/

set_option linter.unusedSectionVars false

namespace SolidsPy
open Spec Post Fem Uel Gauss

section
variable {K : Type} [Field K] [LinearOrder K] [IsStrictOrderedRing K] [FloorRing K] {nn : ℕ}

/-- The stress computed from a strain. -/
def hooke (f1 f2 sh : K) (e : Fin 3 → K) : Fin 3 → K := ![f1*e 0 + f2*e 1, f2*e 0 + f1*e 1, sh*e 2]

/-- Sum over the entries of `l` naming node `k`. -/
def gather (l : List (ℤ × ℕ)) (f : ℕ → Fin 3 → K) (k : Fin nn) : Fin 3 → K :=
  ((l.filter fun x => decide (Resolves nn x.1 k)).map fun x => f x.2).sum

theorem scatter_step {f1 f2 sh : K} {eps : List (Fin 3 → K)} {l : List (ℤ × ℕ)} {acc : NodeAcc K nn} {node : ℤ}
    {cont : ℕ} {i : Fin nn} {e : Fin 3 → K} (hi : pyFin nn node = .ok i) (hd : eps.getD cont 0 = e) :
    (⟨fun k => (if k = i then acc.E k + e else acc.E k) + gather l (fun a => eps.getD a 0) k,
      fun k => (if k = i then acc.S k + hooke f1 f2 sh e else acc.S k) +
        gather l (fun a => hooke f1 f2 sh (eps.getD a 0)) k,
      fun k => (if k = i then acc.cnt k + 1 else acc.cnt k) +
        (l.filter fun x => decide (Resolves nn x.1 k)).length⟩ : NodeAcc K nn) =
    ⟨fun k => acc.E k + gather ((node, cont) :: l) (fun a => eps.getD a 0) k,
     fun k => acc.S k + gather ((node, cont) :: l) (fun a => hooke f1 f2 sh (eps.getD a 0)) k,
     fun k => acc.cnt k + (((node, cont) :: l).filter fun x => decide (Resolves nn x.1 k)).length⟩ := by
  have hk : ∀ k : Fin nn, Resolves nn node k ↔ k = i := by
    intro k
    rw [← pyFin_resolves, hi, Except.ok.injEq, eq_comm]
  congr 1
  · funext k
    by_cases hki : k = i
    · rw [if_pos hki, gather, gather, List.filter_cons_of_pos (by simpa using (hk k).2 hki), List.map_cons,
        List.sum_cons, hd, add_assoc]
    · rw [if_neg hki, gather, gather, List.filter_cons_of_neg (by simpa using fun h => hki ((hk k).1 h))]
  · funext k
    by_cases hki : k = i
    · rw [if_pos hki, gather, gather, List.filter_cons_of_pos (by simpa using (hk k).2 hki), List.map_cons,
        List.sum_cons, hd, add_assoc]
    · rw [if_neg hki, gather, gather, List.filter_cons_of_neg (by simpa using fun h => hki ((hk k).1 h))]
  · funext k
    by_cases hki : k = i
    · rw [if_pos hki, List.filter_cons_of_pos (by simpa using (hk k).2 hki), List.length_cons]
      omega
    · rw [if_neg hki, List.filter_cons_of_neg (by simpa using fun h => hki ((hk k).1 h))]

theorem strainScatter_ok {f1 f2 sh : K} {eps : List (Fin 3 → K)} {l : List (ℤ × ℕ)} {acc acc' : NodeAcc K nn} :
    strainScatter f1 f2 sh eps l acc = .ok acc' ↔
      (∀ x ∈ l, (∃ k, Resolves nn x.1 k) ∧ x.2 < eps.length) ∧
      acc' = ⟨fun k => acc.E k + gather l (fun a => eps.getD a 0) k,
              fun k => acc.S k + gather l (fun a => hooke f1 f2 sh (eps.getD a 0)) k,
              fun k => acc.cnt k + (l.filter fun x => decide (Resolves nn x.1 k)).length⟩ := by
  induction l generalizing acc with
  | nil =>
    rw [strainScatter, Except.ok.injEq, eq_comm]
    simp [gather]
  | cons x l ih =>
    obtain ⟨node, cont⟩ := x
    rw [strainScatter]
    constructor
    · intro h
      obtain ⟨i, hi, h⟩ := bind_ok.1 h
      obtain ⟨e, he, h⟩ := bind_ok.1 h
      have hr := pyFin_resolves.1 hi
      have he' := pyGet_nat.1 he
      have hlt : cont < eps.length := (List.getElem?_eq_some_iff.1 he').1
      have hd : eps.getD cont 0 = e := by rw [List.getD_eq_getElem?_getD, he']; rfl
      obtain ⟨h1, h2⟩ := ih.1 h
      refine ⟨?_, ?_⟩
      · intro x hx
        rcases List.mem_cons.1 hx with rfl | hx
        · exact ⟨⟨i, hr⟩, hlt⟩
        · exact h1 x hx
      · rw [h2]
        exact scatter_step hi hd
    · rintro ⟨h1, rfl⟩
      obtain ⟨⟨k0, hk0⟩, hlt⟩ := h1 (node, cont) (by simp)
      have hi : pyFin nn node = .ok ⟨k0, hk0.1⟩ := pyFin_resolves.2 hk0
      generalize (⟨k0, hk0.1⟩ : Fin nn) = i at hi
      have he : pyGet eps (cont : ℤ) = .ok eps[cont] := pyGet_nat.2 (List.getElem?_eq_getElem hlt)
      have hd : eps.getD cont 0 = eps[cont] := by rw [List.getD_eq_getElem?_getD, List.getElem?_eq_getElem hlt]; rfl
      rw [hi, ok_bind, he, ok_bind]
      dsimp only
      rw [ih]
      exact ⟨fun x hx => h1 x (by simp [hx]), (scatter_step hi hd).symm⟩

/-- Coordinates of the nodes listed by an element. -/
def coordsOf (nodes : Table K) (el : List ℤ) : Py (Table K) :=
  (el.drop 3).mapM fun i => do
    let nd ← pyGet nodes i
    let x ← pyGet nd 1
    let y ← pyGet nd 2
    pure [x, y]

/-- Displacements of the nodes listed by an element. -/
def dispOf (sol : Table K) (el : List ℤ) : Py (Table K) :=
  (el.drop 3).mapM fun i => do
    let u ← pyGet sol i
    let ux ← pyGet u 0
    let uy ← pyGet u 1
    pure [ux, uy]

/-- What one element contributes: strains at its points and the elastic matrix. -/
def ElemPart (iet : ℤ) (ndof nne : ℕ) (nodes mats sol : Table K) (el : List ℤ) (eps : List (Fin 3 → K))
    (C : Matrix (Fin 3) (Fin 3) K) : Prop :=
  ∃ mi row xs us, pyGet el 2 = .ok mi ∧ pyGet mats mi = .ok row ∧ umat row = .ok C ∧ (el.drop 3).length = nne ∧
    ndof = 2 * nne ∧ coordsOf nodes el = .ok xs ∧ dispOf sol el = .ok us ∧ elemStrains iet xs us = .ok eps

theorem ElemPart.unique {iet : ℤ} {ndof nne : ℕ} {nodes mats sol : Table K} {el : List ℤ}
    {eps eps' : List (Fin 3 → K)} {C C' : Matrix (Fin 3) (Fin 3) K}
    (h : ElemPart iet ndof nne nodes mats sol el eps C) (h' : ElemPart iet ndof nne nodes mats sol el eps' C') :
    eps' = eps ∧ C' = C := by
  obtain ⟨mi, row, xs, us, h1, h2, h3, -, -, h4, h5, h6⟩ := h
  obtain ⟨mi', row', xs', us', h1', h2', h3', -, -, h4', h5', h6'⟩ := h'
  rw [h1, Except.ok.injEq] at h1'
  subst h1'
  rw [h2, Except.ok.injEq] at h2'
  subst h2'
  rw [h3, Except.ok.injEq] at h3'
  rw [h4, Except.ok.injEq] at h4'
  subst h4'
  rw [h5, Except.ok.injEq] at h5'
  subst h5'
  rw [h6, Except.ok.injEq] at h6'
  exact ⟨h6'.symm, h3'.symm⟩

theorem hooke_umat {E nu : K} (h : 1 - nu ^ 2 ≠ 0) (e : Fin 3 → K) :
    hooke (E / (1 - nu ^ 2)) (nu * E / (1 - nu ^ 2)) (E / (2 * (1 + nu))) e =
      (!![E / (1 - nu^2), nu * (E / (1 - nu^2)), 0;
           nu * (E / (1 - nu^2)), E / (1 - nu^2), 0;
           0, 0, E / (1 - nu^2) * ((1 - nu) / 2)] : Matrix (Fin 3) (Fin 3) K).mulVec e := by
  have h1 : 1 + nu ≠ 0 := by
    intro h1
    apply h
    have : nu = -1 := by linear_combination h1
    rw [this]
    ring
  have h2 : 1 - nu ≠ 0 := by
    intro h1
    apply h
    have : nu = 1 := by linear_combination -h1
    rw [this]
    ring
  have h3 : 1 - nu ^ 2 = (1 - nu) * (1 + nu) := by ring
  funext i
  rw [Matrix.mulVec, dotProduct, Fin.sum_univ_three]
  fin_cases i
  · simp [hooke]
    left; ring
  · simp [hooke]
    left; ring
  · simp [hooke, h3]
    left
    field_simp

/-- One element of the loop. -/
theorem strainElem_ok {iet : ℤ} {ndof nne : ℕ} {nodes mats sol : Table K} {el : List ℤ}
    {acc acc' : NodeAcc K nn} :
    strainElem iet ndof nne nodes mats sol acc el = .ok acc' ↔
      ∃ eps C, ElemPart iet ndof nne nodes mats sol el eps C ∧
        (∀ z ∈ el.drop 3, ∃ k, Resolves nn z k) ∧ (el.drop 3).length ≤ eps.length ∧
        acc' = ⟨fun k => acc.E k + gather (el.drop 3).zipIdx (fun a => eps.getD a 0) k,
              fun k => acc.S k + gather (el.drop 3).zipIdx (fun a => C.mulVec (eps.getD a 0)) k,
              fun k => acc.cnt k + (spots nn el k).length⟩ := by
  have hz : ∀ (l : List ℤ) (m : ℕ), (∀ x ∈ l.zipIdx, (∃ k, Resolves nn x.1 k) ∧ x.2 < m) ↔
      (∀ z ∈ l, ∃ k, Resolves nn z k) ∧ l.length ≤ m := by
    intro l m
    constructor
    · intro h
      constructor
      · intro z hz
        obtain ⟨i, hi⟩ := List.getElem?_of_mem hz
        exact (h (z, i) (List.mem_zipIdx_iff_getElem?.2 hi)).1
      · by_contra hc
        rw [not_le] at hc
        exact absurd (h (l[m], m) (List.mem_zipIdx_iff_getElem?.2 (List.getElem?_eq_getElem hc))).2 (lt_irrefl _)
    · rintro ⟨h1, h2⟩ ⟨z, i⟩ hx
      rw [List.mem_zipIdx_iff_getElem?] at hx
      obtain ⟨hi, hx⟩ := List.getElem?_eq_some_iff.1 hx
      exact ⟨h1 z (List.mem_of_getElem hx), lt_of_lt_of_le hi h2⟩
  have hs : ∀ k, (spots nn el k).length =
      ((el.drop 3).zipIdx.filter fun x => decide (Resolves nn x.1 k)).length := by
    intro k
    rw [spots, List.length_map]
  constructor
  · intro h
    unfold strainElem at h
    obtain ⟨mi, h1, h⟩ := bind_ok.1 h
    obtain ⟨row, h2, h⟩ := bind_ok.1 h
    split at h
    · rename_i E nu
      obtain ⟨sh, h3, h⟩ := bind_ok.1 h
      obtain ⟨f1, h4, h⟩ := bind_ok.1 h
      obtain ⟨f2, h5, h⟩ := bind_ok.1 h
      unfold pyDiv at h3 h4 h5
      split at h3
      · cases h3
      split at h4
      · cases h4
      rename_i hnu
      rw [if_neg hnu] at h5
      cases h3
      cases h4
      cases h5
      dsimp only at h
      by_cases hl : (el.drop 3).length = nne
      · rw [if_neg (not_not.2 hl)] at h
        obtain ⟨-, -, h⟩ := bind_ok.1 h
        obtain ⟨xs, h6, h⟩ := bind_ok.1 h
        by_cases hd : ndof = 2 * nne
        · rw [if_neg (not_not.2 hd)] at h
          obtain ⟨-, -, h⟩ := bind_ok.1 h
          obtain ⟨us, h7, h⟩ := bind_ok.1 h
          obtain ⟨eps, h8, h⟩ := bind_ok.1 h
          obtain ⟨h9, h10⟩ := strainScatter_ok.1 h
          obtain ⟨h11, h12⟩ := (hz _ _).1 h9
          refine ⟨eps, _, ⟨mi, [E, nu], xs, us, h1, h2, umat_ok.2 ⟨E, nu, rfl, hnu, rfl⟩, hl, hd, h6, h7, h8⟩,
            h11, h12, ?_⟩
          rw [h10]
          simp only [hs, hooke_umat hnu]
        · rw [if_pos hd] at h
          obtain ⟨_, h', _⟩ := bind_ok.1 h
          cases h'
      · rw [if_pos hl] at h
        obtain ⟨_, h', _⟩ := bind_ok.1 h
        cases h'
    · cases h
  · rintro ⟨eps, C, ⟨mi, row, xs, us, h1, h2, h3, h4, h5, h6, h7, h8⟩, h9, h10, rfl⟩
    obtain ⟨E, nu, rfl, hnu, rfl⟩ := umat_ok.1 h3
    have h1' : (2 : K) * (1 + nu) ≠ 0 := by
      intro h0
      apply hnu
      have : nu = -1 := by linear_combination h0 / 2
      rw [this]
      ring
    unfold strainElem
    rw [h1, ok_bind, h2, ok_bind]
    dsimp only
    unfold pyDiv
    rw [if_neg h1', ok_bind, if_neg hnu, ok_bind, if_neg hnu, ok_bind, if_neg (not_not.2 h4)]
    unfold coordsOf at h6
    unfold dispOf at h7
    rw [h6, ok_bind, if_neg (not_not.2 h5), h7, ok_bind, h8, ok_bind, strainScatter_ok]
    refine ⟨(hz _ _).2 ⟨h9, h10⟩, ?_⟩
    simp only [hs, hooke_umat hnu]

/-- The element loop. -/
theorem strainLoop_ok {iet : ℤ} {ndof nne : ℕ} {nodes mats sol : Table K} {els : List (List ℤ)}
    {acc acc' : NodeAcc K nn} (h : els.foldlM (strainElem iet ndof nne nodes mats sol) acc = .ok acc') :
    ∃ (eps : List ℤ → List (Fin 3 → K)) (C : List ℤ → Matrix (Fin 3) (Fin 3) K),
      (∀ el ∈ els, ElemPart iet ndof nne nodes mats sol el (eps el) (C el) ∧
        (∀ z ∈ el.drop 3, ∃ k, Resolves nn z k) ∧ (el.drop 3).length ≤ (eps el).length) ∧
      acc' = ⟨fun k => acc.E k + ((occurrences nn els k).map fun x => (eps x.1).getD x.2 0).sum,
              fun k => acc.S k + ((occurrences nn els k).map fun x => (C x.1).mulVec ((eps x.1).getD x.2 0)).sum,
              fun k => acc.cnt k + (occurrences nn els k).length⟩ := by
  induction els generalizing acc with
  | nil =>
    cases h
    exact ⟨fun _ => [], fun _ => 0, by simp, by simp [occurrences]⟩
  | cons el els ih =>
    rw [List.foldlM_cons] at h
    obtain ⟨acc1, h1, h2⟩ := bind_ok.1 h
    obtain ⟨e, c, hp, hr, hl, rfl⟩ := strainElem_ok.1 h1
    obtain ⟨eps, C, h3, rfl⟩ := ih h2
    classical
    refine ⟨Function.update eps el e, Function.update C el c, ?_, ?_⟩
    · intro el' hel'
      by_cases heq : el' = el
      · subst heq
        rw [Function.update_self, Function.update_self]
        exact ⟨hp, hr, hl⟩
      · rw [Function.update_of_ne heq, Function.update_of_ne heq]
        exact h3 el' ((List.mem_cons.1 hel').resolve_left heq)
    · have hsame : ∀ el' ∈ els, Function.update eps el e el' = eps el' ∧ Function.update C el c el' = C el' := by
        intro el' hel'
        by_cases heq : el' = el
        · subst heq
          rw [Function.update_self, Function.update_self]
          exact (h3 el' hel').1.unique hp
        · rw [Function.update_of_ne heq, Function.update_of_ne heq]
          exact ⟨rfl, rfl⟩
      have hmem : ∀ k, ∀ x ∈ occurrences nn els k, x.1 ∈ els := by
        intro k x hx
        unfold occurrences at hx
        rw [List.mem_flatMap] at hx
        obtain ⟨el', h4, h5⟩ := hx
        rw [List.mem_map] at h5
        obtain ⟨a, -, rfl⟩ := h5
        exact h4
      have hocc : ∀ k, occurrences nn (el :: els) k = (spots nn el k).map (fun a => (el, a)) ++
          occurrences nn els k := fun k => List.flatMap_cons
      have hg : ∀ (f : ℕ → Fin 3 → K) (k : Fin nn), gather (el.drop 3).zipIdx f k =
          ((spots nn el k).map f).sum := by
        intro f k
        rw [gather, spots, List.map_map]
        rfl
      congr 1
      · funext k
        dsimp only
        rw [hocc, List.map_append, List.sum_append, ← add_assoc, List.map_map, hg]
        congr 1
        · congr 2
          apply List.map_congr_left
          intro a _
          simp [Function.update_self]
        · congr 1
          apply List.map_congr_left
          intro x hx
          rw [(hsame _ (hmem k x hx)).1]
      · funext k
        dsimp only
        rw [hocc, List.map_append, List.sum_append, ← add_assoc, List.map_map, hg]
        congr 1
        · congr 2
          apply List.map_congr_left
          intro a _
          simp [Function.update_self]
        · congr 1
          apply List.map_congr_left
          intro x hx
          rw [(hsame _ (hmem k x hx)).1, (hsame _ (hmem k x hx)).2]
      · funext k
        rw [hocc, List.length_append, List.length_map, add_assoc]

/-- Nodal values are means over the occurrences of the node. -/
theorem strainNodes_ok {nodes mats sol : Table K} {els : List (List ℤ)} {E S}
    (h : strainNodes nodes els mats sol = .ok (E, S)) :
    ∃ el0 iet ndof nne ng, els[0]? = some el0 ∧ el0[1]? = some iet ∧ Assem.eletype iet = .ok (ndof, nne, ng) ∧
    ∃ (eps : List ℤ → List (Fin 3 → K)) (C : List ℤ → Matrix (Fin 3) (Fin 3) K),
      (∀ el ∈ els, ElemPart iet ndof nne nodes mats sol el (eps el) (C el) ∧
        (∀ z ∈ el.drop 3, ∃ k, Resolves nodes.length z k) ∧ (el.drop 3).length ≤ (eps el).length) ∧
      ∀ k c, E k c = mean (occurrences nodes.length els k) (fun x => (eps x.1).getD x.2 0 c) ∧
        S k c = mean (occurrences nodes.length els k) (fun x => (C x.1).mulVec ((eps x.1).getD x.2 0) c) := by
  unfold strainNodes at h
  obtain ⟨el0, h1, h⟩ := bind_ok.1 h
  obtain ⟨iet, h2, h⟩ := bind_ok.1 h
  obtain ⟨⟨ndof, nne, ng⟩, h3, h⟩ := bind_ok.1 h
  obtain ⟨acc, h4, h⟩ := bind_ok.1 h
  obtain ⟨eps, C, h5, rfl⟩ := strainLoop_ok h4
  refine ⟨el0, iet, ndof, nne, ng, pyGet_zero.1 h1, pyGet_one.1 h2, h3, eps, C, h5, fun k c => ?_⟩
  have h := pure_ok.1 h
  rw [Prod.mk.injEq] at h
  obtain ⟨rfl, rfl⟩ := h
  have happ : ∀ (l : List (List ℤ × ℕ)) (f : List ℤ × ℕ → Fin 3 → K),
      (l.map f).sum c = (l.map fun x => f x c).sum := by
    intro l f
    induction l with
    | nil => rfl
    | cons a l ih => rw [List.map_cons, List.sum_cons, Pi.add_apply, ih, List.map_cons, List.sum_cons]
  dsimp only
  unfold mean
  simp only [List.length_eq_zero_iff, Pi.add_apply, zero_add, happ, and_self]

end
end SolidsPy
