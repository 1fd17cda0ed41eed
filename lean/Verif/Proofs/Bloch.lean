import Verif.Spec.Bloch
import Verif.Model.Bloch
import Verif.Proofs.Dme
import Mathlib.Tactic.Ring
import Mathlib.Tactic.Linarith
import Mathlib.Algebra.BigOperators.Fin

/-! # The entries of the Bloch transformation -/

set_option linter.unusedSectionVars false

namespace SolidsPy
open Spec Bloch

theorem dot_sum : ∀ (u v : List ℝ), u.length = v.length →
    (List.zipWith (· * ·) u v).sum = ∑ t : Fin u.length, u.getD t 0 * v.getD t 0 := by
  intro u v h
  induction u generalizing v with
  | nil => simp
  | cons a u ih =>
    cases v with
    | nil => simp at h
    | cons b v =>
      rw [List.zipWith_cons_cons, List.sum_cons, ih v (by simpa using h)]
      simp only [List.length_cons]
      rw [Fin.sum_univ_succ]
      simp

/-- The phase of a pair of nodes. -/
theorem shift_of_dot {wave : List ℝ} {coords : List (List ℝ)} {i r : ℤ} {ci cr : List ℝ} {φ : ℝ}
    (h1 : pyGet coords i = .ok ci) (h2 : pyGet coords r = .ok cr)
    (h3 : dot wave (List.zipWith (· - ·) ci cr) = .ok φ) : Shift wave coords i r φ := by
  obtain ⟨ki, a1, a2⟩ := pyGet_resolves.1 h1
  obtain ⟨kr, b1, b2⟩ := pyGet_resolves.1 h2
  unfold dot at h3
  split at h3
  · rename_i hl
    have hφ := (Except.ok.inj h3).symm
    have hl' : wave.length = min ci.length cr.length := by rw [hl, List.length_zipWith]
    refine ⟨ki, kr, ci, cr, a1, b1, a2, b2, hl', ?_⟩
    rw [hφ, dot_sum _ _ hl]
    apply Finset.sum_congr rfl
    intro t _
    have ht := t.2
    have hz : (List.zipWith (· - ·) ci cr).getD t 0 = ci.getD t 0 - cr.getD t 0 := by
      rw [List.getD_eq_getElem?_getD, List.getD_eq_getElem?_getD, List.getD_eq_getElem?_getD,
        List.getElem?_zipWith, List.getElem?_eq_getElem (show (t : ℕ) < ci.length by omega),
        List.getElem?_eq_getElem (show (t : ℕ) < cr.length by omega)]
      rfl
    rw [hz]
  · cases h3

/-- The entry made for a tie. -/
def LinkEntry (wave : List ℝ) (coords : List (List ℝ)) (newNum : List ℤ) (l : Link) (e : ℤ × ℤ × ℂ) : Prop :=
  ∃ n φ, pyGet newNum l.ref = .ok n ∧ Shift wave coords l.nodeIma l.nodeRef φ ∧
    e = (l.ima, n, Complex.exp (Complex.I * (φ : ℂ)))

theorem blochPair_ok {wave : List ℝ} {coords : List (List ℝ)} {refDof imaDof : ℤ → Option (List ℤ)}
    {newNum : List ℤ} {p : ℤ × ℤ} {r : List (ℤ × ℤ × ℂ)}
    (h : blochPair wave coords refDof imaDof newNum p = .ok r) :
    List.Forall₂ (LinkEntry wave coords newNum)
      ((((refDof p.2).getD []).zip ((imaDof p.1).getD [])).map fun c => ⟨c.2, c.1, p.1, p.2⟩) r := by
  unfold blochPair at h
  obtain ⟨ci, h1, h⟩ := bind_ok.1 h
  obtain ⟨cr, h2, h⟩ := bind_ok.1 h
  obtain ⟨φ, h3, h⟩ := bind_ok.1 h
  obtain ⟨dr, h4, h⟩ := bind_ok.1 h
  obtain ⟨di, h5, h⟩ := bind_ok.1 h
  have h4' : refDof p.2 = some dr := by
    split at h4
    · rename_i l hl
      rw [hl, ← Except.ok.inj h4]
    · cases h4
  have h5' : imaDof p.1 = some di := by
    split at h5
    · rename_i l hl
      rw [hl, ← Except.ok.inj h5]
    · cases h5
  rw [h4', h5', List.forall₂_map_left_iff]
  refine (mapM_ok.1 h).imp ?_
  intro c e hc
  obtain ⟨n, h6, h7⟩ := bind_ok.1 hc
  exact ⟨n, φ, h6, shift_of_dot h1 h2 h3, (pure_ok.1 h7).symm⟩

/-- The non-image degrees of freedom. -/
def kept (ndofs : ℕ) (dofsIma : List ℤ) : List ℕ := (List.range ndofs).filter fun (d : ℕ) => (d : ℤ) ∉ dofsIma

theorem mem_kept {ndofs : ℕ} {dofsIma : List ℤ} {d : ℕ} : d ∈ kept ndofs dofsIma ↔ d < ndofs ∧ (d : ℤ) ∉ dofsIma := by
  simp [kept]

/-- What a successful call computes. -/
theorem bloch_ok {wave : List ℝ} {coords : List (List ℝ)} {ndofs : ℕ} {nodesRef nodesIma dofsRef dofsIma : List ℤ}
    {refDof imaDof : ℤ → Option (List ℤ)} {newNum : List ℤ}
    {T : Matrix (Fin ndofs) (Fin (ndofs - dofsRef.length)) ℂ}
    (h : blochTransformMat wave coords ndofs nodesRef nodesIma dofsRef dofsIma refDof imaDof newNum = .ok T) :
    ∃ inner bl : List (ℤ × ℤ × ℂ),
      List.Forall₂ (fun (d : ℕ) e => ∃ n, pyGet newNum (d : ℤ) = .ok n ∧ e = ((d : ℤ), n, (1 : ℂ)))
        (kept ndofs dofsIma) inner ∧
      List.Forall₂ (LinkEntry wave coords newNum) (links nodesIma nodesRef refDof imaDof) bl ∧
      (∀ e ∈ inner ++ bl, 0 ≤ e.1 ∧ e.1 < ndofs ∧ 0 ≤ e.2.1 ∧ e.2.1 < ((ndofs - dofsRef.length : ℕ) : ℤ)) ∧
      T = Matrix.of fun i j => ((inner ++ bl).map fun t =>
        if t.1 = (i.val : ℤ) ∧ t.2.1 = (j.val : ℤ) then t.2.2 else 0).sum := by
  unfold blochTransformMat at h
  obtain ⟨inner, h1, h⟩ := bind_ok.1 h
  obtain ⟨bl, h2, h⟩ := bind_ok.1 h
  refine ⟨inner, bl.flatten, ?_, ?_, ?_⟩
  · refine (mapM_ok.1 h1).imp ?_
    intro d e he
    obtain ⟨n, h6, h7⟩ := bind_ok.1 he
    exact ⟨n, h6, (pure_ok.1 h7).symm⟩
  · have hf := mapM_ok.1 h2
    unfold links
    clear h h1 h2
    generalize nodesIma.zip nodesRef = z at hf
    induction hf with
    | nil => exact List.Forall₂.nil
    | cons hp _ ih =>
      rw [List.flatMap_cons, List.flatten_cons]
      exact List.rel_append (blochPair_ok hp) ih
  · dsimp only at h
    split at h
    · cases h
    · unfold Assem.cooMatrix at h
      rename_i hn
      have h' : (if ((inner ++ bl.flatten).all fun t => decide (0 ≤ t.1 ∧ t.1 < (ndofs : ℤ) ∧ 0 ≤ t.2.1 ∧
          t.2.1 < ((ndofs - dofsRef.length : ℕ) : ℤ))) = true then _ else _) = _ := h
      split at h'
      · rename_i hall
        rw [List.all_eq_true] at hall
        exact ⟨fun e he => by simpa using hall e he, (Except.ok.inj h').symm⟩
      · cases h'

theorem sum_single_row {R : Type} [AddCommMonoid R] {ts : List (ℤ × ℤ × R)} (hn : (ts.map Prod.fst).Nodup)
    {e : ℤ × ℤ × R} (he : e ∈ ts) (j : ℤ) :
    (ts.map fun t => if t.1 = e.1 ∧ t.2.1 = j then t.2.2 else 0).sum = if e.2.1 = j then e.2.2 else 0 := by
  induction ts with
  | nil => cases he
  | cons a ts ih =>
    rw [List.map_cons, List.nodup_cons] at hn
    rw [List.map_cons, List.sum_cons]
    rcases List.mem_cons.1 he with rfl | he
    · have hz : (ts.map fun t => if t.1 = e.1 ∧ t.2.1 = j then t.2.2 else 0).sum = 0 := by
        apply List.sum_eq_zero
        intro x hx
        rw [List.mem_map] at hx
        obtain ⟨t, ht, rfl⟩ := hx
        rw [if_neg]
        rintro ⟨h1, -⟩
        exact hn.1 (h1 ▸ List.mem_map_of_mem ht)
      rw [hz, add_zero]
      simp
    · rw [if_neg, zero_add, ih hn.2 he]
      rintro ⟨h1, -⟩
      exact hn.1 (h1 ▸ List.mem_map_of_mem he)

/-- The rows of the transformation, for a correct pairing. -/
theorem bloch_rows {wave : List ℝ} {coords : List (List ℝ)} {ndofs : ℕ} {nodesRef nodesIma dofsRef dofsIma : List ℤ}
    {refDof imaDof : ℤ → Option (List ℤ)} {newNum : List ℤ}
    {T : Matrix (Fin ndofs) (Fin (ndofs - dofsRef.length)) ℂ}
    (h : blochTransformMat wave coords ndofs nodesRef nodesIma dofsRef dofsIma refDof imaDof newNum = .ok T)
    (hp : Pairing ndofs dofsIma (links nodesIma nodesRef refDof imaDof)) :
    (∀ d : Fin ndofs, ((d : ℕ) : ℤ) ∉ dofsIma → ∃ c : Fin (ndofs - dofsRef.length),
      newNum[(d : ℕ)]? = some ((c : ℕ) : ℤ) ∧ ∀ j, T d j = if c = j then 1 else 0) ∧
    (∀ l ∈ links nodesIma nodesRef refDof imaDof, ∃ (d r : Fin ndofs) (φ : ℝ),
      l.ima = ((d : ℕ) : ℤ) ∧ l.ref = ((r : ℕ) : ℤ) ∧ Shift wave coords l.nodeIma l.nodeRef φ ∧
      ∃ c : Fin (ndofs - dofsRef.length), newNum[(r : ℕ)]? = some ((c : ℕ) : ℤ) ∧
        ∀ j, T d j = if c = j then Complex.exp (Complex.I * (φ : ℂ)) else 0) := by
  obtain ⟨inner, bl, hi, hb, hr, hT⟩ := bloch_ok h
  have hi1 : inner.map Prod.fst = (kept ndofs dofsIma).map fun (d : ℕ) => (d : ℤ) := by
    clear hT hr
    generalize kept ndofs dofsIma = z at hi
    induction hi with
    | nil => rfl
    | cons h1 _ ih =>
      obtain ⟨n, -, rfl⟩ := h1
      rw [List.map_cons, List.map_cons, ih]
  have hb1 : bl.map Prod.fst = (links nodesIma nodesRef refDof imaDof).map Link.ima := by
    clear hT hr hp
    generalize links nodesIma nodesRef refDof imaDof = z at hb
    induction hb with
    | nil => rfl
    | cons h1 _ ih =>
      obtain ⟨n, φ, -, -, rfl⟩ := h1
      rw [List.map_cons, List.map_cons, ih]
  have hnd : ((inner ++ bl).map Prod.fst).Nodup := by
    rw [List.map_append, hi1, hb1, List.nodup_append]
    refine ⟨?_, hp.once, ?_⟩
    · apply List.Nodup.map (fun a b hab => by simpa using hab)
      exact List.nodup_range.filter _
    · intro a ha b hb' hab
      rw [List.mem_map] at ha hb'
      obtain ⟨d, hd, rfl⟩ := ha
      obtain ⟨l, hl, rfl⟩ := hb'
      rw [mem_kept] at hd
      exact hd.2 (hab ▸ hp.image l hl)
  have hrow : ∀ e ∈ inner ++ bl, ∀ (d : Fin ndofs) (c : Fin (ndofs - dofsRef.length)), e.1 = ((d : ℕ) : ℤ) →
      e.2.1 = ((c : ℕ) : ℤ) → ∀ j, T d j = if c = j then e.2.2 else 0 := by
    intro e he d c hd hc j
    rw [hT, Matrix.of_apply, ← hd, sum_single_row hnd he, hc]
    by_cases hcj : c = j
    · rw [if_pos hcj, if_pos (by rw [hcj])]
    · rw [if_neg hcj, if_neg]
      intro h1
      exact hcj (Fin.ext (by exact_mod_cast h1))
  refine ⟨fun d hd => ?_, fun l hl => ?_⟩
  · have hk : (d : ℕ) ∈ kept ndofs dofsIma := mem_kept.2 ⟨d.2, hd⟩
    obtain ⟨e, he, n, h1, rfl⟩ : ∃ e ∈ inner, ∃ n, pyGet newNum ((d : ℕ) : ℤ) = .ok n ∧ e = (((d : ℕ) : ℤ), n, (1 : ℂ)) := by
      obtain ⟨i, hi'⟩ := List.getElem?_of_mem hk
      have hlt : i < inner.length := by
        rw [← hi.length_eq]
        exact (List.getElem?_eq_some_iff.1 hi').1
      have := (List.forall₂_iff_get.1 hi).2 i (List.getElem?_eq_some_iff.1 hi').1 hlt
      simp only [List.get_eq_getElem] at this
      rw [(List.getElem?_eq_some_iff.1 hi').2] at this
      exact ⟨inner[i], List.getElem_mem hlt, this⟩
    have hm : (((d : ℕ) : ℤ), n, (1 : ℂ)) ∈ inner ++ bl := List.mem_append_left _ he
    obtain ⟨-, -, h2, h3⟩ := hr _ hm
    dsimp only at h2 h3
    obtain ⟨m, rfl⟩ := Int.eq_ofNat_of_zero_le h2
    refine ⟨⟨m, by exact_mod_cast h3⟩, pyGet_nat.1 h1, hrow _ hm d _ rfl rfl⟩
  · obtain ⟨e, he, n, φ, h1, h2, rfl⟩ : ∃ e ∈ bl, LinkEntry wave coords newNum l e := by
      obtain ⟨i, hi'⟩ := List.getElem?_of_mem hl
      have hlt : i < bl.length := by
        rw [← hb.length_eq]
        exact (List.getElem?_eq_some_iff.1 hi').1
      have := (List.forall₂_iff_get.1 hb).2 i (List.getElem?_eq_some_iff.1 hi').1 hlt
      simp only [List.get_eq_getElem] at this
      rw [(List.getElem?_eq_some_iff.1 hi').2] at this
      exact ⟨bl[i], List.getElem_mem hlt, this⟩
    have hm : (l.ima, n, Complex.exp (Complex.I * (φ : ℂ))) ∈ inner ++ bl := List.mem_append_right _ he
    obtain ⟨h3, h4, h5, h6⟩ := hr _ hm
    dsimp only at h3 h4 h5 h6
    obtain ⟨-, h7, h8⟩ := hp.source l hl
    obtain ⟨d, hd⟩ := Int.eq_ofNat_of_zero_le h3
    obtain ⟨r, hr'⟩ := Int.eq_ofNat_of_zero_le h7
    obtain ⟨m, rfl⟩ := Int.eq_ofNat_of_zero_le h5
    refine ⟨⟨d, by omega⟩, ⟨r, by omega⟩, φ, hd, hr', h2, ⟨m, by exact_mod_cast h6⟩, ?_, ?_⟩
    · rw [hr'] at h1
      exact pyGet_nat.1 h1
    · exact hrow _ hm _ _ hd rfl

end SolidsPy
