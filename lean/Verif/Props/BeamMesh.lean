import Verif.Model.Examples
import Verif.Props.GridModel
import Verif.Props.LineTables
import Verif.Props.Dme

/-! # C132: the finite element models of the convergence notebook -/

set_option linter.unusedSectionVars false

namespace SolidsPy
open Spec Fem Uel Gauss Pre Assem Examples Matrix

section
variable {K : Type} [Field K] [LinearOrder K] [IsStrictOrderedRing K] [FloorRing K]
variable {sq : K → K} {sp de : Sol.Solver K} {L H E nu P : K} {nx ny : ℕ}

theorem nodes_row (L H : K) {nx ny r c : ℕ} (hr : r ≤ ny) (hc : c ≤ nx) :
    (beamNodes L H nx ny)[nodeNo nx r c]? =
      some [((nodeNo nx r c : ℕ) : K), -L / 2 + c * (L / nx), -H / 2 + r * (H / ny), 0, 0] := by
  unfold beamNodes
  dsimp only
  have hz : ((rectGrid L H nx ny).1.zip (rectGrid L H nx ny).2.1)[nodeNo nx r c]? =
      some (-L / 2 + c * (L / nx), -H / 2 + r * (H / ny)) := by
    rw [List.getElem?_zip_eq_some]
    exact ⟨grid_x L H hr hc, grid_y L H hr hc⟩
  rw [List.getElem?_map, List.getElem?_zipIdx, hz]
  simp

theorem nodes_length (L H : K) (nx ny : ℕ) : (beamNodes L H nx ny).length = (nx + 1) * (ny + 1) := by
  unfold beamNodes
  simp [(C65_elements L H nx ny).1, (C65_elements L H nx ny).2.1]


/-- Number of the node given a vertical support. -/
def heldNo (nx ny : ℕ) : ℕ := nx * (ny / 2 + 1) - 1

/-- The model built by the notebook, with force `q` on each loaded node. -/
def cantilever (L H E nu q : K) (nx ny : ℕ) : Gui.Data K where
  nodes := (List.range ((nx + 1) * (ny + 1))).map fun v : ℕ =>
    [(v : K), (rectGrid L H nx ny).1.getD v 0, (rectGrid L H nx ny).2.1.getD v 0]
  cons := (List.range ((nx + 1) * (ny + 1))).map fun v =>
    [if v % (nx + 1) = nx then -1 else 0, if v = heldNo nx ny then -1 else 0]
  elements := (rectGrid L H nx ny).2.2
  mats := [[E, nu]]
  loads := (List.range (ny + 1)).map fun r => [((nodeNo nx r 0 : ℕ) : K), 0, q]

/-- The node table of the notebook. -/
def fiveCols (L H : K) (nx ny : ℕ) : Table K := (List.range ((nx + 1) * (ny + 1))).map fun v : ℕ =>
  [(v : K), (rectGrid L H nx ny).1.getD v 0, (rectGrid L H nx ny).2.1.getD v 0,
    if v % (nx + 1) = nx then -1 else 0, if v = heldNo nx ny then -1 else 0]

theorem held_split (h : ny / 2 + 1 ≤ nx) : heldNo nx ny = nodeNo nx (ny / 2) (nx - (ny / 2 + 1)) := by
  unfold heldNo nodeNo
  obtain ⟨k, rfl⟩ := Nat.exists_eq_add_of_le h
  rw [Nat.add_sub_cancel_left]
  generalize ny / 2 = m
  have : (m + 1 + k) * (m + 1) = m * (m + 1 + k + 1) + k + 1 := by ring
  omega

theorem right_iff (hL : L ≠ 0) (hnx : 0 < nx) {c : ℕ} : -L / 2 + c * (L / nx) = L / 2 ↔ c = nx := by
  have hn : (nx : K) ≠ 0 := by exact_mod_cast hnx.ne'
  constructor
  · intro h
    have h1 : (c : K) * (L / nx) = L := by linear_combination h
    have h2 : (c : K) = nx := by
      field_simp at h1
      exact h1
    exact_mod_cast h2
  · rintro rfl
    field_simp
    ring

theorem left_iff (hL : L ≠ 0) (hnx : 0 < nx) {c : ℕ} : -L / 2 + c * (L / nx) = -L / 2 ↔ c = 0 := by
  have hn : (nx : K) ≠ 0 := by exact_mod_cast hnx.ne'
  constructor
  · intro h
    have h1 : (c : K) * (L / nx) = 0 := by linear_combination h
    have := (mul_eq_zero.1 h1).resolve_right (div_ne_zero hL hn)
    exact_mod_cast this
  · rintro rfl
    simp

theorem supports_ok (hL : L ≠ 0) (hnx : 0 < nx) (hm : ny / 2 + 1 ≤ nx) :
    beamSupports L nx ny (beamNodes L H nx ny) = .ok (fiveCols L H nx ny) := by
  unfold beamSupports
  dsimp only
  set t := (beamNodes L H nx ny).map fun row => if row[1]? = some (L / 2) then row.set 3 (-1) else row with ht
  have hlen : t.length = (nx + 1) * (ny + 1) := by rw [ht, List.length_map, nodes_length]
  have hrow : ∀ r c, r ≤ ny → c ≤ nx → t[nodeNo nx r c]? =
      some [((nodeNo nx r c : ℕ) : K), -L / 2 + c * (L / nx), -H / 2 + r * (H / ny), if c = nx then -1 else 0, 0] := by
    intro r c hr hc
    rw [ht, List.getElem?_map, nodes_row L H hr hc, Option.map_some]
    simp only [List.getElem?_cons_succ, List.getElem?_cons_zero, Option.some.injEq, right_iff hL hnx]
    split_ifs <;> simp
  have hk : heldNo nx ny < t.length := by
    rw [hlen, held_split hm]
    exact nodeNo_lt (Nat.div_le_self _ _) (Nat.sub_le _ _)
  have hz : (nx : ℤ) * ((ny : ℤ) / 2 + 1) - 1 = (heldNo nx ny : ℤ) := by
    unfold heldNo
    have : 1 ≤ nx * (ny / 2 + 1) := Nat.mul_pos hnx (by omega)
    push_cast [Nat.cast_sub this]
    rfl
  have hkrow := hrow _ _ (Nat.div_le_self ny 2) (Nat.sub_le nx (ny / 2 + 1))
  rw [← held_split hm] at hkrow
  rw [hz]
  obtain ⟨t', h'⟩ := setCell_exists (v := (-1 : K)) (col := 4) (tab := t) (z := (heldNo nx ny : ℤ)) ⟨hk, .inl rfl⟩ hkrow
    (by simp)
  rw [h', Except.ok.injEq]
  obtain ⟨i, row, hi, hrow', -, rfl⟩ := setCell_ok h'
  obtain rfl : i = heldNo nx ny := resolves_unique hi ⟨hk, .inl rfl⟩
  rw [hkrow, Option.some.injEq] at hrow'
  subst hrow'
  apply List.ext_getElem?
  intro v
  by_cases hv : v < (nx + 1) * (ny + 1)
  · obtain ⟨r, c, hr, hc, rfl⟩ := node_split hv
    have e2 : (fiveCols L H nx ny)[nodeNo nx r c]? = some [((nodeNo nx r c : ℕ) : K), -L / 2 + c * (L / nx),
        -H / 2 + r * (H / ny), if c = nx then -1 else 0, if nodeNo nx r c = heldNo nx ny then -1 else 0] := by
      simp [fiveCols, hv, nodeNo_mod hc, grid_x L H hr hc, grid_y L H hr hc]
    rw [e2, List.getElem?_set]
    by_cases he : heldNo nx ny = nodeNo nx r c
    · rw [if_pos he, if_pos hk, if_pos he.symm]
      rw [held_split hm] at he ⊢
      obtain ⟨rfl, rfl⟩ := nodeNo_inj (Nat.sub_le _ _) hc he
      simp
    · rw [if_neg he, if_neg (Ne.symm he), hrow r c hr hc]
  · rw [List.getElem?_eq_none (by rw [List.length_set, hlen]; omega),
      List.getElem?_eq_none (by simp [fiveCols]; omega)]

theorem range_column (m n : ℕ) : (List.range ((m + 1) * n)).filter (fun v => v % (m + 1) = 0) =
    (List.range n).map fun r => nodeNo m r 0 := by
  induction n with
  | zero => simp
  | succ n ih =>
    rw [Nat.mul_succ, List.range_add, List.filter_append, ih, List.range_succ (n := n), List.map_append]
    congr 1
    rw [List.filter_map]
    have : (List.range (m + 1)).filter ((fun v => decide (v % (m + 1) = 0)) ∘ fun x => (m + 1) * n + x) = [0] := by
      rw [List.range_succ_eq_map, List.filter_cons]
      simp only [Function.comp_apply, add_zero, Nat.mul_mod_right, decide_true, if_true, List.cons.injEq, true_and]
      rw [List.filter_eq_nil_iff]
      intro x hx
      obtain ⟨y, hy, rfl⟩ := List.mem_map.1 hx
      rw [List.mem_range] at hy
      simp only [Function.comp_apply, Nat.mul_add_mod, decide_eq_true_eq, Nat.succ_eq_add_one]
      rw [Nat.mod_eq_of_lt (by omega)]
      omega
    rw [this]
    simp [nodeNo, Nat.mul_comm]

theorem loads_ok (hL : L ≠ 0) (hnx : 0 < nx) (hny : 0 < ny) :
    beamLoads P L ny (fiveCols L H nx ny) = .ok ((List.range (ny + 1)).map fun r =>
      [((nodeNo nx r 0 : ℕ) : K), 0, P / (ny : K)]) := by
  have hids : ((fiveCols L H nx ny).filter fun row => row[1]? = some (-L / 2)).map (fun row => row.getD 0 0) =
      (List.range (ny + 1)).map fun r => ((nodeNo nx r 0 : ℕ) : K) := by
    unfold fiveCols
    rw [List.filter_map, List.map_map]
    have hf : (List.range ((nx + 1) * (ny + 1))).filter ((fun row : List K => decide (row[1]? = some (-L / 2))) ∘
        fun v : ℕ => [(v : K), (rectGrid L H nx ny).1.getD v 0, (rectGrid L H nx ny).2.1.getD v 0,
          if v % (nx + 1) = nx then -1 else 0, if v = heldNo nx ny then -1 else 0]) =
        (List.range ((nx + 1) * (ny + 1))).filter (fun v => v % (nx + 1) = 0) := by
      refine List.filter_congr fun v hv => ?_
      rw [List.mem_range] at hv
      obtain ⟨r, c, hr, hc, rfl⟩ := node_split hv
      simp only [Function.comp_apply, List.getElem?_cons_succ, List.getElem?_cons_zero, Option.some.injEq,
        List.getD_eq_getElem?_getD, grid_x L H hr hc, Option.getD_some, left_iff hL hnx, nodeNo_mod hc]
    rw [hf, range_column, List.map_map]
    rfl
  unfold beamLoads
  dsimp only
  rw [hids, if_neg hny.ne', if_pos (by simp), List.map_map]
  rfl

theorem beam_data (hL : L ≠ 0) (hnx : 0 < nx) (hny : 0 < ny) (hm : ny / 2 + 1 ≤ nx) :
    beamTables L H E nu P nx ny = .ok (fiveCols L H nx ny, (rectGrid L H nx ny).2.2, [[E, nu]],
      (cantilever L H E nu (P / ny) nx ny).loads) ∧
    beamData L H E nu P nx ny = .ok (cantilever L H E nu (P / ny) nx ny) := by
  have h1 : beamTables L H E nu P nx ny = .ok (fiveCols L H nx ny, (rectGrid L H nx ny).2.2, [[E, nu]],
      (cantilever L H E nu (P / ny) nx ny).loads) := by
    unfold beamTables
    rw [supports_ok hL hnx hm, ok_bind, loads_ok hL hnx hny, ok_bind]
    rfl
  refine ⟨h1, ?_⟩
  unfold beamData
  rw [h1, ok_bind]
  simp [fiveCols, cantilever, Function.comp_def, pure, Except.pure]


theorem cantilever_grid (L H E nu q : K) (nx ny : ℕ) :
    GridModel (cantilever L H E nu q nx ny) L H nx ny E nu [] where
  elements := rfl
  material := rfl
  count := by simp [cantilever, (C65_elements L H nx ny).1]
  place := by
    intro v x y h1 h2
    have hv : v < (nx + 1) * (ny + 1) := by
      rw [← (C65_elements L H nx ny).1]
      exact (List.getElem?_eq_some_iff.1 h1).1
    refine ⟨v, ?_⟩
    simp [cantilever, hv, h1, h2]

theorem cantilever_cons (L H E nu q : K) {nx ny v j : ℕ} {x : K} :
    entry (cantilever L H E nu q nx ny).cons v j = some x ↔ v < (nx + 1) * (ny + 1) ∧
      ((j = 0 ∧ x = if v % (nx + 1) = nx then -1 else 0) ∨ (j = 1 ∧ x = if v = heldNo nx ny then -1 else 0)) := by
  rw [entry_some]
  simp only [cantilever, List.getElem?_map, Option.map_eq_some_iff]
  constructor
  · rintro ⟨row, ⟨a, ha, rfl⟩, hx⟩
    rw [List.getElem?_eq_some_iff] at ha
    obtain ⟨hv, ha⟩ := ha
    rw [List.getElem_range] at ha
    subst ha
    refine ⟨by simpa using hv, ?_⟩
    match j, hx with
    | 0, hx => simp at hx; exact .inl ⟨rfl, hx.symm⟩
    | 1, hx => simp at hx; exact .inr ⟨rfl, hx.symm⟩
    | j + 2, hx => simp at hx
  · rintro ⟨hv, ⟨rfl, rfl⟩ | ⟨rfl, rfl⟩⟩ <;> exact ⟨_, ⟨v, by simp [hv], rfl⟩, rfl⟩

theorem cantilever_wf (L H E nu q : K) (nx ny : ℕ) : WellFormed (cantilever L H E nu q nx ny) where
  codes := by
    intro v j x hj hx
    rcases ((cantilever_cons ..).1 hx).2 with ⟨_, rfl⟩ | ⟨_, rfl⟩ <;> split_ifs <;> simp
  width := by simp [cantilever]
  size := by simp [cantilever]

theorem cantilever_free (L H E nu q : K) {nx ny r c : ℕ} (hr : r ≤ ny) (hc : c ≤ nx) (j : Fin 2) :
    Free (cantilever L H E nu q nx ny).cons 2 (nodeNo nx r c) j ↔
      ¬ (if j = 0 then c = nx else nodeNo nx r c = heldNo nx ny) := by
  have hlt := nodeNo_lt (nx := nx) hr hc
  unfold Free
  simp only [cantilever_cons, nodeNo_mod hc, hlt, true_and]
  fin_cases j
  · by_cases h : c = nx <;> simp [h]
  · by_cases h : nodeNo nx r c = heldNo nx ny <;> simp [h]

theorem cantilever_supported {q : K} (hny : 0 < ny) (hm : ny / 2 + 1 ≤ nx) (hne : H / ny ≠ 0) :
    Supported (cantilever L H E nu q nx ny).cons (cantilever L H E nu q nx ny).nodes := by
  have hg := cantilever_grid L H E nu q nx ny
  have hwf := cantilever_wf L H E nu q nx ny
  intro g ha p j hp hj
  have hlt : ∀ {r c}, r ≤ ny → c ≤ nx → nodeNo nx r c < (cantilever L H E nu q nx ny).cons.length := by
    intro r c hr hc
    rw [hwf.size, hg.size]
    exact nodeNo_lt hr hc
  have a0 := ha _ 0 (hlt (Nat.zero_le ny) (le_refl nx)) (by omega) (by
    have := cantilever_free L H E nu q (nx := nx) (Nat.zero_le ny) (le_refl nx) 0
    simp only [Fin.val_zero] at this
    rw [this]
    simp)
  have a1 := ha _ 0 (hlt (le_refl ny) (le_refl nx)) (by omega) (by
    have := cantilever_free L H E nu q (nx := nx) (le_refl ny) (le_refl nx) 0
    simp only [Fin.val_zero] at this
    rw [this]
    simp)
  have hd : ny / 2 ≤ ny := Nat.div_le_self ny 2
  have a2 := ha _ 1 (hlt hd (Nat.sub_le nx (ny / 2 + 1))) (by omega) (by
    have := cantilever_free L H E nu q (nx := nx) hd (Nat.sub_le nx (ny / 2 + 1)) 1
    simp only [Fin.val_one] at this
    rw [this, held_split hm]
    simp)
  have e0 := congrFun (hg.pos (Nat.zero_le ny) (le_refl nx)) 1
  have e1 := congrFun (hg.pos (le_refl ny) (le_refl nx)) 1
  simp only [posOf, Fin.val_one, Matrix.cons_val_one, Matrix.cons_val_fin_one] at e0 e1
  simp only [Motion.move, if_true, one_ne_zero, if_false] at a0 a1 a2
  rw [e0] at a0
  rw [e1] at a1
  have hny' : (ny : K) ≠ 0 := by exact_mod_cast hny.ne'
  have hw : g.spin = 0 := by
    have : g.spin * (ny * (H / ny)) = 0 := by
      push_cast at a0
      linear_combination a0 - a1
    exact (mul_eq_zero.1 this).resolve_right (mul_ne_zero hny' hne)
  simp only [Motion.move, hw, zero_mul, sub_zero, add_zero] at a0 a2 ⊢
  split
  · exact a0
  · exact a2

/-! ## C132 -/

/-- C132.  One row of loads for each node of the left edge, each `P/ny`: the total is `P + P/ny`, and `P` only
without load. -/
theorem C132_total_load (hL : L ≠ 0) (hnx : 0 < nx) (hny : 0 < ny) (hm : ny / 2 + 1 ≤ nx)
    {d : Gui.Data K} (h : beamData L H E nu P nx ny = .ok d) :
    d.loads.map (fun r => r.getD 0 0) = ((List.range (ny + 1)).map fun r => ((nodeNo nx r 0 : ℕ) : K)) ∧
    (d.loads.map fun r => r.getD 1 0).sum = 0 ∧ (d.loads.map fun r => r.getD 2 0).sum = P + P / ny ∧
    ((d.loads.map fun r => r.getD 2 0).sum = P ↔ P = 0) := by
  rw [(beam_data hL hnx hny hm).2, Except.ok.injEq] at h
  subst h
  have hn : (ny : K) ≠ 0 := by exact_mod_cast hny.ne'
  have hs : ((cantilever L H E nu (P / ny) nx ny).loads.map fun r => r.getD 2 0).sum = P + P / ny := by
    simp only [cantilever, List.map_map, Function.comp_def, List.getD_cons_succ, List.getD_cons_zero, List.map_const',
      List.sum_replicate, List.length_range, nsmul_eq_mul]
    push_cast
    field_simp
  refine ⟨?_, ?_, hs, ?_⟩
  · simp [cantilever, Function.comp_def]
  · simp [cantilever, Function.comp_def]
  · rw [hs, add_eq_left, div_eq_zero_iff, or_iff_left hn]

/-- C132.  Exactly the nodes of the right edge are held horizontally; exactly one node is held vertically.  It lies in
the middle row, but `ny/2 + 1` columns to the left of the right edge: never on the edge. -/
theorem C132_supports (hL : L ≠ 0) (hnx : 0 < nx) (hny : 0 < ny) (hm : ny / 2 + 1 ≤ nx)
    {d : Gui.Data K} (h : beamData L H E nu P nx ny = .ok d) :
    (∀ r c, r ≤ ny → c ≤ nx → (¬ Free d.cons 2 (nodeNo nx r c) 0 ↔ c = nx)) ∧
    ∃ p, p < d.nodes.length ∧ (∀ v < d.nodes.length, ¬ Free d.cons 2 v 1 ↔ v = p) ∧
      posOf d.nodes p = ![L / 2 - ((ny / 2 + 1 : ℕ) : K) * (L / nx), -H / 2 + ((ny / 2 : ℕ) : K) * (H / ny)] ∧
      posOf d.nodes p 0 ≠ L / 2 := by
  rw [(beam_data hL hnx hny hm).2, Except.ok.injEq] at h
  subst h
  have hg := cantilever_grid L H E nu (P / ny) nx ny
  have hn : (nx : K) ≠ 0 := by exact_mod_cast hnx.ne'
  have hd : ny / 2 ≤ ny := Nat.div_le_self ny 2
  have hpos : posOf (cantilever L H E nu (P / ny) nx ny).nodes (heldNo nx ny) =
      ![L / 2 - ((ny / 2 + 1 : ℕ) : K) * (L / nx), -H / 2 + ((ny / 2 : ℕ) : K) * (H / ny)] := by
    rw [held_split hm, hg.pos hd (Nat.sub_le _ _), Nat.cast_sub hm]
    congr 1
    field_simp
    ring
  refine ⟨fun r c hr hc => ?_, heldNo nx ny, ?_, ?_, hpos, ?_⟩
  · have := cantilever_free L H E nu (P / ny) hr hc 0
    simp only [Fin.val_zero, if_true] at this
    rw [this, not_not]
  · rw [hg.size, held_split hm]
    exact nodeNo_lt hd (Nat.sub_le _ _)
  · intro v hv
    rw [hg.size] at hv
    obtain ⟨r, c, hr, hc, rfl⟩ := node_split hv
    have := cantilever_free L H E nu (P / ny) hr hc 1
    simp only [Fin.val_one, one_ne_zero, if_false] at this
    rw [this, not_not]
  · rw [hpos]
    simp only [Matrix.cons_val_zero]
    intro he
    have : ((ny / 2 + 1 : ℕ) : K) * (L / nx) = 0 := by linear_combination -he
    rcases mul_eq_zero.1 this with h0 | h0
    · have : ny / 2 + 1 = 0 := by exact_mod_cast h0
      omega
    · exact div_ne_zero hL hn h0

/-- C132.  On the meshes of the notebook, `nx = 3 ny`, the vertical support is never closer to the right edge than a sixth of the
length: with an even number of rows it is at `L/6 + L/(3 ny)` from it. -/
theorem C132_support_distance (hL : L ≠ 0) {k : ℕ} (hk : 0 < k) {d : Gui.Data K}
    (h : beamData L H E nu P (3 * (2 * k)) (2 * k) = .ok d) :
    ∃ p, p < d.nodes.length ∧ ¬ Free d.cons 2 p 1 ∧
      posOf d.nodes p = ![L / 2 - (L / 6 + L / (3 * ((2 * k : ℕ) : K))), 0] := by
  have hk' : (k : K) ≠ 0 := by exact_mod_cast hk.ne'
  obtain ⟨-, p, hp, hf, hx, -⟩ := C132_supports hL (by omega) (by omega) (by omega) h
  refine ⟨p, hp, (hf p hp).2 rfl, ?_⟩
  rw [hx, Nat.mul_div_cancel_left k (by norm_num)]
  push_cast
  congr 1
  · field_simp
    ring
  · congr 1
    field_simp
    ring

theorem share_loads (q : K) : (cantilever L H E nu q nx ny).loads =
    (List.range (ny + 1)).map fun r => [((nodeNo nx r 0 : ℕ) : K), 0, q] := rfl

theorem cantilever_returns (hs : SqrtFn sq) (hsp : SolverOk sp) {q : K} (htol : 1e-8 < L / nx * (H / ny) / 4)
    (hE : 0 < E) (h1 : -1 < nu) (h2 : nu < 1) (hm : ny / 2 + 1 ≤ nx) :
    ∃ res, Gui.solidsAuto sq sp de (cantilever L H E nu q nx ny) false = .ok res ∧ res.warned = false := by
  have hpos : 0 < L / nx * (H / ny) := by
    have := tol_pos.trans htol
    linarith
  have hny : 0 < ny := by
    rcases Nat.eq_zero_or_pos ny with rfl | h
    · simp at hpos
    · exact h
  have hg := cantilever_grid L H E nu q nx ny
  refine C97_solids_auto hs hg htol hE h1 h2 (by simp) (cantilever_wf L H E nu q nx ny) hsp
    (cantilever_supported hny hm fun h0 => by rw [h0, mul_zero] at hpos; exact lt_irrefl _ hpos) ?_ ?_
  · refine ⟨nodeNo nx 0 0, 0, ?_⟩
    have := cantilever_free L H E nu q (nx := nx) (Nat.zero_le ny) (Nat.zero_le nx) 0
    simp only [Fin.val_zero, if_true] at this
    rw [this]
    omega
  · intro l hl
    simp only [cantilever, List.mem_map, List.mem_range] at hl
    obtain ⟨i, hi, rfl⟩ := hl
    refine ⟨by simp, nodeNo nx i 0, ?_⟩
    rw [hg.size]
    exact (names_nat (nodeNo_lt (by omega) (Nat.zero_le _)) rfl).2 rfl

/-- C132.  Each of these models is solved by `solids_auto` without the equilibrium warning. -/
theorem C132_solved (hs : SqrtFn sq) (hsp : SolverOk sp) (htol : 1e-8 < L / nx * (H / ny) / 4)
    (hE : 0 < E) (h1 : -1 < nu) (h2 : nu < 1) (hm : ny / 2 + 1 ≤ nx) :
    ∃ d res, beamData L H E nu P nx ny = .ok d ∧ Gui.solidsAuto sq sp de d false = .ok res ∧ res.warned = false := by
  have hpos : 0 < L / nx * (H / ny) := by
    have := tol_pos.trans htol
    linarith
  have hnx : 0 < nx := by omega
  have hny : 0 < ny := by
    rcases Nat.eq_zero_or_pos ny with rfl | h
    · simp at hpos
    · exact h
  have hL : L ≠ 0 := by
    rintro rfl
    simp at hpos
  obtain ⟨res, hr, hw⟩ := cantilever_returns (de := de) hs hsp htol hE h1 h2 hm (q := P / ny)
  exact ⟨_, res, (beam_data hL hnx hny hm).2, hr, hw⟩

/-- C132.  The displacements it returns are `1 + 1/ny` times those under the load `P` shared among the `ny + 1` nodes. -/
theorem C132_scaled (hs : SqrtFn sq) (hsp : SolverOk sp) (htol : 1e-8 < L / nx * (H / ny) / 4)
    (hE : 0 < E) (h1 : -1 < nu) (h2 : nu < 1) (hm : ny / 2 + 1 ≤ nx) {d : Gui.Data K}
    (hd : beamData L H E nu P nx ny = .ok d) {res res' : Gui.Result K} {plot plot' : Bool}
    (hr : Gui.solidsAuto sq sp de d plot = .ok res)
    (hr' : Gui.solidsAuto sq sp de { d with loads := d.loads.map fun r => r.set 2 (P / (ny + 1)) } plot' = .ok res') :
    ∀ p j, p < d.nodes.length → j < 2 → ∃ x, entry res'.disp p j = some x ∧ entry res.disp p j = some ((1 + 1 / ny) * x) := by
  have hpos : 0 < L / nx * (H / ny) := by
    have := tol_pos.trans htol
    linarith
  have hnx : 0 < nx := by omega
  have hny : 0 < ny := by
    rcases Nat.eq_zero_or_pos ny with rfl | h
    · simp at hpos
    · exact h
  have hL : L ≠ 0 := by
    rintro rfl
    simp at hpos
  have hn : (ny : K) ≠ 0 := by exact_mod_cast hny.ne'
  have hn1 : (ny : K) + 1 ≠ 0 := by exact_mod_cast (Nat.succ_ne_zero ny)
  rw [(beam_data hL hnx hny hm).2, Except.ok.injEq] at hd
  subst hd
  have hg := cantilever_grid L H E nu (P / ny) nx ny
  have hwf := cantilever_wf L H E nu (P / ny) nx ny
  obtain ⟨ms, hms⟩ := C97_mesh (sq := sq) hg htol hE h1 h2 (by simp)
  have hst := (C95_stable_iff hs hms hwf).2
    (cantilever_supported hny hm fun h0 => by rw [h0, mul_zero] at hpos; exact lt_irrefl _ hpos)
  let rows : List (K × List K × List K) := (List.range (ny + 1)).map fun r =>
    (((nodeNo nx r 0 : ℕ) : K), [0, P / (ny + 1)], [0, P / (ny + 1)])
  have e1 : ((cantilever L H E nu (P / ny) nx ny).loads.map fun r => r.set 2 (P / ((ny : K) + 1))) =
      rows.map fun t => t.1 :: t.2.1 := by
    simp [cantilever, rows, Function.comp_def]
  have e3 : (cantilever L H E nu (P / ny) nx ny).loads =
      rows.map fun t => t.1 :: List.zipWith (fun x y => (1 + 1 / (ny : K)) * x + 0 * y) t.2.1 t.2.2 := by
    simp only [cantilever, rows, List.map_map, Function.comp_def, List.zipWith_cons_cons, List.zipWith_nil_left]
    refine List.map_congr_left fun r _ => ?_
    simp only [List.cons.injEq, and_true, true_and]
    constructor
    · ring
    · field_simp
      ring
  rw [e1] at hr'
  have hr3 : Gui.solidsAuto sq sp de { cantilever L H E nu (P / ny) nx ny with loads := (rows.map fun t =>
      t.1 :: List.zipWith (fun x y => (1 + 1 / (ny : K)) * x + 0 * y) t.2.1 t.2.2) } plot = .ok res := by
    rw [← e3]
    exact hr
  have e2 : (rows.map fun t => t.1 :: t.2.1) = rows.map fun t => t.1 :: t.2.2 := by
    simp [rows]
  have hr2 := hr'
  rw [e2] at hr2
  have key := C22_linear_response hwf hsp hms.members hst (1 + 1 / (ny : K)) 0 rows (by simp [rows]) hr' hr2 hr3
  intro p j hp hj
  have hk := key p j hp hj
  rw [zero_mul, add_zero] at hk
  have hwf' : WellFormed { cantilever L H E nu (P / ny) nx ny with loads := rows.map fun t => t.1 :: t.2.1 } :=
    ⟨hwf.codes, hwf.width, hwf.size⟩
  obtain ⟨⟨hl, hw⟩, -⟩ := C18_nodal_equilibrium hwf' hsp hms.members hst hr'
  have hx : entry res'.disp p j = some (fieldOf res'.disp p j) := by
    have hp' : p < res'.disp.length := by rw [hl]; exact hp
    obtain ⟨x, hx⟩ : ∃ x, entry res'.disp p j = some x :=
      ⟨_, entry_some.2 ⟨res'.disp[p], List.getElem?_eq_getElem _,
        List.getElem?_eq_getElem (by rw [hw _ (List.getElem_mem _)]; exact hj)⟩⟩
    unfold fieldOf
    rw [hx]
    rfl
  exact ⟨_, hx, hk⟩


/-- C132.  A node table with five columns, the supports in the last two, given to `DME` in place of the supports is
refused whatever the elements. -/
theorem C132_five_columns {cons : Table K} (hw : ∀ r ∈ cons, r.length = 5) {elements : List (List ℤ)}
    (hne : elements ≠ []) (r : List (List ℤ) × List (List ℤ) × ℕ) : dme cons elements ≠ .ok r := by
  obtain ⟨op, bc, neq⟩ := r
  intro h
  obtain ⟨h1, h2⟩ := dme_ok.1 h
  obtain ⟨el, hel⟩ := List.exists_mem_of_ne_nil _ hne
  obtain ⟨row, hr⟩ := mapM_exists.1 ⟨op, h2⟩ el hel
  obtain ⟨ty, n, rows, h3, h4, h5, h6⟩ := dmeRow_ok.1 hr
  obtain ⟨hrw, hrl⟩ := pyGetMany_widths (bc_widths h1 hw) h5
  have hfl := flatten_length hrw
  have h4' : TypeDofs ty n := h4
  rcases assignSlice_ok.1 h6 with ⟨h7, _⟩ | ⟨_, v, h8, _⟩
  · unfold TypeDofs at h4'
    omega
  · rw [h8] at hfl
    simp at hfl
    omega

/-- C132.  The call `DME(nodes, els)` of the notebook raises an exception. -/
theorem C132_stale_call (hL : L ≠ 0) (hnx : 0 < nx) (hny : 0 < ny) (hm : ny / 2 + 1 ≤ nx)
    {nodes mats loads : Table K} {els : List (List ℤ)}
    (h : beamTables L H E nu P nx ny = .ok (nodes, els, mats, loads)) : ∃ e, dme nodes els = .error e := by
  rw [(beam_data hL hnx hny hm).1, Except.ok.injEq] at h
  obtain ⟨rfl, rfl, -⟩ := Prod.mk.injEq .. ▸ h
  cases hd : dme (fiveCols L H nx ny) (rectGrid L H nx ny).2.2 with
  | error e => exact ⟨e, rfl⟩
  | ok r =>
    refine absurd hd (C132_five_columns (by simp [fiveCols]) (fun h0 => ?_) r)
    have := congrArg List.length h0
    rw [(C65_elements L H nx ny).2.2.1] at this
    simp at this
    omega

/-! ## Cases -/

/-- The third mesh of the notebook, twelve by four elements, with its data. -/
example : ∃ d, beamData (K := ℚ) 24 8 1000 (3 / 10) (-50) 12 4 = .ok d ∧
    (d.loads.map fun r => r.getD 2 0).sum = -125 / 2 ∧
    ∃ p, p < d.nodes.length ∧ ¬ Free d.cons 2 p 1 ∧ posOf d.nodes p = ![6, 0] := by
  refine ⟨_, (beam_data (by norm_num) (by norm_num) (by norm_num) (by norm_num)).2, ?_, ?_⟩
  · rw [(C132_total_load (by norm_num) (by norm_num) (by norm_num) (by norm_num)
      (beam_data (by norm_num) (by norm_num) (by norm_num) (by norm_num)).2).2.2.1]
    norm_num
  · obtain ⟨p, h1, h2, h3⟩ := C132_support_distance (K := ℚ) (k := 2) (by norm_num) (by norm_num)
      (beam_data (L := 24) (H := 8) (E := 1000) (nu := 3 / 10) (P := -50) (by norm_num) (by norm_num) (by norm_num) (by norm_num)).2
    refine ⟨p, h1, h2, ?_⟩
    rw [h3]
    norm_num

/-- Hypotheses of `C132_solved` and `C132_scaled`. -/
example : ∃ d res, beamData (K := ℝ) 24 8 1000 (3 / 10) (-50) 6 2 = .ok d ∧
    Gui.solidsAuto Real.sqrt cramerR cramerR d false = .ok res ∧ res.warned = false :=
  C132_solved sqrtFn_real cramerR_ok (by norm_num) (by norm_num) (by norm_num) (by norm_num) (by norm_num)

end
end SolidsPy
