import Verif.Props.FrameSplit

/-! # C126: dividing a bar of a truss -/

set_option linter.unusedSectionVars false

namespace SolidsPy
open Spec Assem Matrix

section
variable {K : Type} [Field K] [LinearOrder K] [IsStrictOrderedRing K] [FloorRing K]
variable {sq : K → K} {d d' : Gui.Data K} {mats nodes : Table K} {el : List ℤ} {m : Member K} {b : Bar K} {r : K} {U V : ℕ → ℕ → K}
  {ks ks' ms ms' : List (Member K)}

/-- The model `d'` is the model `d` with one more node, which divides the bar `b` in the ratio `r`, and two bars of the same material in
the place of `b`.  All other elements stay what they are; they may be of any type. -/
structure Spec.DividesBar (d d' : Gui.Data K) (b : Bar K) (r : K) : Prop where
  inside : 0 < r ∧ r < 1
  size : d.cons.length = d.nodes.length
  node : ∃ id, d'.nodes = d.nodes ++ [[id, b.X 0 0 + r * (b.X 1 0 - b.X 0 0), b.X 0 1 + r * (b.X 1 1 - b.X 0 1)]]
  codes : ∃ row, d'.cons = d.cons ++ [row]
  same : d'.mats = d.mats ∧ d'.loads = d.loads
  bars : ∃ (pre post : List (List ℤ)) (eid eid1 eid2 : ℤ) (mi : ℕ),
    d.elements = pre ++ [eid, 6, (mi : ℤ), (b.ends 0 : ℤ), (b.ends 1 : ℤ)] :: post ∧
    d'.elements = pre ++ [eid1, 6, (mi : ℤ), (b.ends 0 : ℤ), (d.nodes.length : ℤ)] ::
      [eid2, 6, (mi : ℤ), (d.nodes.length : ℤ), (b.ends 1 : ℤ)] :: post ∧
    IsBar d.nodes d.mats [eid, 6, (mi : ℤ), (b.ends 0 : ℤ), (b.ends 1 : ℤ)] b ∧ ∀ e ∈ pre ++ post, ∀ i ∈ e.drop 3, 0 ≤ i

/-- Displacement of node `p` along the bar, times its length. -/
def Spec.Bar.alongAt (b : Bar K) (U : ℕ → ℕ → K) (p : ℕ) : K := (b.X 1 0 - b.X 0 0) * U p 0 + (b.X 1 1 - b.X 0 1) * U p 1

/-- Along the bar, node `c` moves as the point of the undivided bar that it is. -/
def Spec.OnBar (b : Bar K) (r : K) (c : ℕ) (U : ℕ → ℕ → K) : Prop :=
  b.alongAt U c = (1 - r) * b.alongAt U (b.ends 0) + r * b.alongAt U (b.ends 1)

/-- Elongation of the bar in a nodal field. -/
def Spec.Bar.elongated (b : Bar K) (U : ℕ → ℕ → K) : K := elongation b.X b.L fun q => U (b.ends q.1) q.2

theorem elongated_eq (b : Bar K) (U : ℕ → ℕ → K) : b.elongated U = (b.alongAt U (b.ends 1) - b.alongAt U (b.ends 0)) / b.L := by
  unfold Bar.elongated elongation Bar.alongAt
  simp only [Fin.val_zero, Fin.val_one]
  congr 1
  ring

/-- The two parts. -/
def Spec.Bar.first (b : Bar K) (r : K) (c : ℕ) : Bar K := ⟨![b.ends 0, c], firstPart b.X r, b.E, b.A, r * b.L⟩

def Spec.Bar.second (b : Bar K) (r : K) (c : ℕ) : Bar K := ⟨![c, b.ends 1], secondPart b.X r, b.E, b.A, (1 - r) * b.L⟩

theorem elongated_first (hr : r ≠ 0) (hL : b.L ≠ 0) (c : ℕ) (U : ℕ → ℕ → K) :
    (b.first r c).elongated U = (b.alongAt U c - b.alongAt U (b.ends 0)) / b.L := by
  rw [elongated_eq]
  unfold Bar.first Bar.alongAt firstPart
  simp
  field_simp

theorem elongated_second (hr : 1 - r ≠ 0) (hL : b.L ≠ 0) (c : ℕ) (U : ℕ → ℕ → K) :
    (b.second r c).elongated U = (b.alongAt U (b.ends 1) - b.alongAt U c) / b.L := by
  rw [elongated_eq]
  unfold Bar.second Bar.alongAt secondPart
  simp
  field_simp
  ring

/-- The call of the routine for a bar, whatever the routine. -/
theorem bar_call {fn : ℤ → Uel K → Prop} (h : IsMember fn mats nodes el m) (hb : IsBar nodes mats el b) {mi : ℕ} (hmi : el[2]? = some (mi : ℤ)) :
    m.nodes = [b.ends 0, b.ends 1] ∧ IsLength b.X b.L ∧ ∃ more rows f kl ml, mats[mi]? = some (b.E :: b.A :: more) ∧ fn 6 f ∧
      f (matRows b.X) (b.E :: b.A :: more) = .ok (kl, ml) ∧ m.k = cell kl ∧
      List.Forall₂ (fun p row => nodes[p]? = some row) m.nodes rows ∧ rows.map (List.drop 1) = matRows b.X := by
  obtain ⟨ty, mi', params, rows, f, kl, ml, a1, a2, ⟨q, a3, a4⟩, a5, a6, a7, a8, a9⟩ := h
  obtain ⟨eid, mi', id, more, rfl, b2, b3, hL⟩ := hb
  simp only [List.getElem?_cons_succ, List.getElem?_cons_zero, Option.some.injEq] at a1 a2 hmi
  subst a1 a2
  obtain rfl : mi' = mi := by exact_mod_cast hmi
  have hr : ∀ {t : Table K} {i p : ℕ} {r : List K}, Resolves t.length (i : ℤ) p → t[i]? = some r → p = i := by
    intro t i p r h1 h2
    obtain ⟨h2, _⟩ := List.getElem?_eq_some_iff.1 h2
    unfold Resolves at h1
    omega
  obtain rfl := hr a3 b2
  rw [b2, Option.some.injEq] at a4
  subst a4
  have hn : m.nodes = [b.ends 0, b.ends 1] := by
    simp only [List.drop_succ_cons, List.drop_zero] at a5
    generalize m.nodes = l at a5
    match l, a5 with
    | [p0, p1], .cons r0 (.cons r1 .nil) =>
      rw [hr r0 (b3 0), hr r1 (b3 1)]
  have a6' := a6
  rw [hn] at a6'
  have hrows : rows = [[id 0, b.X 0 0, b.X 0 1], [id 1, b.X 1 0, b.X 1 1]] := by
    match rows, a6' with
    | [r0, r1], .cons e0 (.cons e1 .nil) =>
      rw [b3 0, Option.some.injEq] at e0
      rw [b3 1, Option.some.injEq] at e1
      rw [e0, e1]
  have hX : rows.map (List.drop 1) = matRows b.X := by
    rw [hrows, matRows_two]
    rfl
  rw [hX] at a8
  exact ⟨hn, hL, more, rows, f, kl, ml, b2, a7, a8, a9, a6, hX⟩

theorem bar_pick (hn : m.nodes = [b.ends 0, b.ends 1]) (U : ℕ → ℕ → K) : m.pick 2 U = fun q => U (b.ends q.1) q.2 := by
  funext ⟨a, c⟩
  unfold Member.pick
  rw [hn]
  fin_cases a <;> rfl

/-- A bar as a spring. -/
theorem bar_spring (hs : SqrtFn sq) (h : IsMember (Routine sq) mats nodes el m) (hb : IsBar nodes mats el b) :
    m.nodes = [b.ends 0, b.ends 1] ∧ ∀ V U, m.form 2 V U = b.E * b.A / b.L * b.elongated V * b.elongated U := by
  obtain ⟨hn, k, mm, more, hret, hpl⟩ := bar_placed h hb
  have hL : IsLength b.X b.L := by
    obtain ⟨_, _, _, _, _, _, _, hL⟩ := hb
    exact hL
  refine ⟨hn, fun V U => ?_⟩
  obtain ⟨rfl, -⟩ := (truss_returns hs hL).1 hret
  rw [hpl.form, truss_energy, bar_pick hn, bar_pick hn, ← elongation_eq, ← elongation_eq]
  unfold Bar.elongated
  ring

/-- A bar as a mass. -/
theorem bar_inertia (hs : SqrtFn sq) (h : IsMember (MassRoutine sq) mats nodes el m) (hb : IsBar nodes mats el b) {mi : ℕ}
    (hmi : el[2]? = some (mi : ℤ)) : m.nodes = [b.ends 0, b.ends 1] ∧ ∃ more, mats[mi]? = some (b.E :: b.A :: more) ∧ ∀ V U, m.form 2 V U =
      b.A * b.L * density more / 6 * ∑ j ∈ Finset.range 2, (2 * (V (b.ends 0) j * U (b.ends 0) j) + V (b.ends 0) j * U (b.ends 1) j +
        V (b.ends 1) j * U (b.ends 0) j + 2 * (V (b.ends 1) j * U (b.ends 1) j)) := by
  obtain ⟨hn, hL, more, rows, f, kl, ml, a1, ⟨f0, a2, rfl⟩, a3, a4, a5, a6⟩ := bar_call h hb hmi
  simp only [Uel.eleFun, Except.ok.injEq] at a2
  subst a2
  obtain ⟨k, mm, c1, c2, c3⟩ := truss_shape (swapped_ok.1 a3)
  obtain ⟨-, rfl⟩ := (truss_returns hs hL).1 c3
  have hp := placed_of_rows a5 a6 a4 c2
  refine ⟨hn, more, a1, fun V U => ?_⟩
  rw [hp.form, barM_form, bar_pick hn, bar_pick hn]
  simp only [Finset.sum_range_succ, Finset.sum_range_zero, Fin.sum_univ_two, Fin.val_zero, Fin.val_one, zero_add]
  ring

theorem resolves_more {n : ℕ} {is : List ℤ} {ps : List ℕ} (h : List.Forall₂ (Resolves n) is ps) (h0 : ∀ i ∈ is, 0 ≤ i) :
    List.Forall₂ (Resolves (n + 1)) is ps := by
  induction h with
  | nil => exact .nil
  | @cons i p _ _ h1 _ ih =>
    refine .cons ?_ (ih fun i hi => h0 i (by simp [hi]))
    have := h0 i (by simp)
    unfold Resolves at h1 ⊢
    omega

theorem member_more {fn : ℤ → Uel K → Prop} (h : IsMember fn mats nodes el m) (h0 : ∀ i ∈ el.drop 3, 0 ≤ i) (row : List K) :
    IsMember fn mats (nodes ++ [row]) el m := by
  obtain ⟨ty, mi, params, rows, f, kl, ml, a1, a2, a3, a5, a6, a7, a8, a9⟩ := h
  refine ⟨ty, mi, params, rows, f, kl, ml, a1, a2, a3, ?_, a6.imp fun p row hp => ?_, a7, a8, a9⟩
  · rw [List.length_append, List.length_singleton]
    exact resolves_more a5 h0
  · rw [List.getElem?_append_left (List.getElem?_eq_some_iff.1 hp).1]
    exact hp

theorem lists_same {α β : Type} {R R' : α → β → Prop} {l : List α} {xs ys : List β} (h : List.Forall₂ R l xs) (h' : List.Forall₂ R' l ys)
    (H : ∀ e ∈ l, ∀ x y, R e x → R' e y → y = x) : ys = xs := by
  induction h generalizing ys with
  | nil =>
    cases h'
    rfl
  | cons h1 _ ih =>
    cases h' with
    | cons g1 g2 => rw [H _ (by simp) _ _ h1 g1, ih g2 fun e he => H e (by simp [he])]

/-- The two parts are bars of the divided model. -/
theorem Spec.DividesBar.halves (h : DividesBar d d' b r) {eid : ℤ} {mi : ℕ}
    (hb : IsBar d.nodes d.mats [eid, 6, (mi : ℤ), (b.ends 0 : ℤ), (b.ends 1 : ℤ)] b) (eid1 eid2 : ℤ) :
    IsBar d'.nodes d.mats [eid1, 6, (mi : ℤ), (b.ends 0 : ℤ), (d.nodes.length : ℤ)] (b.first r d.nodes.length) ∧
    IsBar d'.nodes d.mats [eid2, 6, (mi : ℤ), (d.nodes.length : ℤ), (b.ends 1 : ℤ)] (b.second r d.nodes.length) := by
  obtain ⟨hr, hr'⟩ := h.inside
  obtain ⟨eid', mi', id, more, q1, q2, q3, hL⟩ := hb
  obtain ⟨idc, hn⟩ := h.node
  have hlt := fun a => (List.getElem?_eq_some_iff.1 (q3 a)).1
  simp only [List.cons.injEq] at q1
  obtain rfl : mi' = mi := by exact_mod_cast q1.2.2.1.symm
  constructor
  · refine ⟨eid1, mi', ![id 0, idc], more, rfl, q2, ?_, mul_pos hr hL.1, ?_⟩
    · rw [hn]
      refine Fin.forall_fin_two.2 ⟨?_, List.getElem?_concat_length⟩
      have := q3 0
      exact (List.getElem?_append_left (hlt 0)).trans this
    · unfold Bar.first firstPart
      simp
      linear_combination r ^ 2 * hL.2
  · refine ⟨eid2, mi', ![idc, id 1], more, rfl, q2, ?_, mul_pos (sub_pos.2 hr') hL.1, ?_⟩
    · rw [hn]
      refine Fin.forall_fin_two.2 ⟨List.getElem?_concat_length, ?_⟩
      have := q3 1
      exact (List.getElem?_append_left (hlt 1)).trans this
    · unfold Bar.second secondPart
      simp
      linear_combination (1 - r) ^ 2 * hL.2

/-- The elements of the two models: they differ in the bar only, and no other element sees the new node. -/
theorem Spec.DividesBar.parts (h : DividesBar d d' b r) {fn : ℤ → Uel K → Prop} (hfn : ∀ ty f f', fn ty f → fn ty f' → f = f')
    (hk : List.Forall₂ (IsMember fn d.mats d.nodes) d.elements ks) (hk' : List.Forall₂ (IsMember fn d'.mats d'.nodes) d'.elements ks') :
    ∃ k0 k1 m m1 m2, ∃ mi : ℕ, ks = k0 ++ m :: k1 ∧ ks' = k0 ++ m1 :: m2 :: k1 ∧ (∀ x ∈ k0 ++ k1, ∀ p ∈ x.nodes, p < d.nodes.length) ∧
      IsLength b.X b.L ∧ b.ends 0 < d.nodes.length ∧ b.ends 1 < d.nodes.length ∧
      (∃ el, IsMember fn d.mats d.nodes el m ∧ el[2]? = some (mi : ℤ) ∧ IsBar d.nodes d.mats el b) ∧
      (∃ el, IsMember fn d.mats d'.nodes el m1 ∧ el[2]? = some (mi : ℤ) ∧ IsBar d'.nodes d.mats el (b.first r d.nodes.length)) ∧
      ∃ el, IsMember fn d.mats d'.nodes el m2 ∧ el[2]? = some (mi : ℤ) ∧ IsBar d'.nodes d.mats el (b.second r d.nodes.length) := by
  obtain ⟨pre, post, eid, eid1, eid2, mi, e1, e2, hb, h0⟩ := h.bars
  rw [e1] at hk
  rw [e2, h.same.1] at hk'
  have hpost : ∀ e ∈ pre ++ post, ∀ x y, IsMember fn d.mats d.nodes e x → IsMember fn d.mats d'.nodes e y → y = x := by
    intro e he x y g g'
    obtain ⟨id, hn⟩ := h.node
    rw [hn] at g'
    exact isMember_unique_of hfn g' (member_more g (h0 e he) _)
  obtain ⟨x1, x2, rfl, a1, a2⟩ := forall₂_append_left hk
  obtain ⟨y1, y2, rfl, b1, b2⟩ := forall₂_append_left hk'
  cases a2 with
  | @cons _ m _ k1 c1 c2 =>
    cases b2 with
    | @cons _ m1 _ _ d1 d2 =>
      cases d2 with
      | @cons _ m2 _ k1' d2 d3 =>
        obtain rfl := lists_same a1 b1 fun e he => hpost e (by simp [he])
        obtain rfl := lists_same c2 d3 fun e he => hpost e (by simp [he])
        have hlt : ∀ a, b.ends a < d.nodes.length := by
          obtain ⟨_, _, id, _, _, _, b3, _⟩ := hb
          exact fun a => (List.getElem?_eq_some_iff.1 (b3 a)).1
        have hL : IsLength b.X b.L := by
          obtain ⟨_, _, _, _, _, _, _, hL⟩ := hb
          exact hL
        refine ⟨_, _, m, m1, m2, mi, rfl, rfl, ?_, hL, hlt 0, hlt 1, ⟨_, c1, rfl, hb⟩, ⟨_, d1, rfl, (h.halves hb _ 0).1⟩,
          ⟨_, d2, rfl, (h.halves hb 0 _).2⟩⟩
        intro x hx p hp
        rcases List.mem_append.1 hx with hx | hx
        · exact members_lt a1 x hx p hp
        · exact members_lt c2 x hx p hp

theorem routine_unique (ty : ℤ) (f f' : Uel K) (a : Routine sq ty f) (b : Routine sq ty f') : f = f' := by
  unfold Routine at a b
  rw [a, Except.ok.injEq] at b
  exact b

theorem massRoutine_unique (ty : ℤ) (f f' : Uel K) (a : MassRoutine sq ty f) (b : MassRoutine sq ty f') : f = f' := by
  obtain ⟨f0, a1, rfl⟩ := a
  obtain ⟨f1, b1, rfl⟩ := b
  rw [a1, Except.ok.injEq] at b1
  rw [b1]

/-- The springs of the divided model, in terms of the elongations of the parts. -/
theorem Spec.DividesBar.springs (hs : SqrtFn sq) (h : DividesBar d d' b r) (hk : Members sq d ks) (hk' : Members sq d' ks') :
    ∃ rest : (ℕ → ℕ → K) → (ℕ → ℕ → K) → K,
      (∀ V U, (ks.map fun m => m.form 2 V U).sum = rest V U + b.E * b.A / b.L * b.elongated V * b.elongated U) ∧
      (∀ V U, (ks'.map fun m => m.form 2 V U).sum = rest V U +
        b.E * b.A / b.L * ((b.alongAt V d.nodes.length - b.alongAt V (b.ends 0)) / b.L) *
          ((b.alongAt U d.nodes.length - b.alongAt U (b.ends 0)) / b.L) / r +
        b.E * b.A / b.L * ((b.alongAt V (b.ends 1) - b.alongAt V d.nodes.length) / b.L) *
          ((b.alongAt U (b.ends 1) - b.alongAt U d.nodes.length) / b.L) / (1 - r)) ∧
      (∀ V U, (∀ p < d.nodes.length, ∀ j < 2, V p j = 0) → rest V U = 0) ∧
      b.ends 0 < d.nodes.length ∧ b.ends 1 < d.nodes.length ∧ IsLength b.X b.L := by
  obtain ⟨k0, k1, m, m1, m2, mi, rfl, rfl, hlt, hL, l0, l1, ⟨_, c1, -, c2⟩, ⟨_, d1, -, d2⟩, _, e1, -, e2⟩ := h.parts routine_unique hk hk'
  obtain ⟨hr, hr'⟩ := h.inside
  have hr1 : 1 - r ≠ 0 := (sub_pos.2 hr').ne'
  have hne := hL.1.ne'
  refine ⟨fun V U => ((k0 ++ k1).map fun m => m.form 2 V U).sum, fun V U => ?_, fun V U => ?_, fun V U h0 => ?_, l0, l1, hL⟩
  · dsimp only
    rw [List.map_append, List.map_cons, List.sum_append, List.sum_cons, List.map_append, List.sum_append, (bar_spring hs c1 c2).2]
    ring
  · dsimp only
    rw [List.map_append, List.map_cons, List.map_cons, List.sum_append, List.sum_cons, List.sum_cons, List.map_append, List.sum_append,
      (bar_spring hs d1 d2).2, (bar_spring hs e1 e2).2, elongated_first hr.ne' hne, elongated_first hr.ne' hne, elongated_second hr1 hne,
      elongated_second hr1 hne]
    unfold Bar.first Bar.second
    field_simp
    ring
  · refine List.sum_eq_zero fun y hy => ?_
    obtain ⟨x, hx, rfl⟩ := List.mem_map.1 hy
    refine Finset.sum_eq_zero fun a ha => Finset.sum_eq_zero fun j hj => ?_
    rw [Finset.mem_range] at ha hj
    rw [List.getD_eq_getElem?_getD, List.getElem?_eq_getElem ha, Option.getD_some, h0 _ (hlt x hx _ (List.getElem_mem ha)) j hj, zero_mul]

/-- C126.  A node that moves along the bar as the point it is on is not felt: against any field, the divided model resists as the
undivided one. -/
theorem C126_forms (hs : SqrtFn sq) (h : DividesBar d d' b r) (hk : Members sq d ks) (hk' : Members sq d' ks')
    (hU : OnBar b r d.nodes.length U) (V : ℕ → ℕ → K) :
    (ks'.map fun m => m.form 2 V U).sum = (ks.map fun m => m.form 2 V U).sum := by
  obtain ⟨rest, e, e', -, -, -, hL⟩ := h.springs hs hk hk'
  obtain ⟨hr, hr'⟩ := h.inside
  have hr1 : 1 - r ≠ 0 := (sub_pos.2 hr').ne'
  have hne := hL.1.ne'
  have hr0 := hr.ne'
  unfold OnBar at hU
  have u1 : b.alongAt U d.nodes.length - b.alongAt U (b.ends 0) = r * (b.alongAt U (b.ends 1) - b.alongAt U (b.ends 0)) := by
    rw [hU]; ring
  have u2 : b.alongAt U (b.ends 1) - b.alongAt U d.nodes.length = (1 - r) * (b.alongAt U (b.ends 1) - b.alongAt U (b.ends 0)) := by
    rw [hU]; ring
  rw [e, e', u1, u2, elongated_eq, elongated_eq]
  field_simp
  ring

/-- C126.  And the forces at the nodes are those of the undivided bar; none acts on the new node. -/
theorem C126_balance (hs : SqrtFn sq) (h : DividesBar d d' b r) (hk : Members sq d ks) (hk' : Members sq d' ks')
    (hU : OnBar b r d.nodes.length U) : (∀ p, ∀ j < 2, internal 2 ks' U p j = internal 2 ks U p j) ∧
      ∀ j < 2, internal 2 ks' U d.nodes.length j = 0 := by
  have key : ∀ p, ∀ j < 2, internal 2 ks' U p j = internal 2 ks U p j := by
    intro p j hj
    rw [internal_unit ks' _ p hj, internal_unit ks _ p hj]
    exact C126_forms hs h hk hk' hU _
  refine ⟨key, fun j hj => (key _ j hj).trans ?_⟩
  refine List.sum_eq_zero fun y hy => ?_
  obtain ⟨m, hm, rfl⟩ := List.mem_map.1 hy
  refine Finset.sum_eq_zero fun a ha => if_neg fun hc => ?_
  have := members_lt hk m hm _ (List.mem_of_getElem? hc)
  omega

/-- The force on the new node: the difference of the tensions of the two parts, along the bar. -/
theorem Spec.DividesBar.tension (hs : SqrtFn sq) (h : DividesBar d d' b r) (hk : Members sq d ks) (hk' : Members sq d' ks') (U : ℕ → ℕ → K)
    (j : Fin 2) : internal 2 ks' U d.nodes.length j = b.E * b.A / (b.L * b.L * b.L) * (b.X 1 j - b.X 0 j) / (r * (1 - r)) *
      (b.alongAt U d.nodes.length - ((1 - r) * b.alongAt U (b.ends 0) + r * b.alongAt U (b.ends 1))) := by
  obtain ⟨rest, e, e', h0, l0, l1, hL⟩ := h.springs hs hk hk'
  obtain ⟨hr, hr'⟩ := h.inside
  have hr1 : 1 - r ≠ 0 := (sub_pos.2 hr').ne'
  have hne := hL.1.ne'
  have hr0 := hr.ne'
  rw [internal_unit ks' _ _ j.2, e', h0 _ _ fun p hp i _ => if_neg (by omega)]
  generalize hW : (fun q i => if q = d.nodes.length ∧ i = (j : ℕ) then (1 : K) else 0) = W
  have w0 : b.alongAt W (b.ends 0) = 0 := by
    unfold Bar.alongAt
    rw [← hW]
    simp only
    rw [if_neg (by omega), if_neg (by omega)]
    ring
  have w1 : b.alongAt W (b.ends 1) = 0 := by
    unfold Bar.alongAt
    rw [← hW]
    simp only
    rw [if_neg (by omega), if_neg (by omega)]
    ring
  have wc : b.alongAt W d.nodes.length = b.X 1 j - b.X 0 j := by
    unfold Bar.alongAt
    rw [← hW]
    fin_cases j <;> simp
  rw [w0, w1, wc]
  field_simp
  ring

/-- C126.  The new node is in equilibrium, in a direction the bar is not square to, exactly when it moves along the bar as the point of
the undivided bar that it is. -/
theorem C126_node (hs : SqrtFn sq) (h : DividesBar d d' b r) (hk : Members sq d ks) (hk' : Members sq d' ks') (hEA : b.E * b.A ≠ 0)
    {j : Fin 2} (hj : b.X 0 j ≠ b.X 1 j) (U : ℕ → ℕ → K) : internal 2 ks' U d.nodes.length j = 0 ↔ OnBar b r d.nodes.length U := by
  obtain ⟨-, -, -, -, -, -, hL⟩ := h.springs hs hk hk'
  obtain ⟨hr, hr'⟩ := h.inside
  refine ⟨fun h0 => ?_, fun hU => (C126_balance hs h hk hk' hU).2 j j.2⟩
  rw [h.tension hs hk hk'] at h0
  have h1 : b.E * b.A / (b.L * b.L * b.L) * (b.X 1 j - b.X 0 j) / (r * (1 - r)) ≠ 0 := by
    have h2 : b.X 1 j - b.X 0 j ≠ 0 := sub_ne_zero.2 hj.symm
    have := hL.1.ne'
    have hr1 : 1 - r ≠ 0 := (sub_pos.2 hr').ne'
    have hr0 := hr.ne'
    exact div_ne_zero (mul_ne_zero (div_ne_zero hEA (by positivity)) h2) (mul_ne_zero hr0 hr1)
  exact sub_eq_zero.1 ((mul_eq_zero.1 h0).resolve_left h1)

theorem Spec.DividesBar.free (h : DividesBar d d' b r) {p j : ℕ} (hp : p < d.nodes.length) : Free d'.cons 2 p j ↔ Free d.cons 2 p j := by
  obtain ⟨row, e⟩ := h.codes
  rw [e]
  unfold Free entry
  rw [List.getElem?_append_left (by rw [h.size]; exact hp)]

theorem Spec.DividesBar.count (h : DividesBar d d' b r) : d'.cons.length = d.nodes.length + 1 := by
  obtain ⟨row, e⟩ := h.codes
  rw [e, List.length_append, List.length_singleton, h.size]

/-- C126.  The equilibria of the divided model are those of the undivided one, with the new node following the bar: a node free in a
direction the bar is not square to, under loads that do not count nodes from the end. -/
theorem C126_equilibrium_iff (hs : SqrtFn sq) (h : DividesBar d d' b r) (hk : Members sq d ks) (hk' : Members sq d' ks')
    (hEA : b.E * b.A ≠ 0) {j : Fin 2} (hj : b.X 0 j ≠ b.X 1 j) (hf : Free d'.cons 2 d.nodes.length j)
    (hl : ∀ l ∈ d.loads, ∀ p, Names (d.nodes.length + 1) l p ↔ Names d.nodes.length l p) :
    Equilibrium d'.cons 2 d'.loads ks' U ↔ Equilibrium d.cons 2 d.loads ks U ∧ OnBar b r d.nodes.length U ∧
      ∀ i < 2, ¬ Free d'.cons 2 d.nodes.length i → U d.nodes.length i = 0 := by
  have hcount := h.count
  have hnone : ∀ l ∈ d.loads, ¬ Names d.nodes.length l d.nodes.length := fun l _ ⟨x, z, _, hz, _⟩ => lt_irrefl _ hz.1
  constructor
  · intro he
    have h0 := he.2 _ _ hf
    rw [hcount, h.same.2, isLoad_inserted hl] at h0
    have hz : internal 2 ks' U d.nodes.length j = 0 := by
      rcases h0 with ⟨-, h0⟩ | ⟨pre, l, post, e, hn, -⟩
      · exact h0
      · exact absurd hn (hnone l (by rw [e]; simp))
    have hU := (C126_node hs h hk hk' hEA hj U).1 hz
    refine ⟨⟨fun p i hp hi hnf => ?_, fun p i hfp => ?_⟩, hU, fun i hi hnf => he.1 _ i (by omega) hi hnf⟩
    · rw [h.size] at hp
      exact he.1 p i (by omega) hi fun hf' => hnf ((h.free hp).1 hf')
    · have hp := free_lt hfp
      rw [h.size] at hp ⊢
      have := he.2 p i ((h.free hp).2 hfp)
      rw [hcount, h.same.2, isLoad_inserted hl, (C126_balance hs h hk hk' hU).1 p i hfp.1] at this
      exact this
  · rintro ⟨he, hU, hheld⟩
    refine ⟨fun p i hp hi hnf => ?_, fun p i hfp => ?_⟩
    · rw [hcount] at hp
      by_cases hpc : p = d.nodes.length
      · rw [hpc] at hnf ⊢
        exact hheld i hi hnf
      · have hp : p < d.nodes.length := by omega
        exact he.1 p i (by rw [h.size]; exact hp) hi fun hf' => hnf ((h.free hp).2 hf')
    · have hp := free_lt hfp
      rw [hcount, h.same.2, isLoad_inserted hl]
      by_cases hpc : p = d.nodes.length
      · rw [hpc, (C126_balance hs h hk hk' hU).2 i hfp.1]
        exact .inl ⟨hnone, rfl⟩
      · have hp : p < d.nodes.length := by omega
        rw [(C126_balance hs h hk hk' hU).1 p i hfp.1, ← h.size]
        exact he.2 p i ((h.free hp).1 hfp)

/-- C126.  A node whose elements are all bars square to one direction can be moved in that direction without any force: if the supports
allow it, the model is not stable and its matrix is singular. -/
theorem C126_mechanism (hs : SqrtFn sq) (hk : Members sq d ks) {c : ℕ} (hc : c < d.cons.length) {t : ℕ → K} {j : ℕ} (hj : j < 2) (ht : t j ≠ 0)
    (hfree : ∀ j < 2, t j ≠ 0 → Free d.cons 2 c j)
    (hbars : ∀ el ∈ d.elements, (∃ i ∈ el.drop 3, Resolves d.nodes.length i c) → ∃ b, IsBar d.nodes d.mats el b ∧
      (b.X 1 0 - b.X 0 0) * t 0 + (b.X 1 1 - b.X 0 1) * t 1 = 0) :
    ¬ Stable d.cons 2 ks ∧ ∀ {op bc : List (List ℤ)} {neq : ℕ} {Kg Mg : Matrix (Fin neq) (Fin neq) K}, WellFormed d →
      dme d.cons d.elements = .ok (op, bc, neq) → assembler (Uel.eleFun sq) d.elements d.mats d.nodes neq op = .ok (Kg, Mg) → Kg.det = 0 := by
  have hns : ¬ Stable d.cons 2 ks := by
    intro hst
    refine ht ?_
    have := hst (fun p j => if p = c then t j else 0) (fun p i hp hi hnf => ?_) (fun p i hfp => ?_) c j hc hj
    · rw [if_pos rfl] at this
      exact this
    · dsimp only
      by_cases hpc : p = c
      · rw [if_pos hpc]
        by_contra h0
        exact hnf (hpc ▸ hfree i hi h0)
      · rw [if_neg hpc]
    · rw [internal_unit ks _ _ hfp.1]
      refine List.sum_eq_zero fun y hy => ?_
      obtain ⟨m, hm, rfl⟩ := List.mem_map.1 hy
      obtain ⟨el, hel, g⟩ := forall₂_mem hk hm
      have g5 : List.Forall₂ (Resolves d.nodes.length) (el.drop 3) m.nodes := by
        obtain ⟨_, _, _, _, _, _, _, -, -, -, a5, -⟩ := g
        exact a5
      by_cases hcm : c ∈ m.nodes
      · obtain ⟨i, hi, hres⟩ := forall₂_mem g5 hcm
        obtain ⟨b, hb, hsq⟩ := hbars el hel ⟨i, hi, hres⟩
        rw [(bar_spring hs g hb).2]
        have : b.elongated (fun p j => if p = c then t j else 0) = 0 := by
          rw [elongated_eq]
          have z : ∀ p, b.alongAt (fun p j => if p = c then t j else 0) p = 0 := by
            intro p
            unfold Bar.alongAt
            dsimp only
            by_cases hpc : p = c
            · rw [if_pos hpc, if_pos hpc]
              exact hsq
            · rw [if_neg hpc, if_neg hpc]
              ring
          rw [z, z]
          simp
        rw [this, mul_zero]
      · refine Finset.sum_eq_zero fun a _ => Finset.sum_eq_zero fun k _ => ?_
        have : m.force 2 (fun p j => if p = c then t j else 0) a k = 0 := by
          refine Finset.sum_eq_zero fun e he => Finset.sum_eq_zero fun l _ => ?_
          rw [Finset.mem_range] at he
          dsimp only
          rw [List.getD_eq_getElem?_getD, List.getElem?_eq_getElem he, Option.getD_some, if_neg (fun h0 : m.nodes[e] = c => hcm (h0 ▸ List.getElem_mem he)), mul_zero]
        rw [this, mul_zero]
  refine ⟨hns, fun hwf h1 h2 => ?_⟩
  by_contra hdet
  obtain ⟨ks', s⟩ := auto_setup h1 h2 hwf.codes hwf.width hwf.size
  obtain rfl := members_unique hk s.mem
  exact hns (stable_of_det_ne_zero s hdet)

theorem internal_local {n nd : ℕ} {ms : List (Member K)} (hn : ∀ m ∈ ms, ∀ p ∈ m.nodes, p < n) {U W : ℕ → ℕ → K}
    (h : ∀ p < n, ∀ j < nd, U p j = W p j) (p j : ℕ) : internal nd ms U p j = internal nd ms W p j := by
  unfold internal
  congr 1
  refine List.map_congr_left fun m hm => Finset.sum_congr rfl fun a _ => ?_
  have : m.force nd U a j = m.force nd W a j := by
    refine Finset.sum_congr rfl fun e he => Finset.sum_congr rfl fun l hl => ?_
    rw [Finset.mem_range] at he hl
    rw [List.getD_eq_getElem?_getD, List.getElem?_eq_getElem he, Option.getD_some, h _ (hn m hm _ (List.getElem_mem he)) l hl]
  rw [this]

/-- C126.  With the new node free in a direction the bar is not square to, the divided model is stable exactly when the undivided one is and
the new node is held in the other direction. -/
theorem C126_stable_iff (hs : SqrtFn sq) (h : DividesBar d d' b r) (hk : Members sq d ks) (hk' : Members sq d' ks')
    (hEA : b.E * b.A ≠ 0) {j : Fin 2} (hj : b.X 0 j ≠ b.X 1 j) (hf : Free d'.cons 2 d.nodes.length j) :
    Stable d'.cons 2 ks' ↔ Stable d.cons 2 ks ∧ ∀ i : Fin 2, i ≠ j → ¬ Free d'.cons 2 d.nodes.length i := by
  have hcount := h.count
  have hlt := members_lt hk
  obtain ⟨-, -, -, -, l0, l1, hL⟩ := h.springs hs hk hk'
  have htj : b.X 1 j - b.X 0 j ≠ 0 := sub_ne_zero.2 hj.symm
  constructor
  · intro hst
    refine ⟨fun U hU h0 p i hp hi => ?_, fun i hij hfi => ?_⟩
    · rw [h.size] at hp
      set x := ((1 - r) * b.alongAt U (b.ends 0) + r * b.alongAt U (b.ends 1)) / (b.X 1 j - b.X 0 j) with hx
      set U' : ℕ → ℕ → K := fun p i => if p = d.nodes.length then (if i = j then x else 0) else U p i with hU'
      have hsame : ∀ p < d.nodes.length, ∀ i < 2, U' p i = U p i := fun p hp i _ => if_neg (by omega)
      have hon : OnBar b r d.nodes.length U' := by
        unfold OnBar
        have e : ∀ p < d.nodes.length, b.alongAt U' p = b.alongAt U p := by
          intro p hp
          unfold Bar.alongAt
          rw [hsame p hp 0 (by omega), hsame p hp 1 (by omega)]
        have ec : b.alongAt U' d.nodes.length = (b.X 1 j - b.X 0 j) * x := by
          unfold Bar.alongAt
          rw [hU']
          fin_cases j <;> simp
        rw [e _ l0, e _ l1, ec, hx, mul_div_cancel₀ _ htj]
      rw [← hsame p hp i hi]
      refine hst U' (fun p i hp hi hnf => ?_) (fun p i hfp => ?_) p i (by omega) hi
      · by_cases hpc : p = d.nodes.length
        · rw [hU']
          dsimp only
          rw [if_pos hpc, if_neg]
          rintro rfl
          exact hnf (hpc ▸ hf)
        · have hp : p < d.nodes.length := by omega
          rw [hsame p hp i hi]
          exact hU p i (by rw [h.size]; exact hp) hi fun hf' => hnf ((h.free hp).2 hf')
      · by_cases hpc : p = d.nodes.length
        · rw [hpc]
          exact (C126_balance hs h hk hk' hon).2 i hfp.1
        · have hp : p < d.nodes.length := by
            have := free_lt hfp
            omega
          rw [(C126_balance hs h hk hk' hon).1 p i hfp.1, internal_local hlt hsame]
          exact h0 p i ((h.free hp).1 hfp)
    · set W : ℕ → ℕ → K := fun p k => if p = d.nodes.length then (if k = 0 then -(b.X 1 1 - b.X 0 1) else b.X 1 0 - b.X 0 0) else 0 with hW
      have hz : ∀ p < d.nodes.length, ∀ k < 2, W p k = (fun _ _ => 0 : ℕ → ℕ → K) p k := fun p hp k _ => if_neg (by omega)
      have hon : OnBar b r d.nodes.length W := by
        unfold OnBar
        have e : ∀ p < d.nodes.length, b.alongAt W p = 0 := by
          intro p hp
          unfold Bar.alongAt
          rw [hz p hp 0 (by omega), hz p hp 1 (by omega)]
          ring
        rw [e _ l0, e _ l1]
        unfold Bar.alongAt
        rw [hW]
        simp
        ring
      have hall : ∀ k < 2, Free d'.cons 2 d.nodes.length k := by
        intro k hk
        have hi := i.2
        have hjj := j.2
        have : (i : ℕ) ≠ j := fun e => hij (Fin.ext e)
        rcases (by omega : k = i ∨ k = j) with rfl | rfl
        · exact hfi
        · exact hf
      have := hst W (fun p k hp hk hnf => ?_) (fun p k hfp => ?_) d.nodes.length i (by omega) i.2
      · rw [hW] at this
        fin_cases i <;> fin_cases j <;> simp at this hij htj <;>
          first | exact htj (by linear_combination this) | exact htj (by linear_combination -this)
      · by_cases hpc : p = d.nodes.length
        · exact absurd (hpc ▸ hall k hk) hnf
        · exact if_neg hpc
      · rw [(C126_balance hs h hk hk' hon).1 p k hfp.1, internal_local hlt hz]
        unfold internal Member.force
        simp
  · rintro ⟨hst, hheld⟩ U hU h0
    have hon := (C126_node hs h hk hk' hEA hj U).1 (h0 _ _ hf)
    have hz := hst U (fun p i hp hi hnf => hU p i (by rw [h.size] at hp; omega) hi fun hf' => hnf ((h.free (by rw [← h.size]; exact hp)).1 hf'))
      fun p i hfp => by
        have hp := free_lt hfp
        rw [h.size] at hp
        rw [← (C126_balance hs h hk hk' hon).1 p i hfp.1]
        exact h0 p i ((h.free hp).2 hfp)
    rw [h.size] at hz
    intro p i hp hi
    by_cases hpc : p = d.nodes.length
    · rw [hpc]
      have hc : ∀ i : Fin 2, i ≠ j → U d.nodes.length i = 0 := fun i hij => hU _ i (by omega) i.2 (hheld i hij)
      by_cases hij : (⟨i, hi⟩ : Fin 2) = j
      · unfold OnBar Bar.alongAt at hon
        rw [hz _ 0 l0 (by omega), hz _ 1 l0 (by omega), hz _ 0 l1 (by omega), hz _ 1 l1 (by omega)] at hon
        subst hij
        have h2 : (b.X 1 ⟨i, hi⟩ - b.X 0 ⟨i, hi⟩) * U d.nodes.length i = 0 := by
          rcases (by omega : i = 0 ∨ i = 1) with rfl | rfl
          · have := hc 1 (by simp)
            simp only [Fin.val_one] at this
            rw [this] at hon
            simpa using hon
          · have := hc 0 (by simp)
            simp only [Fin.val_zero] at this
            rw [this] at hon
            simpa using hon
        exact (mul_eq_zero.1 h2).resolve_left htj
      · exact hc ⟨i, hi⟩ hij
    · exact hz p i (by omega) hi

/-- C126.  What `solids_auto` returns for the divided model is what it returns for the undivided one, and one more row for the node on the bar,
which moves along the bar as the point that it is. -/
theorem C126_run (hs : SqrtFn sq) (h : DividesBar d d' b r) (hk : Members sq d ks) (hk' : Members sq d' ks') (hwf : WellFormed d)
    (hwf' : WellFormed d') (hEA : b.E * b.A ≠ 0) {j : Fin 2} (hj : b.X 0 j ≠ b.X 1 j) (hf : Free d'.cons 2 d.nodes.length j)
    (hst : Stable d'.cons 2 ks') (hl : ∀ l ∈ d.loads, ∀ p, Names (d.nodes.length + 1) l p ↔ Names d.nodes.length l p)
    {sp de : Sol.Solver K} (hsp : SolverOk sp) {plot plot' : Bool} {res res' : Gui.Result K}
    (hrun : Gui.solidsAuto sq sp de d plot = .ok res) (hrun' : Gui.solidsAuto sq sp de d' plot' = .ok res') :
    ∃ x y, res'.disp = res.disp ++ [[x, y]] ∧ OnBar b r d.nodes.length (fieldOf res'.disp) := by
  have hst0 := ((C126_stable_iff hs h hk hk' hEA hj hf).1 hst).1
  obtain ⟨⟨n0, w0⟩, -⟩ := C18_nodal_equilibrium hwf hsp hk hst0 hrun
  obtain ⟨⟨n1, w1⟩, q1⟩ := C18_nodal_equilibrium hwf' hsp hk' hst hrun'
  obtain ⟨q0, hon, -⟩ := (C126_equilibrium_iff hs h hk hk' hEA hj hf hl).1 q1
  have u0 := C19_only_equilibrium hwf hsp hk hst0 hrun q0
  have u1 := C19_only_equilibrium hwf' hsp hk' hst hrun' q1
  have hn' : d'.nodes.length = d.nodes.length + 1 := by rw [← hwf'.size, h.count]
  rw [hn'] at n1 u1
  obtain ⟨row, hrow⟩ : ∃ row, res'.disp[d.nodes.length]? = some row := ⟨_, List.getElem?_eq_getElem (by omega)⟩
  have hw := w1 row (List.mem_of_getElem? hrow)
  obtain ⟨x, y, rfl⟩ : ∃ x y, row = [x, y] := by
    match row, hw with
    | [x, y], _ => exact ⟨x, y, rfl⟩
  refine ⟨x, y, ?_, hon⟩
  refine List.ext_getElem? fun p => ?_
  by_cases hp : p < d.nodes.length
  · rw [List.getElem?_append_left (by omega), List.getElem?_eq_getElem (by omega), List.getElem?_eq_getElem (by omega), Option.some.injEq]
    have hw0 := w0 _ (List.getElem_mem (by omega : p < res.disp.length))
    have hw1 := w1 _ (List.getElem_mem (by omega : p < res'.disp.length))
    refine List.ext_getElem? fun i => ?_
    by_cases hi : i < 2
    · have e0 := u0 p i hp hi
      have e1 := u1 p i (by omega) hi
      rw [← e0] at e1
      unfold entry at e1
      rw [List.getElem?_eq_getElem (by omega), List.getElem?_eq_getElem (by omega)] at e1
      exact e1
    · rw [List.getElem?_eq_none (by omega), List.getElem?_eq_none (by omega)]
  · by_cases hpc : p = d.nodes.length
    · rw [hpc, hrow, ← n0]
      exact List.getElem?_concat_length.symm
    · rw [List.getElem?_eq_none (by omega), List.getElem?_eq_none (by rw [List.length_append, List.length_singleton]; omega)]

theorem row_of_shape {t : Table K} (h2 : ∀ r ∈ t, r.length = 2) {p : ℕ} (hp : p < t.length) :
    t[p]? = some [fieldOf t p 0, fieldOf t p 1] := by
  have hw := h2 _ (List.getElem_mem hp)
  unfold fieldOf entry
  rw [List.getElem?_eq_getElem hp, Option.bind_some, Option.bind_some, Option.some.injEq]
  generalize t[p] = row at hw
  match row, hw with
  | [x, y], _ => rfl

/-- The stress of one bar. -/
theorem bar_stress (hs : SqrtFn sq) {disp : Table K} (hb : IsBar nodes mats el b) (hd : disp.length = nodes.length)
    (hd2 : ∀ r ∈ disp, r.length = 2) : Post.stressTruss1 sq nodes mats disp el = pyDiv (b.A * b.E * b.elongated (fieldOf disp)) (b.L * b.A) := by
  obtain ⟨eid, mi, id, more, rfl, b2, b3, hL⟩ := hb
  have hm : BarMember nodes [[eid, 6, (mi : ℤ), (b.ends 0 : ℤ), (b.ends 1 : ℤ)]] mats disp 0 b.X b.E b.A
      (fun q => fieldOf disp (b.ends q.1) q.2) := by
    refine ⟨_, mi, b.ends, id, fun _ => [], more, rfl, rfl, rfl, rfl, b2, fun a => ⟨b3 a, ?_⟩⟩
    rw [row_of_shape hd2 (by rw [hd]; exact (List.getElem?_eq_some_iff.1 (b3 a)).1)]
    rfl
  obtain ⟨el, h1, h2⟩ := stress_one hs hm hL
  simp only [List.getElem?_cons_zero, Option.some.injEq] at h1
  subst h1
  exact h2

theorem pyGet_more {α : Type} {l : List α} {i : ℤ} {x y : α} (hi : 0 ≤ i) (h : pyGet l i = .ok x) : pyGet (l ++ [y]) i = .ok x := by
  rw [pyGet_nonneg hi] at h ⊢
  rw [List.getElem?_append_left (List.getElem?_eq_some_iff.1 h).1]
  exact h

theorem stress_more {disp : Table K} {s : K} (h : Post.stressTruss1 sq nodes mats disp el = .ok s) (h0 : ∀ i ∈ el.drop 3, 0 ≤ i)
    (row row' : List K) : Post.stressTruss1 sq (nodes ++ [row]) mats (disp ++ [row']) el = .ok s := by
  unfold Post.stressTruss1 at h ⊢
  simp only [bind_ok] at h ⊢
  obtain ⟨i, a1, k, a2, x, a3, y, a4, mi, a5, mrow, a6, km, a7, ua, a8, ub, a9, rest⟩ := h
  have hi : 0 ≤ i := by
    have := (pyGet_nat (n := 3)).1 a1
    exact h0 i (List.mem_of_getElem? (i := 0) (by rw [List.getElem?_drop]; exact this))
  have hk : 0 ≤ k := by
    have := (pyGet_nat (n := 4)).1 a2
    exact h0 k (List.mem_of_getElem? (i := 1) (by rw [List.getElem?_drop]; exact this))
  exact ⟨i, a1, k, a2, x, pyGet_more hi a3, y, pyGet_more hk a4, mi, a5, mrow, a6, km, a7, ua, pyGet_more hi a8, ub, pyGet_more hk a9, rest⟩

theorem lists_map {α β : Type} {R R' : α → β → Prop} {l : List α} {xs : List β} (h : List.Forall₂ R l xs)
    (H : ∀ e ∈ l, ∀ x, R e x → R' e x) : List.Forall₂ R' l xs := by
  induction h with
  | nil => exact .nil
  | cons h1 _ ih => exact .cons (H _ (by simp) _ h1) (ih fun e he => H e (by simp [he]))

/-- C126.  `stress_truss` recovers in both parts the stress of the undivided bar, and in all other elements the stresses it recovers without
the new node. -/
theorem C126_stress (hs : SqrtFn sq) (h : DividesBar d d' b r) {disp : Table K} {x y : K} (hd : disp.length = d.nodes.length)
    (hd2 : ∀ r ∈ disp, r.length = 2) (hon : OnBar b r d.nodes.length (fieldOf (disp ++ [[x, y]]))) {σ : List K}
    (hσ : Post.stressTruss sq d.nodes d.elements d.mats disp = .ok σ) : ∃ σ₀ s σ₁, σ = σ₀ ++ s :: σ₁ ∧
      s = b.E * b.elongated (fieldOf disp) / b.L ∧
      Post.stressTruss sq d'.nodes d'.elements d'.mats (disp ++ [[x, y]]) = .ok (σ₀ ++ s :: s :: σ₁) := by
  obtain ⟨pre, post, eid, eid1, eid2, mi, e1, e2, hb, h0⟩ := h.bars
  obtain ⟨idc, hn⟩ := h.node
  obtain ⟨hr, hr'⟩ := h.inside
  have hr1 : 1 - r ≠ 0 := (sub_pos.2 hr').ne'
  have hr0 := hr.ne'
  unfold Post.stressTruss at hσ ⊢
  rw [e1] at hσ
  rw [e2, h.same.1]
  rw [mapM_ok] at hσ
  obtain ⟨σ₀, σ₂, rfl, a1, a2⟩ := forall₂_append_left hσ
  cases a2 with
  | @cons _ s _ σ₁ c1 c2 =>
    have hL : IsLength b.X b.L := by
      obtain ⟨_, _, _, _, _, _, _, hL⟩ := hb
      exact hL
    have hlt : ∀ a, b.ends a < d.nodes.length := by
      obtain ⟨_, _, id, _, _, _, b3, _⟩ := hb
      exact fun a => (List.getElem?_eq_some_iff.1 (b3 a)).1
    have hne := hL.1.ne'
    rw [bar_stress hs hb hd hd2] at c1
    unfold pyDiv at c1
    split at c1
    · simp at c1
    · next hLA =>
      have hA : b.A ≠ 0 := fun h0 => hLA (by rw [h0, mul_zero])
      simp only [Except.ok.injEq] at c1
      have hs' : s = b.E * b.elongated (fieldOf disp) / b.L := by
        rw [← c1]
        field_simp
      have hsame : ∀ a : Fin 2, b.alongAt (fieldOf (disp ++ [[x, y]])) (b.ends a) = b.alongAt (fieldOf disp) (b.ends a) := by
        intro a
        unfold Bar.alongAt fieldOf entry
        rw [List.getElem?_append_left (by rw [hd]; exact hlt a)]
      have hd' : (disp ++ [[x, y]]).length = d'.nodes.length := by rw [hn]; simp [hd]
      have hd2' : ∀ r ∈ disp ++ [[x, y]], r.length = 2 := by
        intro row hrow
        rcases List.mem_append.1 hrow with h' | h'
        · exact hd2 row h'
        · rw [List.mem_singleton.1 h']
          rfl
      unfold OnBar at hon
      rw [hsame 0, hsame 1] at hon
      obtain ⟨f1, f2⟩ := h.halves hb eid1 eid2
      refine ⟨σ₀, s, σ₁, rfl, hs', ?_⟩
      rw [mapM_ok]
      refine List.rel_append (lists_map a1 fun e he s hs' => ?_) (.cons ?_ (.cons ?_ (lists_map c2 fun e he s hs' => ?_)))
      · rw [hn]
        exact stress_more hs' (h0 e (by simp [he])) _ _
      · rw [bar_stress hs f1 hd' hd2', elongated_first hr0 hne, hsame 0, hon]
        unfold pyDiv
        rw [if_neg (by simp only [Bar.first]; exact mul_ne_zero (mul_ne_zero hr0 hne) hA), Except.ok.injEq, hs', elongated_eq]
        simp only [Bar.first]
        field_simp
        ring
      · rw [bar_stress hs f2 hd' hd2', elongated_second hr1 hne, hsame 1, hon]
        unfold pyDiv
        rw [if_neg (by simp only [Bar.second]; exact mul_ne_zero (mul_ne_zero hr1 hne) hA), Except.ok.injEq, hs', elongated_eq]
        simp only [Bar.second]
        field_simp
        ring
      · rw [hn]
        exact stress_more hs' (h0 e (by simp [he])) _ _

/-- The nodal field with the new node on the straight line between the displaced ends. -/
def Spec.lineField (b : Bar K) (r : K) (c : ℕ) (U : ℕ → ℕ → K) : ℕ → ℕ → K := fun p j =>
  if p = c then (1 - r) * U (b.ends 0) j + r * U (b.ends 1) j else U p j

theorem lineField_away {c p : ℕ} (hp : p ≠ c) (j : ℕ) : lineField b r c U p j = U p j := if_neg hp

theorem lineField_at (c j : ℕ) : lineField b r c U c j = (1 - r) * U (b.ends 0) j + r * U (b.ends 1) j := if_pos rfl

theorem form_local {n nd : ℕ} {m : Member K} (hn : ∀ p ∈ m.nodes, p < n) {V U V' U' : ℕ → ℕ → K} (hV : ∀ p < n, ∀ j < nd, V' p j = V p j)
    (hU : ∀ p < n, ∀ j < nd, U' p j = U p j) : m.form nd V' U' = m.form nd V U := by
  refine Finset.sum_congr rfl fun a ha => Finset.sum_congr rfl fun j hj => ?_
  rw [Finset.mem_range] at ha hj
  rw [List.getD_eq_getElem?_getD, List.getElem?_eq_getElem ha, Option.getD_some, hV _ (hn _ (List.getElem_mem ha)) j hj]
  congr 1
  refine Finset.sum_congr rfl fun e he => Finset.sum_congr rfl fun l hl => ?_
  rw [Finset.mem_range] at he hl
  rw [List.getD_eq_getElem?_getD, List.getElem?_eq_getElem he, Option.getD_some, hU _ (hn _ (List.getElem_mem he)) l hl]

/-- C126.  With the new node on the line between the displaced ends, the energies of springs and masses are those of the undivided model. -/
theorem C126_energies (hs : SqrtFn sq) (h : DividesBar d d' b r) (hk : Members sq d ks) (hk' : Members sq d' ks') (hm : Masses sq d ms)
    (hm' : Masses sq d' ms') (V U : ℕ → ℕ → K) :
    (ks'.map fun m => m.form 2 (lineField b r d.nodes.length V) (lineField b r d.nodes.length U)).sum = (ks.map fun m => m.form 2 V U).sum ∧
    (ms'.map fun m => m.form 2 (lineField b r d.nodes.length V) (lineField b r d.nodes.length U)).sum = (ms.map fun m => m.form 2 V U).sum := by
  have haway : ∀ W : ℕ → ℕ → K, ∀ p < d.nodes.length, ∀ j < 2, lineField b r d.nodes.length W p j = W p j :=
    fun W p hp j _ => lineField_away (by omega) j
  obtain ⟨k0, k1, m, m1, m2, mi, rfl, rfl, hlt, hL, l0, l1, ⟨_, c1, c3, c2⟩, ⟨_, d1, d3, d2⟩, _, e1, e3, e2⟩ := h.parts massRoutine_unique hm hm'
  obtain ⟨hr, hr'⟩ := h.inside
  constructor
  · rw [C126_forms hs h hk hk']
    · congr 1
      refine List.map_congr_left fun x hx => form_local (members_lt hk x hx) (haway V) (haway U)
    · unfold OnBar Bar.alongAt
      rw [lineField_at, lineField_at, haway U _ l0 _ (by omega), haway U _ l0 _ (by omega), haway U _ l1 _ (by omega), haway U _ l1 _ (by omega)]
      ring
  · obtain ⟨-, more, q1, f0⟩ := bar_inertia hs c1 c2 c3
    obtain ⟨-, more1, q2, f1⟩ := bar_inertia hs d1 d2 d3
    obtain ⟨-, more2, q3, f2⟩ := bar_inertia hs e1 e2 e3
    have hmore : more1 = more ∧ more2 = more := by
      rw [q1] at q2 q3
      simp only [Bar.first, Bar.second, Option.some.injEq, List.cons.injEq, true_and] at q2 q3
      exact ⟨q2.symm, q3.symm⟩
    obtain ⟨rfl, rfl⟩ := hmore
    have a0 : b.ends 0 ≠ d.nodes.length := by omega
    have a1 : b.ends 1 ≠ d.nodes.length := by omega
    have hloc : ∀ k ∈ [k0, k1], (k.map fun m => m.form 2 (lineField b r d.nodes.length V) (lineField b r d.nodes.length U)).sum =
        (k.map fun m => m.form 2 V U).sum := by
      intro k hk
      congr 1
      refine List.map_congr_left fun x hx => form_local (hlt x ?_) (haway V) (haway U)
      simp only [List.mem_cons, List.not_mem_nil, or_false] at hk
      rcases hk with rfl | rfl <;> simp [hx]
    rw [List.map_append, List.map_append, List.map_cons, List.map_cons, List.map_cons, List.sum_append, List.sum_append, List.sum_cons,
      List.sum_cons, List.sum_cons, f0, f1, f2, hloc k0 (by simp), hloc k1 (by simp)]
    simp only [Bar.first, Bar.second, Matrix.cons_val_zero, Matrix.cons_val_one, Finset.sum_range_succ, Finset.sum_range_zero, zero_add,
      lineField_away a0, lineField_away a1, lineField_at]
    ring

theorem line_sum {c n : ℕ} (x : Fin n → K) (u : Fin n → ℕ → ℕ → K) :
    lineField b r c (fun p j => ∑ i, x i * u i p j) = fun p j => ∑ i, x i * lineField b r c (u i) p j := by
  funext p j
  unfold lineField
  by_cases hp : p = c
  · simp only [if_pos hp]
    rw [Finset.mul_sum, Finset.mul_sum, ← Finset.sum_add_distrib]
    exact Finset.sum_congr rfl fun i _ => by ring
  · simp only [if_neg hp]

end

section
variable {sq : ℝ → ℝ} {d d' : Gui.Data ℝ} {b : Bar ℝ} {r : ℝ} {ks ks' ms ms' : List (Member ℝ)} {neq neq' : ℕ}
  {Kg Mg : Matrix (Fin neq) (Fin neq) ℝ} {Kg' Mg' : Matrix (Fin neq') (Fin neq') ℝ} {w : Fin neq → ℝ} {φ : Fin neq → Fin neq → ℝ}
  {w' : Fin neq' → ℝ} {φ' : Fin neq' → Fin neq' → ℝ}

/-- C126.  Dividing a bar raises no natural frequency, if the new node is not held where the line between the ends can move. -/
theorem C126_frequencies (hs : SqrtFn sq) (h : DividesBar d d' b r) (hv : Vibrating sq d ks ms Kg Mg) (hv' : Vibrating sq d' ks' ms' Kg' Mg')
    (hadm : ∀ u, Admissible d.cons 2 u → Admissible d'.cons 2 (lineField b r d.nodes.length u)) (hm : Modes Kg Mg w φ)
    (hm' : Modes Kg' Mg' w' φ') (k : Fin neq) (k' : Fin neq') (hkk : (k : ℕ) = k') : w' k' ≤ w k := by
  refine frequencies_le hs hv' hm' hv hm k' k hkk.symm fun t n => ?_
  rintro ⟨u, h1, h2, h3⟩
  refine ⟨fun i => lineField b r d.nodes.length (u i), fun i => hadm _ (h1 i), fun x hx => h2 x fun p hp j hj => ?_, fun x => ?_⟩
  · have hcount := h.count
    rw [h.size] at hp
    have := hx p (by omega) j hj
    dsimp only at this
    rw [← this]
    exact Finset.sum_congr rfl fun i _ => by rw [lineField_away (by omega)]
  · rw [← line_sum]
    have := C126_energies hs h hv.springs hv'.springs hv.masses hv'.masses
    unfold energyOf
    rw [(this _ _).1, (this _ _).2]
    exact h3 x

end

/-- The truss of C18 with its vertical bar divided in the middle by a node with the codes `row`. -/
noncomputable def splitTruss (row : List ℝ) : Gui.Data ℝ where
  nodes := [[0, 0, 0], [1, 4, 0], [2, 4, 3], [3, 4, 3 / 2]]
  cons := [[-1, -1], [-1, -1], [0, 0], row]
  elements := [[0, 6, 0, 0, 2], [1, 6, 1, 1, 3], [2, 6, 1, 3, 2]]
  mats := [[125, 1], [9, 1]]
  loads := [[2, 4, -6]]

/-- The bar that is divided. -/
noncomputable def verticalBar : Bar ℝ := ⟨![1, 2], !![4, 0; 4, 3], 9, 1, 3⟩

theorem splitTruss_divides (row : List ℝ) : DividesBar trussR (splitTruss row) verticalBar (1 / 2) where
  inside := by norm_num
  size := rfl
  node := ⟨3, by simp [trussR, splitTruss, verticalBar]; norm_num⟩
  codes := ⟨row, rfl⟩
  same := ⟨rfl, rfl⟩
  bars := ⟨[[0, 6, 0, 0, 2]], [], 1, 1, 2, 1, rfl, rfl, ⟨1, 1, ![1, 2], [], rfl, rfl, by
    intro a; fin_cases a <;> simp [trussR, verticalBar], by constructor <;> norm_num [verticalBar]⟩, by simp⟩

theorem splitTruss_members (row : List ℝ) : ∃ ks, Members Real.sqrt (splitTruss row) ks := by
  refine truss_members sqrtFn_real (bars := [⟨![0, 2], !![0, 0; 4, 3], 125, 1, 5⟩, ⟨![1, 3], !![4, 0; 4, 3 / 2], 9, 1, 3 / 2⟩,
    ⟨![3, 2], !![4, 3 / 2; 4, 3], 9, 1, 3 / 2⟩]) ?_
  refine .cons ⟨0, 0, ![0, 2], [], rfl, rfl, ?_, ?_⟩ (.cons ⟨1, 1, ![1, 3], [], rfl, rfl, ?_, ?_⟩ (.cons ⟨2, 1, ![3, 2], [], rfl, rfl, ?_, ?_⟩ .nil))
  · intro a; fin_cases a <;> simp [splitTruss]
  · constructor <;> norm_num
  · intro a; fin_cases a <;> simp [splitTruss]
  · constructor <;> norm_num
  · intro a; fin_cases a <;> simp [splitTruss]
  · constructor <;> norm_num

/-- Case for C126: held across the bar, the new node leaves the truss stable; free, it makes it a mechanism. -/
example : (∃ ks, Members Real.sqrt (splitTruss [-1, 0]) ks ∧ Stable (splitTruss [-1, 0]).cons 2 ks) ∧
    ∃ ks, Members Real.sqrt (splitTruss [0, 0]) ks ∧ ¬ Stable (splitTruss [0, 0]).cons 2 ks := by
  obtain ⟨ks, hk⟩ := truss_members sqrtFn_real trussR_bars
  have hE : verticalBar.E * verticalBar.A ≠ 0 := by norm_num [verticalBar]
  have hj : verticalBar.X 0 1 ≠ verticalBar.X 1 1 := by norm_num [verticalBar]
  have key : ∀ x : ℝ, Free (splitTruss [x, 0]).cons 2 trussR.nodes.length (1 : Fin 2) := fun x =>
    ⟨by norm_num, 0, by simp [splitTruss, trussR, entry], by norm_num, by norm_num⟩
  constructor
  · obtain ⟨ks', hk'⟩ := splitTruss_members [-1, 0]
    refine ⟨ks', hk', (C126_stable_iff sqrtFn_real (splitTruss_divides _) hk hk' hE hj (key _)).2 ⟨trussR_stable hk, ?_⟩⟩
    rintro i hi ⟨-, x, hx, h1, h2⟩
    fin_cases i
    · simp [splitTruss, trussR, entry] at hx
      linarith
    · exact hi rfl
  · obtain ⟨ks', hk'⟩ := splitTruss_members [0, 0]
    refine ⟨ks', hk', fun hst => ?_⟩
    exact ((C126_stable_iff sqrtFn_real (splitTruss_divides _) hk hk' hE hj (key _)).1 hst).2 0 (by simp)
      ⟨by norm_num, 0, by simp [splitTruss, trussR, entry], by norm_num, by norm_num⟩

theorem splitTruss_plane (row : List ℝ) : PlaneModel (splitTruss row) where
  nodes := by simp [splitTruss]
  types := by
    intro el hel ty hty
    simp only [splitTruss, List.mem_cons, List.not_mem_nil, or_false] at hel
    rcases hel with rfl | rfl | rfl <;> simp at hty <;> simp [← hty]

theorem splitTruss_wf {x : ℝ} (hx : x = -1 ∨ x = 0) : WellFormed (splitTruss [x, 0]) where
  codes := by
    intro i j y hj hy
    obtain ⟨row, h1, h2⟩ := entry_some.1 hy
    have h1 := List.mem_of_getElem? h1
    have h2 := List.mem_of_getElem? h2
    simp only [splitTruss, List.mem_cons, List.not_mem_nil, or_false] at h1
    rcases hx with rfl | rfl <;> rcases h1 with rfl | rfl | rfl | rfl <;> simp at h2 <;> try simp [h2]
    rcases h2 with rfl | rfl <;> simp
  width := by simp [splitTruss]
  size := rfl

/-- Case for C126: both trusses vibrate, the divided one with a lowest frequency that is not higher. -/
example : ∃ (neq neq' : ℕ) (Kg Mg : Matrix (Fin neq) (Fin neq) ℝ) (Kg' Mg' : Matrix (Fin neq') (Fin neq') ℝ) (ks ms ks' ms' : List (Member ℝ))
    (w : Fin neq → ℝ) (φ : Fin neq → Fin neq → ℝ) (w' : Fin neq' → ℝ) (φ' : Fin neq' → Fin neq' → ℝ),
    Vibrating Real.sqrt trussR ks ms Kg Mg ∧ Vibrating Real.sqrt (splitTruss [0, 0]) ks' ms' Kg' Mg' ∧ Modes Kg Mg w φ ∧ Modes Kg' Mg' w' φ' ∧
    ∀ (k : Fin neq) (k' : Fin neq'), (k : ℕ) = k' → w' k' ≤ w k := by
  obtain ⟨ks, hk⟩ := truss_members sqrtFn_real trussR_bars
  obtain ⟨ks', hk'⟩ := splitTruss_members [0, 0]
  obtain ⟨neq, Kg, Mg, ms, hv⟩ := exists_vibrating trussR_plane trussR_wf hk (by
    intro el hel
    simp only [trussR, List.mem_cons, List.not_mem_nil, or_false] at hel
    rcases hel with rfl | rfl
    · exact .inl ⟨rfl, rfl, 0, 0, 125, 1, [], rfl, ⟨by simp [trussR], .inl rfl⟩, rfl, by norm_num, fun ρ h => by simp at h⟩
    · exact .inl ⟨rfl, rfl, 1, 1, 9, 1, [], rfl, ⟨by simp [trussR], .inl rfl⟩, rfl, by norm_num, fun ρ h => by simp at h⟩) (by
    rintro p j ⟨-, x, hx, h1, h2⟩
    obtain ⟨row, h3, h4⟩ := entry_some.1 hx
    have hp : p < 3 := (List.getElem?_eq_some_iff.1 h3).1
    have h4 := List.mem_of_getElem? h4
    rcases (by omega : p = 0 ∨ p = 1 ∨ p = 2) with rfl | rfl | rfl
    · exact ⟨[0, 6, 0, 0, 2], by simp [trussR], 0, by simp, by simp [trussR], .inl rfl⟩
    · exact ⟨[1, 6, 1, 1, 2], by simp [trussR], 1, by simp, by simp [trussR], .inl rfl⟩
    · exact ⟨[0, 6, 0, 0, 2], by simp [trussR], 2, by simp, by simp [trussR], .inl rfl⟩)
  obtain ⟨neq', Kg', Mg', ms', hv'⟩ := exists_vibrating (splitTruss_plane _) (splitTruss_wf (.inr rfl)) hk' (by
    intro el hel
    simp only [splitTruss, List.mem_cons, List.not_mem_nil, or_false] at hel
    rcases hel with rfl | rfl | rfl
    · exact .inl ⟨rfl, rfl, 0, 0, 125, 1, [], rfl, ⟨by simp [splitTruss], .inl rfl⟩, rfl, by norm_num, fun ρ h => by simp at h⟩
    · exact .inl ⟨rfl, rfl, 1, 1, 9, 1, [], rfl, ⟨by simp [splitTruss], .inl rfl⟩, rfl, by norm_num, fun ρ h => by simp at h⟩
    · exact .inl ⟨rfl, rfl, 1, 1, 9, 1, [], rfl, ⟨by simp [splitTruss], .inl rfl⟩, rfl, by norm_num, fun ρ h => by simp at h⟩) (by
    rintro p j ⟨-, x, hx, h1, h2⟩
    obtain ⟨row, h3, h4⟩ := entry_some.1 hx
    have hp : p < 4 := (List.getElem?_eq_some_iff.1 h3).1
    rcases (by omega : p = 0 ∨ p = 1 ∨ p = 2 ∨ p = 3) with rfl | rfl | rfl | rfl
    · exact ⟨[0, 6, 0, 0, 2], by simp [splitTruss], 0, by simp, by simp [splitTruss], .inl rfl⟩
    · exact ⟨[1, 6, 1, 1, 3], by simp [splitTruss], 1, by simp, by simp [splitTruss], .inl rfl⟩
    · exact ⟨[0, 6, 0, 0, 2], by simp [splitTruss], 2, by simp, by simp [splitTruss], .inl rfl⟩
    · exact ⟨[1, 6, 1, 1, 3], by simp [splitTruss], 3, by simp, by simp [splitTruss], .inl rfl⟩)
  obtain ⟨w, φ, hm, -⟩ := C119_modes sqrtFn_real hv
  obtain ⟨w', φ', hm', -⟩ := C119_modes sqrtFn_real hv'
  refine ⟨_, _, _, _, _, _, _, _, _, _, w, φ, w', φ', hv, hv', hm, hm',
    C126_frequencies sqrtFn_real (splitTruss_divides _) hv hv' (fun u hu p j hp hj hnf => ?_) hm hm'⟩
  have hc := (splitTruss_divides [0, 0]).count
  by_cases hpc : p = trussR.nodes.length
  · subst hpc
    refine absurd ⟨hj, 0, ?_, by norm_num, by norm_num⟩ hnf
    rcases (by omega : j = 0 ∨ j = 1) with rfl | rfl <;> simp [splitTruss, trussR, entry]
  · rw [lineField_away hpc]
    have hp' : p < trussR.nodes.length := by omega
    exact hu p j hp' hj fun hf => hnf (((splitTruss_divides _).free hp').2 hf)

end SolidsPy
