import Verif.Spec.Balance
import Verif.Proofs.Structure
import Verif.Props.Springs

/-! # C91, C92: global balance, method of joints -/

set_option linter.unusedSectionVars false

namespace SolidsPy
open Spec Assem Matrix

section
variable {K : Type} [Field K] [LinearOrder K] [IsStrictOrderedRing K] [FloorRing K]
variable {sq : K → K} {sp de : Sol.Solver K} {d : Gui.Data K} {plot : Bool} {res : Gui.Result K}
  {ms : List (Member K)}

/-- The model is a plane structure: elements of types 1-4 and bars (type 6), nodes with two
coordinates. -/
structure PlaneModel (d : Gui.Data K) : Prop where
  nodes : ∀ r ∈ d.nodes, r.length = 3
  types : ∀ el ∈ d.elements, ∀ ty, el[1]? = some ty →
    ty ∈ [(1 : ℤ), 2, 3, 4] ∨ (ty = 6 ∧ (el.drop 3).length = 2)

theorem Placed.rigid_pick {nodes : Table K} {n : ℕ} {m : Member K} {X : Matrix (Fin n) (Fin 2) K} {k}
    (h : Placed nodes m X k) (c : Fin 2 → K) (G : Matrix (Fin 2) (Fin 2) K) (v : ℕ → ℕ → K)
    (hv : ∀ p (j : Fin 2), v p j = affine c G (fun i => coordOf nodes p i) j) :
    m.pick n v = sample X (affine c G) := by
  funext ⟨a, j⟩
  unfold Member.pick
  rw [hv]
  unfold sample
  dsimp only
  congr 1
  funext i
  unfold coordOf fieldOf
  rw [h.coord a i]
  rfl

/-- Internal forces do no work on rigid motions. -/
theorem rigid_work (hs : SqrtFn sq) (hp : PlaneModel d) (hms : Members sq d ms) (u v : ℕ → ℕ → K)
    (c : Fin 2 → K) {G : Matrix (Fin 2) (Fin 2) K} (hG : Skew G)
    (hv : ∀ p (j : Fin 2), v p j = affine c G (fun i => coordOf d.nodes p i) j) :
    ∑ p ∈ Finset.range d.nodes.length, ∑ j ∈ Finset.range 2, v p j * internal 2 ms u p j = 0 := by
  rw [virtual_work (members_inn hms)]
  apply List.sum_eq_zero
  intro x hx
  obtain ⟨m, hm, rfl⟩ := List.mem_map.1 hx
  obtain ⟨i, hi, rfl⟩ := List.mem_iff_getElem.1 hm
  have hi' : i < d.elements.length := by rw [hms.length_eq]; exact hi
  have hmem := hms.get (i := i) hi' hi
  simp only [List.get_eq_getElem] at hmem
  obtain ⟨ty, mi, q, params, n, f, X, k, mm, -, -, -, -, -, hf, hr, hpl⟩ :=
    member_placed hmem hp.nodes (hp.types _ (List.getElem_mem hi'))
  rw [hpl.form, hpl.rigid_pick c G v hv, Matrix.dotProduct_mulVec, ← Matrix.mulVec_transpose,
    (hf.symm hs hr).1.eq, hf.rigid hs hr c hG, zero_dotProduct]

/-- C91. Whatever the nodal displacements, the internal forces of a plane structure have no resultant
and no moment. -/
theorem C91_internal_balance (hs : SqrtFn sq) (hp : PlaneModel d) (hms : Members sq d ms)
    (u : ℕ → ℕ → K) :
    (∀ j < 2, resultant d.nodes.length (internal 2 ms u) j = 0) ∧
      moment d.nodes (internal 2 ms u) = 0 := by
  constructor
  · intro j hj
    have h := rigid_work hs hp hms u (fun _ i => if i = j then 1 else 0)
      (fun i => if (i : ℕ) = j then 1 else 0) (G := 0) (by intro i j; simp) (by
        intro p i
        simp [affine])
    rw [← h]
    unfold resultant
    refine Finset.sum_congr rfl fun p _ => ?_
    rw [Finset.sum_eq_single j]
    · simp
    · intro b _ hb
      simp [hb]
    · intro hc
      exact absurd (Finset.mem_range.2 hj) hc
  · have h := rigid_work hs hp hms u
      (fun p i => if i = 0 then -coordOf d.nodes p 1 else coordOf d.nodes p 0)
      (fun _ => 0) (G := !![0, -1; 1, 0]) (by intro i j; fin_cases i <;> fin_cases j <;> simp) (by
        intro p i
        fin_cases i <;> simp [affine, Fin.sum_univ_two])
    rw [← h]
    unfold moment
    refine Finset.sum_congr rfl fun p _ => ?_
    simp [Finset.sum_range_succ]
    ring

/-- C91. The reactions (internal force minus load) of the displacements returned by `solids_auto` vanish
where the degree of freedom is free, and balance the loads in force and moment. -/
theorem C91_reactions (hs : SqrtFn sq) (hp : PlaneModel d) (hwf : WellFormed d) (hsp : SolverOk sp)
    (hms : Members sq d ms) (hst : Stable d.cons 2 ms) (h : Gui.solidsAuto sq sp de d plot = .ok res)
    {F : ℕ → ℕ → K} (hF : LoadField d F) {R : ℕ → ℕ → K}
    (hR : ∀ p j, R p j = internal 2 ms (fieldOf res.disp) p j - F p j) :
    (∀ p j, Free d.cons 2 p j → R p j = 0) ∧
    (∀ j < 2, resultant d.nodes.length R j + resultant d.nodes.length F j = 0) ∧
    moment d.nodes R + moment d.nodes F = 0 := by
  have he := (C18_nodal_equilibrium hwf hsp hms hst h).2
  obtain ⟨b1, b2⟩ := C91_internal_balance hs hp hms (fieldOf res.disp)
  refine ⟨fun p j hf => ?_, fun j hj => ?_, ?_⟩
  · have h1 := he.2 p j hf
    rw [hwf.size] at h1
    have hpl := free_lt hf
    rw [hwf.size] at hpl
    rw [hR, isLoad_unique h1 (hF p j hpl hf.1), sub_self]
  · rw [← b1 j hj]
    unfold resultant
    rw [← Finset.sum_add_distrib]
    exact Finset.sum_congr rfl fun p _ => by rw [hR, sub_add_cancel]
  · rw [← b2]
    unfold moment
    rw [← Finset.sum_add_distrib]
    exact Finset.sum_congr rfl fun p _ => by rw [hR, hR]; ring

/-! ## C92 -/

theorem bar_placed {mats nodes : Table K} {el : List ℤ} {m : Member K} {b : Bar K}
    (h : IsMember (Routine sq) mats nodes el m) (hb : IsBar nodes mats el b) :
    m.nodes = [b.ends 0, b.ends 1] ∧ ∃ k mm more,
      Returns (Uel.truss2D sq) b.X (b.E :: b.A :: more) k mm ∧ Placed nodes m b.X k := by
  obtain ⟨ty, mi, params, rows, f, kl, ml, a1, a2, ⟨q, a3, a4⟩, a5, a6, a7, a8, a9⟩ := h
  obtain ⟨eid, mi', id, more, rfl, b2, b3, hL⟩ := hb
  simp only [List.getElem?_cons_succ, List.getElem?_cons_zero, Option.some.injEq] at a1 a2
  subst a1 a2
  have hr : ∀ {t : Table K} {i p : ℕ} {r : List K}, Resolves t.length (i : ℤ) p → t[i]? = some r → p = i := by
    intro t i p r h1 h2
    obtain ⟨h2, _⟩ := List.getElem?_eq_some_iff.1 h2
    unfold Resolves at h1
    omega
  obtain rfl := hr a3 b2
  rw [b2, Option.some.injEq] at a4
  subst a4
  have hn : m.nodes = [b.ends 0, b.ends 1] := by
    simp only [List.drop_succ_cons, List.drop_zero] at a5
    generalize m.nodes = l at a5
    match l, a5 with
    | [p0, p1], .cons r0 (.cons r1 .nil) =>
      rw [hr r0 (b3 0), hr r1 (b3 1)]
  rw [hn] at a6
  have hrows : rows = [[id 0, b.X 0 0, b.X 0 1], [id 1, b.X 1 0, b.X 1 1]] := by
    match rows, a6 with
    | [r0, r1], .cons e0 (.cons e1 .nil) =>
      rw [b3 0, Option.some.injEq] at e0
      rw [b3 1, Option.some.injEq] at e1
      rw [e0, e1]
  have hX : rows.map (List.drop 1) = matRows b.X := by
    rw [hrows, matRows_two]
    rfl
  have hf : f = Uel.truss2D sq := by
    simp only [Routine, Uel.eleFun, Except.ok.injEq] at a7
    exact a7.symm
  subst hf
  rw [hX] at a8
  obtain ⟨k, mm, hk, -, hret⟩ := truss_shape a8
  refine ⟨hn, k, mm, more, hret, placed_of_rows (by rw [hn]; exact a6) hX a9 hk⟩

/-- Internal forces of a truss: every bar pulls on its ends with `E A / L` times its elongation. -/
theorem truss_internal (hs : SqrtFn sq) {bars : List (Bar K)}
    (hb : List.Forall₂ (IsBar d.nodes d.mats) d.elements bars) (hms : Members sq d ms) (u : ℕ → ℕ → K)
    (p : ℕ) (j : Fin 2) :
    internal 2 ms u p j = (bars.map fun b => ∑ a : Fin 2, if b.ends a = p then
      pull b.X b.L (b.E * b.A / b.L * elongation b.X b.L fun q => u (b.ends q.1) q.2) (a, j) else 0).sum := by
  unfold Members at hms
  generalize d.elements = els at hms hb
  induction hms generalizing bars with
  | nil => cases hb; simp [internal]
  | @cons el m els ms a _ ih =>
    cases hb with
    | @cons _ b _ _ hb hbs =>
      have := ih hbs
      unfold internal at this ⊢
      rw [List.map_cons, List.sum_cons, this, List.map_cons, List.sum_cons]
      congr 1
      obtain ⟨hn, k, mm, more, hret, hpl⟩ := bar_placed a hb
      have hL : IsLength b.X b.L := by
        obtain ⟨_, _, _, _, _, _, _, hL⟩ := hb
        exact hL
      have hpick : m.pick 2 u = fun q => u (b.ends q.1) q.2 := by
        funext ⟨a, c⟩
        unfold Member.pick
        rw [hn]
        fin_cases a <;> rfl
      have hfo : ∀ a : Fin 2, m.force 2 u a j =
          pull b.X b.L (b.E * b.A / b.L * elongation b.X b.L fun q => u (b.ends q.1) q.2) (a, j) := by
        intro a
        rw [hpl.force u (a, j), C51_force hs hL hret, hpick]
      rw [hn, List.length_cons, List.length_cons, List.length_nil, Finset.sum_range]
      refine Finset.sum_congr rfl fun a _ => ?_
      rw [hfo a]
      fin_cases a <;> simp

/-- Bars are accepted. -/
theorem truss_members (hs : SqrtFn sq) {bars : List (Bar K)}
    (hb : List.Forall₂ (IsBar d.nodes d.mats) d.elements bars) : ∃ ms, Members sq d ms := by
  unfold Members
  generalize d.elements = els at hb
  induction hb with
  | nil => exact ⟨[], .nil⟩
  | @cons el b _ _ h _ ih =>
    obtain ⟨ms, hms⟩ := ih
    obtain ⟨eid, mi, id, more, rfl, b2, b3, hL⟩ := h
    have hne : b.X 0 ≠ b.X 1 := by
      intro h0
      have := hL.2
      rw [h0] at this
      have := hL.1
      nlinarith
    obtain ⟨k, mm, A, B, hr, hA, -⟩ := (C51_accepts_iff hs b.X (b.E :: b.A :: more)).2 ⟨hne, by simp⟩
    have hmi := (List.getElem?_eq_some_iff.1 b2).1
    have hb3 := fun a => (List.getElem?_eq_some_iff.1 (b3 a)).1
    refine ⟨⟨[b.ends 0, b.ends 1], cell A⟩ :: ms, .cons ⟨6, mi, b.E :: b.A :: more, _, Uel.truss2D sq, A, B,
      rfl, rfl, ⟨mi, ⟨hmi, Or.inl rfl⟩, b2⟩, ?_, .cons (b3 0) (.cons (b3 1) .nil), rfl, ?_, rfl⟩ hms⟩
    · exact .cons ⟨hb3 0, Or.inl rfl⟩ (.cons ⟨hb3 1, Or.inl rfl⟩ .nil)
    · rw [matRows_two] at hr
      exact hr

/-- Every bar pulls on its ends with its stress times its area. -/
theorem bar_force (hs : SqrtFn sq) {mats nodes disp : Table K} {el : List ℤ} {m : Member K} {b : Bar K} {s : K}
    (h : IsMember (Routine sq) mats nodes el m) (hb : IsBar nodes mats el b)
    (hd : disp.length = nodes.length) (hd2 : ∀ r ∈ disp, r.length = 2)
    (hσ : Post.stressTruss1 sq nodes mats disp el = .ok s) (p : ℕ) (j : Fin 2) :
    (∑ a ∈ Finset.range m.nodes.length, if m.nodes[a]? = some p then m.force 2 (fieldOf disp) a j else 0) =
      ∑ a : Fin 2, if b.ends a = p then pull b.X b.L (s * b.A) (a, j) else 0 := by
  obtain ⟨hn, k, mm, more, hret, hpl⟩ := bar_placed h hb
  have hL : IsLength b.X b.L := by
    obtain ⟨_, _, _, _, _, _, _, hL⟩ := hb
    exact hL
  have hbar : BarMember nodes [el] mats disp 0 b.X b.E b.A (m.pick 2 (fieldOf disp)) := by
    obtain ⟨eid, mi', id, more, rfl, b2, b3, hL⟩ := hb
    refine ⟨_, mi', b.ends, id, fun _ => [], more, rfl, rfl, rfl, rfl, b2, fun a => ⟨b3 a, ?_⟩⟩
    obtain ⟨hlt, _⟩ := List.getElem?_eq_some_iff.1 (b3 a)
    rw [← hd] at hlt
    have hl := hd2 _ (List.getElem_mem hlt)
    rw [List.getElem?_eq_getElem hlt, Option.some.injEq]
    have hg : m.nodes.getD a 0 = b.ends a := by rw [hn]; fin_cases a <;> rfl
    have key : ∀ c : Fin 2, m.pick 2 (fieldOf disp) (a, c) = (disp[b.ends a]'hlt)[(c : ℕ)]'(by rw [hl]; exact c.2) := by
      intro c
      unfold Member.pick fieldOf entry
      dsimp only
      rw [hg, List.getElem?_eq_getElem hlt, Option.bind_some, List.getElem?_eq_getElem (by rw [hl]; exact c.2)]
      rfl
    rw [key 0, key 1]
    generalize disp[b.ends a]'hlt = r at hl
    match r, hl with
    | [x, y], _ => rfl
  have hs1 : Post.stressTruss sq nodes [el] mats disp = .ok [s] := mapM_ok.2 (.cons hσ .nil)
  have hσ' := C53_stress hs hs1 hbar hL
  simp only [List.getElem?_cons_zero, Option.some.injEq] at hσ'
  have hfo : ∀ a : Fin 2, m.force 2 (fieldOf disp) a j = pull b.X b.L (s * b.A) (a, j) := by
    intro a
    rw [hpl.force (fieldOf disp) (a, j), C51_force hs hL hret]
    congr 1
    rw [hσ']
    ring
  rw [hn, List.length_cons, List.length_cons, List.length_nil, Finset.sum_range]
  refine Finset.sum_congr rfl fun a _ => ?_
  rw [hfo a]
  fin_cases a <;> simp

/-- C92. Method of joints: with the stresses `stress_truss` recovers from the displacements returned by
`solids_auto`, the forces of the bars and the load on every free joint cancel in every free
direction. -/
theorem C92_method_of_joints (hs : SqrtFn sq) (hwf : WellFormed d) (hsp : SolverOk sp)
    (hms : Members sq d ms) (hst : Stable d.cons 2 ms) {bars : List (Bar K)}
    (hb : List.Forall₂ (IsBar d.nodes d.mats) d.elements bars)
    (h : Gui.solidsAuto sq sp de d plot = .ok res) {σ : List K}
    (hσ : Post.stressTruss sq d.nodes d.elements d.mats res.disp = .ok σ) {p : ℕ} {j : Fin 2}
    (hf : Free d.cons 2 p j) {x : K} (hx : IsLoad d.nodes.length d.loads p j x) :
    jointForce (List.zipWith (fun b s => (b, s * b.A)) bars σ) p j + x = 0 := by
  obtain ⟨⟨hd, hd2⟩, he⟩ := C18_nodal_equilibrium hwf hsp hms hst h
  have h1 := he.2 p j hf
  rw [hwf.size] at h1
  rw [← isLoad_unique h1 hx]
  have hσ := mapM_ok.1 hσ
  suffices hsum : internal 2 ms (fieldOf res.disp) p j = ((List.zipWith (fun b s => (b, s * b.A)) bars σ).map
      fun b => ∑ a : Fin 2, if b.1.ends a = p then pull b.1.X b.1.L b.2 (a, j) else 0).sum by
    unfold jointForce
    rw [hsum, neg_add_cancel]
  unfold Members at hms
  clear * - hms hb hσ hs hd hd2
  generalize d.elements = els at hms hb hσ
  induction hms generalizing bars σ with
  | nil => cases hb; cases hσ; simp [internal]
  | cons a _ ih =>
    cases hb with
    | cons b hb =>
      cases hσ with
      | cons s hσ =>
        have := ih hb hσ
        unfold internal at this ⊢
        rw [List.map_cons, List.sum_cons, this, bar_force hs a b hd hd2 s]
        simp

/-- C92. The stresses exist as soon as no bar has zero area. -/
theorem C92_stress_exists (hs : SqrtFn sq) {bars : List (Bar K)}
    (hb : List.Forall₂ (IsBar d.nodes d.mats) d.elements bars) (hA : ∀ b ∈ bars, b.A ≠ 0)
    (h : Gui.solidsAuto sq sp de d plot = .ok res) :
    ∃ σ, Post.stressTruss sq d.nodes d.elements d.mats res.disp = .ok σ := by
  have hshape : res.disp.length = d.nodes.length ∧ ∀ r ∈ res.disp, r.length = 2 := by
    obtain ⟨op, bc, neq, Kg, Mg, rhs, x, ok, full, plots, h1, h2, h3, h4, h5, h6, h7, rfl⟩ := auto_ok.1 h
    exact Post.completeDisp_shape h6
  obtain ⟨hd, hd2⟩ := hshape
  refine mapM_exists.2 fun el hel => ?_
  obtain ⟨i, hi, rfl⟩ := List.mem_iff_getElem.1 hel
  have hi' : i < bars.length := by rw [← hb.length_eq]; exact hi
  have hbi := hb.get (i := i) hi hi'
  simp only [List.get_eq_getElem] at hbi
  have hAi := hA _ (List.getElem_mem hi')
  generalize bars[i] = b at hbi hAi
  generalize d.elements[i] = el at hbi
  have hL : IsLength b.X b.L := by
    obtain ⟨_, _, _, _, _, _, _, hL⟩ := hbi
    exact hL
  have hbar : ∃ u, BarMember d.nodes [el] d.mats res.disp 0 b.X b.E b.A u := by
    obtain ⟨eid, mi', id, more, rfl, b2, b3, hL⟩ := hbi
    refine ⟨fun q => fieldOf res.disp (b.ends q.1) q.2, _, mi', b.ends, id, fun _ => [], more, rfl, rfl, rfl,
      rfl, b2, fun a => ⟨b3 a, ?_⟩⟩
    obtain ⟨hlt, _⟩ := List.getElem?_eq_some_iff.1 (b3 a)
    rw [← hd] at hlt
    have hl := hd2 _ (List.getElem_mem hlt)
    unfold fieldOf entry
    dsimp only
    rw [List.getElem?_eq_getElem hlt]
    generalize res.disp[b.ends a]'hlt = r at hl
    match r, hl with
    | [x, y], _ => rfl
  obtain ⟨u, hbar⟩ := hbar
  obtain ⟨el', h1, h2⟩ := stress_one hs hbar hL
  simp only [List.getElem?_cons_zero, Option.some.injEq] at h1
  subst h1
  rw [h2]
  unfold pyDiv
  rw [if_neg (mul_ne_zero hL.1.ne' hAi)]
  exact ⟨_, rfl⟩

end

end SolidsPy
