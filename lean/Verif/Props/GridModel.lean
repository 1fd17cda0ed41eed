import Verif.Props.Patch
import Verif.Props.Grid
import Verif.Spec.GridModel

/-! # C97: plates meshed by `rect_grid` -/

set_option linter.unusedSectionVars false

namespace SolidsPy
open Spec Fem Uel Gauss Pre Assem Matrix

section
variable {K : Type} [Field K] [LinearOrder K] [IsStrictOrderedRing K] [FloorRing K]
variable {sq : K → K} {sp de : Sol.Solver K} {d : Gui.Data K} {plot : Bool} {res : Gui.Result K}
  {ms : List (Member K)} {L H E nu : K} {nx ny : ℕ} {rest : List K}

/-- The model has the nodes and elements of `rect_grid` and the material `(E, nu, ...)`. -/
structure GridModel (d : Gui.Data K) (L H : K) (nx ny : ℕ) (E nu : K) (rest : List K) : Prop where
  elements : d.elements = (rectGrid L H nx ny).2.2
  material : d.mats[0]? = some (E :: nu :: rest)
  count : d.nodes.length = (rectGrid L H nx ny).1.length
  place : ∀ (v : ℕ) x y, (rectGrid L H nx ny).1[v]? = some x → (rectGrid L H nx ny).2.1[v]? = some y →
    ∃ id, d.nodes[v]? = some [id, x, y]

theorem GridModel.size (h : GridModel d L H nx ny E nu rest) : d.nodes.length = (nx + 1) * (ny + 1) := by
  rw [h.count, (C65_elements L H nx ny).1]

theorem GridModel.row (h : GridModel d L H nx ny E nu rest) {r c : ℕ} (hr : r ≤ ny) (hc : c ≤ nx) :
    ∃ id, d.nodes[nodeNo nx r c]? = some [id, -L / 2 + c * (L / nx), -H / 2 + r * (H / ny)] :=
  h.place _ _ _ (grid_x L H hr hc) (grid_y L H hr hc)

theorem GridModel.pos (h : GridModel d L H nx ny E nu rest) {r c : ℕ} (hr : r ≤ ny) (hc : c ≤ nx) :
    posOf d.nodes (nodeNo nx r c) = ![-L / 2 + c * (L / nx), -H / 2 + r * (H / ny)] := by
  obtain ⟨id, hid⟩ := h.row hr hc
  funext i
  unfold posOf coordOf fieldOf entry
  rw [hid]
  fin_cases i <;> rfl

theorem GridModel.widths (h : GridModel d L H nx ny E nu rest) : ∀ r ∈ d.nodes, r.length = 3 := by
  intro row hrow
  obtain ⟨v, hv, rfl⟩ := List.mem_iff_getElem.1 hrow
  rw [h.size] at hv
  obtain ⟨r, c, hr, hc, rfl⟩ := node_split hv
  obtain ⟨id, hid⟩ := h.row hr hc
  rw [List.getElem?_eq_some_iff] at hid
  rw [hid.2]
  rfl

/-- The nodes of a cell. -/
def cellNodes (nx r c : ℕ) : List ℕ :=
  [nodeNo nx r c, nodeNo nx r (c + 1), nodeNo nx (r + 1) (c + 1), nodeNo nx (r + 1) c]

theorem GridModel.member (h : GridModel d L H nx ny E nu rest) (hnu : nu ^ 2 ≠ 1)
    (htol : 1e-8 < L / nx * (H / ny) / 4) {el : List ℤ} (hel : el ∈ d.elements) :
    ∃ m, IsMember (Routine sq) d.mats d.nodes el m := by
  rw [h.elements] at hel
  obtain ⟨r, c, hr, hc, h1⟩ := mem_grid hel
  have h2 := gridEls_getElem? (nx := nx) hr hc
  change (rectGrid L H nx ny).2.2[r * nx + c]? = _ at h2
  rw [h1, Option.some.injEq] at h2
  subst h2
  obtain ⟨i0, e0⟩ := h.row (r := r) (c := c) (by omega) (by omega)
  obtain ⟨i1, e1⟩ := h.row (r := r) (c := c + 1) (by omega) (by omega)
  obtain ⟨i2, e2⟩ := h.row (r := r + 1) (c := c + 1) (by omega) (by omega)
  obtain ⟨i3, e3⟩ := h.row (r := r + 1) (c := c) (by omega) (by omega)
  have l0 := (List.getElem?_eq_some_iff.1 e0).1
  have l1 := (List.getElem?_eq_some_iff.1 e1).1
  have l2 := (List.getElem?_eq_some_iff.1 e2).1
  have l3 := (List.getElem?_eq_some_iff.1 e3).1
  have hm := (List.getElem?_eq_some_iff.1 h.material).1
  set X : Matrix (Fin 4) (Fin 2) K := !![-L / 2 + c * (L / nx), -H / 2 + r * (H / ny);
    -L / 2 + ((c + 1 : ℕ) : K) * (L / nx), -H / 2 + r * (H / ny);
    -L / 2 + ((c + 1 : ℕ) : K) * (L / nx), -H / 2 + ((r + 1 : ℕ) : K) * (H / ny);
    -L / 2 + c * (L / nx), -H / 2 + ((r + 1 : ℕ) : K) * (H / ny)] with hX
  have hj : ∀ s t : K, jdet (shapeQuad4 s t) X = L / nx * (H / ny) / 4 := by
    intro s t
    unfold jdet
    rw [quad4_det, hX]
    push_cast
    generalize L / nx = a
    generalize H / ny = b
    simp
    ring
  obtain ⟨C, hC⟩ := (C35_returns_iff [E, nu]).2 ⟨E, nu, rfl, hnu⟩
  have hret : ∃ k m, Returns elastQuad4 X (E :: nu :: rest) k m := by
    refine ⟨_, _, (returns_plane_lax .quad4 (by decide) _ _ _ _).2
      ⟨C, _, mat2_cons.2 ⟨by simp, hC, rfl⟩, fun x hx => ?_, rfl, rfl⟩⟩
    obtain ⟨p, -, rfl⟩ := List.mem_map.1 hx
    unfold at2
    rw [hj]
    exact htol
  obtain ⟨k, m, A, B, hAB, -, -⟩ := hret
  refine ⟨⟨cellNodes nx r c, cell A⟩, 1, 0, _, _, elastQuad4, A, B, rfl, rfl, ⟨0, ⟨hm, .inl rfl⟩, h.material⟩,
    .cons ⟨l0, .inl rfl⟩ (.cons ⟨l1, .inl rfl⟩ (.cons ⟨l2, .inl rfl⟩ (.cons ⟨l3, .inl rfl⟩ .nil))),
    .cons e0 (.cons e1 (.cons e2 (.cons e3 .nil))), rfl, ?_, rfl⟩
  have : matRows X = [[i0, -L / 2 + c * (L / nx), -H / 2 + r * (H / ny)],
      [i1, -L / 2 + ((c + 1 : ℕ) : K) * (L / nx), -H / 2 + r * (H / ny)],
      [i2, -L / 2 + ((c + 1 : ℕ) : K) * (L / nx), -H / 2 + ((r + 1 : ℕ) : K) * (H / ny)],
      [i3, -L / 2 + c * (L / nx), -H / 2 + ((r + 1 : ℕ) : K) * (H / ny)]].map (List.drop 1) := by
    simp [matRows, List.ofFn_succ, hX]
  rw [← this]
  exact hAB

theorem forall₂_of_forall {α β : Type} {R : α → β → Prop} {l : List α} (h : ∀ a ∈ l, ∃ b, R a b) :
    ∃ m, List.Forall₂ R l m := by
  induction l with
  | nil => exact ⟨[], .nil⟩
  | cons a l ih =>
    obtain ⟨b, hb⟩ := h a List.mem_cons_self
    obtain ⟨m, hm⟩ := ih fun x hx => h x (List.mem_cons_of_mem _ hx)
    exact ⟨b :: m, .cons hb hm⟩

theorem resolves_nat {n : ℕ} {l : List ℕ} {ps : List ℕ} (hl : ∀ v ∈ l, v < n)
    (h : List.Forall₂ (Resolves n) (l.map fun v => (v : ℤ)) ps) : ps = l := by
  induction l generalizing ps with
  | nil => cases h; rfl
  | cons a l ih =>
    cases h with
    | cons h1 h2 =>
      rw [ih (fun v hv => hl v (List.mem_cons_of_mem _ hv)) h2,
        resolves_unique h1 ⟨hl a List.mem_cons_self, .inl rfl⟩]

theorem GridModel.nodes_of (h : GridModel d L H nx ny E nu rest) {fn : ℤ → Uel K → Prop}
    (hms : List.Forall₂ (IsMember fn d.mats d.nodes) d.elements ms) {r c : ℕ} (hr : r < ny) (hc : c < nx) :
    ∃ m, ms[r * nx + c]? = some m ∧ m.nodes = cellNodes nx r c := by
  have h2 := gridEls_getElem? (nx := nx) hr hc
  have hi : r * nx + c < d.elements.length := by
    rw [h.elements]
    exact (List.getElem?_eq_some_iff.1 h2).1
  have hi' : r * nx + c < ms.length := by rw [← hms.length_eq]; exact hi
  refine ⟨ms[r * nx + c], List.getElem?_eq_getElem hi', ?_⟩
  have hmem := hms.get (i := r * nx + c) hi hi'
  simp only [List.get_eq_getElem] at hmem
  have he : d.elements[r * nx + c] = [((r * nx + c : ℕ) : ℤ), 1, 0, nodeNo nx r c, nodeNo nx r (c + 1),
      nodeNo nx (r + 1) (c + 1), nodeNo nx (r + 1) c] := by
    have := List.getElem?_eq_getElem hi
    simp only [h.elements] at this ⊢
    change (gridEls nx ny)[r * nx + c]? = _ at this
    rw [h2, Option.some.injEq] at this
    exact this.symm
  rw [he] at hmem
  obtain ⟨_, _, _, _, _, _, _, _, _, _, a5, _⟩ := hmem
  refine resolves_nat (n := d.nodes.length) (l := cellNodes nx r c) ?_ a5
  intro v hv
  rw [h.size]
  simp only [cellNodes, List.mem_cons, List.not_mem_nil, or_false] at hv
  rcases hv with rfl | rfl | rfl | rfl <;> exact nodeNo_lt (by omega) (by omega)

theorem GridModel.mem_cells (h : GridModel d L H nx ny E nu rest) (hms : Members sq d ms) {m : Member K}
    (hm : m ∈ ms) : ∃ r c, r < ny ∧ c < nx ∧ ms[r * nx + c]? = some m := by
  obtain ⟨e, he, rfl⟩ := List.mem_iff_getElem.1 hm
  have he' : e < nx * ny := by
    rw [← gridEls_length nx ny]
    have : (gridEls nx ny).length = ms.length := by rw [← hms.length_eq, h.elements]; rfl
    omega
  obtain ⟨h1, h2, h3⟩ := div_mod_lt he'
  refine ⟨_, _, h1, h2, ?_⟩
  rw [← h3]
  exact List.getElem?_eq_getElem he

theorem GridModel.connected (h : GridModel d L H nx ny E nu rest) (hms : Members sq d ms)
    (hne : L / nx * (H / ny) ≠ 0) : Connected d.nodes ms := by
  have hx : L / nx ≠ 0 := left_ne_zero_of_mul hne
  have hy : H / ny ≠ 0 := right_ne_zero_of_mul hne
  let R : Member K → Member K → Prop := fun a b => (a ∈ ms ∧ b ∈ ms) ∧ Shares d.nodes a b
  have hsym : Std.Symm R := ⟨fun a b hab => by
    obtain ⟨⟨h1, h2⟩, p, q, pa, qa, pb, qb, hap⟩ := hab
    exact ⟨⟨h2, h1⟩, p, q, pb, qb, pa, qa, hap⟩⟩
  have right : ∀ {r c : ℕ} {a b : Member K}, r < ny → c + 1 < nx → ms[r * nx + c]? = some a →
      ms[r * nx + (c + 1)]? = some b → R a b := by
    intro r c a b hr hc ha hb
    obtain ⟨a', ha', na⟩ := h.nodes_of hms hr (by omega : c < nx)
    obtain ⟨b', hb', nb⟩ := h.nodes_of hms hr hc
    rw [ha, Option.some.injEq] at ha'
    rw [hb, Option.some.injEq] at hb'
    subst ha' hb'
    refine ⟨⟨List.mem_of_getElem? ha, List.mem_of_getElem? hb⟩, nodeNo nx r (c + 1), nodeNo nx (r + 1) (c + 1),
      by simp [na, cellNodes], by simp [na, cellNodes], by simp [nb, cellNodes], by simp [nb, cellNodes], .inr ?_⟩
    have e1 := congrFun (h.pos (r := r) (c := c + 1) (by omega) (by omega)) 1
    have e2 := congrFun (h.pos (r := r + 1) (c := c + 1) (by omega) (by omega)) 1
    simp [posOf] at e1 e2
    rw [e1, e2]
    intro he
    apply hy
    linear_combination -he
  have up : ∀ {r c : ℕ} {a b : Member K}, r + 1 < ny → c < nx → ms[r * nx + c]? = some a →
      ms[(r + 1) * nx + c]? = some b → R a b := by
    intro r c a b hr hc ha hb
    obtain ⟨a', ha', na⟩ := h.nodes_of hms (by omega : r < ny) hc
    obtain ⟨b', hb', nb⟩ := h.nodes_of hms hr hc
    rw [ha, Option.some.injEq] at ha'
    rw [hb, Option.some.injEq] at hb'
    subst ha' hb'
    refine ⟨⟨List.mem_of_getElem? ha, List.mem_of_getElem? hb⟩, nodeNo nx (r + 1) c, nodeNo nx (r + 1) (c + 1),
      by simp [na, cellNodes], by simp [na, cellNodes], by simp [nb, cellNodes], by simp [nb, cellNodes], .inl ?_⟩
    have e1 := congrFun (h.pos (r := r + 1) (c := c) (by omega) (by omega)) 0
    have e2 := congrFun (h.pos (r := r + 1) (c := c + 1) (by omega) (by omega)) 0
    simp [posOf] at e1 e2
    rw [e1, e2]
    intro he
    apply hx
    linear_combination -he
  have reach : ∀ {r c : ℕ} {o a : Member K}, r < ny → c < nx → ms[0]? = some o → ms[r * nx + c]? = some a →
      Relation.ReflTransGen R o a := by
    intro r c o a hr hc ho
    induction r generalizing a with
    | zero =>
      intro ha
      rw [zero_mul, zero_add] at ha
      induction c generalizing a with
      | zero =>
        rw [ho, Option.some.injEq] at ha
        rw [ha]
      | succ c ih =>
        obtain ⟨b, hb, _⟩ := h.nodes_of hms (r := 0) hr (by omega : c < nx)
        rw [zero_mul, zero_add] at hb
        exact (ih (by omega) hb).tail (right (r := 0) hr hc (by simpa using hb) (by simpa using ha))
    | succ r ih =>
      intro ha
      obtain ⟨b, hb, _⟩ := h.nodes_of hms (by omega : r < ny) hc
      exact (ih (by omega) hb).tail (up hr hc hb ha)
  intro m hm m' hm'
  obtain ⟨r, c, hr, hc, e⟩ := h.mem_cells hms hm
  obtain ⟨r', c', hr', hc', e'⟩ := h.mem_cells hms hm'
  obtain ⟨o, ho, _⟩ := h.nodes_of hms (r := 0) (c := 0) (by omega) (by omega)
  rw [zero_mul, zero_add] at ho
  have p1 := reach hr hc ho e
  have p2 := reach hr' hc' ho e'
  have p3 : Relation.ReflTransGen R m m' := ((Relation.ReflTransGen.stdSymm (r := R)).symm _ _ p1).trans p2
  exact Relation.ReflTransGen.mono (fun a b hab => ⟨hab.1.2, hab.2⟩) _ _ p3

/-- C97.  Every plate meshed by `rect_grid` with cells larger than the threshold of `jacoper` and a physical
material is a connected mesh of accepted elements. -/
theorem C97_mesh (h : GridModel d L H nx ny E nu rest) (htol : 1e-8 < L / nx * (H / ny) / 4) (hE : 0 < E)
    (h1 : -1 < nu) (h2 : nu < 1) (hrest : ∀ ρ ∈ rest.getLast?, 0 ≤ ρ) : ∃ ms, SolidMesh sq d ms := by
  have hpos : 0 < L / nx * (H / ny) := by
    have := tol_pos.trans htol
    linarith
  have hnx : 0 < nx := by
    rcases Nat.eq_zero_or_pos nx with rfl | h
    · simp at hpos
    · exact h
  have hny : 0 < ny := by
    rcases Nat.eq_zero_or_pos ny with rfl | h
    · simp at hpos
    · exact h
  have hnu : nu ^ 2 ≠ 1 := by nlinarith
  obtain ⟨ms, hms⟩ := forall₂_of_forall (l := d.elements) fun el hel => h.member (sq := sq) hnu htol hel
  refine ⟨ms, h.widths, hms, ?_, ?_, ?_, h.connected hms hpos.ne'⟩
  · intro el hel ty hty
    left
    rw [h.elements] at hel
    obtain ⟨r, c, hr, hc, e⟩ := mem_grid hel
    have e2 := gridEls_getElem? (nx := nx) hr hc
    change (rectGrid L H nx ny).2.2[r * nx + c]? = _ at e2
    rw [e, Option.some.injEq] at e2
    subst e2
    simpa using hty.symm
  · intro el hel mi q params hmi hq hp
    rw [h.elements] at hel
    obtain ⟨r, c, hr, hc, e⟩ := mem_grid hel
    have e2 := gridEls_getElem? (nx := nx) hr hc
    change (rectGrid L H nx ny).2.2[r * nx + c]? = _ at e2
    rw [e, Option.some.injEq] at e2
    subst e2
    have hmi : mi = 0 := by simpa using hmi.symm
    subst hmi
    have hm := (List.getElem?_eq_some_iff.1 h.material).1
    have : q = 0 := resolves_unique hq ⟨hm, .inl rfl⟩
    subst this
    rw [h.material, Option.some.injEq] at hp
    exact ⟨E, nu, rest, hp.symm, hE, h1, h2, hrest⟩
  · intro p hp
    rw [h.size] at hp
    obtain ⟨r, c, hr, hc, rfl⟩ := node_split hp
    obtain ⟨r', δ, hr', hδ, e1⟩ : ∃ r' δ, r' < ny ∧ δ < 2 ∧ r = r' + δ := by
      by_cases hlt : r < ny
      · exact ⟨r, 0, hlt, by omega, rfl⟩
      · exact ⟨r - 1, 1, by omega, by omega, by omega⟩
    obtain ⟨c', ε, hc', hε, e2⟩ : ∃ c' ε, c' < nx ∧ ε < 2 ∧ c = c' + ε := by
      by_cases hlt : c < nx
      · exact ⟨c, 0, hlt, by omega, rfl⟩
      · exact ⟨c - 1, 1, by omega, by omega, by omega⟩
    obtain ⟨m, hm, hn⟩ := h.nodes_of hms hr' hc'
    refine ⟨m, List.mem_of_getElem? hm, ?_⟩
    rw [hn, e1, e2]
    have : δ = 0 ∨ δ = 1 := by omega
    have : ε = 0 ∨ ε = 1 := by omega
    rcases ‹δ = 0 ∨ δ = 1› with rfl | rfl <;> rcases ‹ε = 0 ∨ ε = 1› with rfl | rfl <;> simp [cellNodes]

/-- C97.  Any such plate on any supports that prevent rigid motions is solved by `solids_auto` under any loads
on its nodes, without the equilibrium warning. -/
theorem C97_solids_auto (hs : SqrtFn sq) (h : GridModel d L H nx ny E nu rest)
    (htol : 1e-8 < L / nx * (H / ny) / 4) (hE : 0 < E) (h1 : -1 < nu) (h2 : nu < 1)
    (hrest : ∀ ρ ∈ rest.getLast?, 0 ≤ ρ) (hwf : WellFormed d) (hsp : SolverOk sp)
    (hsup : Supported d.cons d.nodes) (hfree : ∃ p j, Free d.cons 2 p j)
    (hl : ∀ L ∈ d.loads, 3 ≤ L.length ∧ ∃ p, Names d.nodes.length L p) :
    ∃ res, Gui.solidsAuto sq sp de d false = .ok res ∧ res.warned = false := by
  obtain ⟨ms, hms⟩ := C97_mesh (sq := sq) h htol hE h1 h2 hrest
  exact C95_solids_auto hs hms hwf hsp hsup hfree hl

/-- Directed sides of a cell. -/
def cellEdges (nx r c : ℕ) : List (ℕ × ℕ) :=
  [(nodeNo nx r c, nodeNo nx r (c + 1)), (nodeNo nx r (c + 1), nodeNo nx (r + 1) (c + 1)),
   (nodeNo nx (r + 1) (c + 1), nodeNo nx (r + 1) c), (nodeNo nx (r + 1) c, nodeNo nx r c)]

theorem GridModel.sides (h : GridModel d L H nx ny E nu rest) (hms : Members sq d ms) :
    allSides ms = (List.range ny).flatMap fun r => (List.range nx).flatMap fun c => cellEdges nx r c := by
  have hnodes : ms.map (fun m => m.nodes) =
      (List.range ny).flatMap fun r => (List.range nx).map fun c => cellNodes nx r c := by
    have hlen : ms.length = nx * ny := by
      rw [← hms.length_eq, h.elements]
      exact gridEls_length nx ny
    apply List.ext_getElem?
    intro e
    by_cases he : e < nx * ny
    · obtain ⟨h1, h2, h3⟩ := div_mod_lt he
      obtain ⟨m, hm, hn⟩ := h.nodes_of hms h1 h2
      have h4 := flatMap_map_getElem? (List.range ny) (List.range nx) (fun r c : ℕ => cellNodes nx r c)
        (a := e / nx) (b := e % nx) (x := e / nx) (by simpa using h2) (by simp [h1])
      rw [List.length_range] at h4
      rw [h3, List.getElem?_map, hm, h4]
      simp [hn, h2]
    · rw [List.getElem?_eq_none (by simp [hlen]; omega), List.getElem?_eq_none]
      have := flatMap_map_length (List.range ny) (List.range nx) (fun r c : ℕ => cellNodes nx r c)
      rw [List.length_range, List.length_range] at this
      rw [this]
      nlinarith
  unfold allSides
  rw [← List.flatMap_map (f := fun m : Member K => m.nodes) (g := fun l => l.zip (l.drop 1 ++ l.take 1)), hnodes,
    List.flatMap_assoc]
  congr 1
  funext r
  rw [List.flatMap_map]
  rfl

theorem GridModel.nodup (h : GridModel d L H nx ny E nu rest) (hms : Members sq d ms) : (allSides ms).Nodup := by
  have h1 := C67_directed_once L H nx ny
  rw [grid_sides] at h1
  apply List.Nodup.of_map (fun e : ℕ × ℕ => ((e.1 : ℤ), (e.2 : ℤ)))
  rw [h.sides hms, List.map_flatMap]
  simp only [List.map_flatMap]
  exact h1

theorem GridModel.uniform (h : GridModel d L H nx ny E nu rest) (hms : Members sq d ms) :
    UniformMesh sq d ms E nu 1 := by
  refine ⟨h.widths, hms, .inl ⟨rfl, ?_⟩, ?_⟩
  · intro el hel
    rw [h.elements] at hel
    obtain ⟨r, c, hr, hc, e⟩ := mem_grid hel
    have e2 := gridEls_getElem? (nx := nx) hr hc
    change (rectGrid L H nx ny).2.2[r * nx + c]? = _ at e2
    rw [e, Option.some.injEq] at e2
    subst e2
    rfl
  · intro el hel mi q params hmi hq hp
    rw [h.elements] at hel
    obtain ⟨r, c, hr, hc, e⟩ := mem_grid hel
    have e2 := gridEls_getElem? (nx := nx) hr hc
    change (rectGrid L H nx ny).2.2[r * nx + c]? = _ at e2
    rw [e, Option.some.injEq] at e2
    subst e2
    have hmi : mi = 0 := by simpa using hmi.symm
    subst hmi
    have hm := (List.getElem?_eq_some_iff.1 h.material).1
    have : q = 0 := resolves_unique hq ⟨hm, .inl rfl⟩
    subst this
    rw [h.material, Option.some.injEq] at hp
    exact ⟨rest, hp.symm⟩

theorem sum_flatMap_range (n : ℕ) (g : ℕ → List (ℕ × ℕ)) (f : ℕ × ℕ → K) :
    (((List.range n).flatMap g).map f).sum = ∑ i ∈ Finset.range n, ((g i).map f).sum := by
  induction n with
  | zero => simp
  | succ n ih => rw [List.range_succ, List.flatMap_append, List.map_append, List.sum_append, ih,
      Finset.sum_range_succ]; simp

theorem sum_pick {n i : ℕ} (x : K) : (∑ k ∈ Finset.range n, if k = i then x else 0) = if i < n then x else 0 := by
  simp [Finset.sum_ite_eq']

theorem sum_pick_succ {n i : ℕ} (hi : i ≤ n) (x : K) :
    (∑ k ∈ Finset.range n, if k + 1 = i then x else 0) = if 0 < i then x else 0 := by
  cases i with
  | zero => simp
  | succ i =>
    simp only [Nat.add_right_cancel_iff, sum_pick]
    rw [if_pos (by omega), if_pos (by omega)]

/-- C97.  In a plate meshed by `rect_grid` a field of uniform strain gives exactly the nodal forces of the edge
tractions: the traction of the uniform stress on each edge times the length of edge tributary to the node. -/
theorem C97_forces (h : GridModel d L H nx ny E nu rest) (hms : Members sq d ms)
    {C : Matrix (Fin 3) (Fin 3) K} (hC : umat [E, nu] = .ok C) (c : Fin 2 → K) (G : Matrix (Fin 2) (Fin 2) K)
    {u : ℕ → ℕ → K} (hu : ∀ p (j : Fin 2), u p j = affine c G (posOf d.nodes p) j) {r q : ℕ} (hr : r ≤ ny)
    (hq : q ≤ nx) (j : Fin 2) : internal 2 ms u (nodeNo nx r q) j =
      edgeLoad (C.mulVec (strainOf G)) nx ny (L / nx) (H / ny) r q j := by
  rw [C96_uniform_strain (h.uniform hms) (h.nodup hms) hC c G hu, outerSides,
    ← sum_outer (h.nodup hms) (endForce_swap _ _ _ _), h.sides hms, sum_flatMap_range]
  simp only [sum_flatMap_range]
  generalize C.mulVec (strainOf G) = s
  let T : K := sideForce s 0 ![-(L / nx), 0] j
  let R : K := sideForce s 0 ![0, H / ny] j
  have cell : ∀ a ∈ Finset.range ny, ∀ b ∈ Finset.range nx,
      ((cellEdges nx a b).map (endForce d.nodes s (nodeNo nx r q) j)).sum =
        (if a = r then (if b = q then -T - R else 0) + (if b + 1 = q then R - T else 0) else 0) +
        (if a + 1 = r then (if b = q then T - R else 0) + (if b + 1 = q then R + T else 0) else 0) := by
    intro a ha b hb
    rw [Finset.mem_range] at ha hb
    have inj : ∀ {x y : ℕ}, y ≤ nx → (nodeNo nx x y = nodeNo nx r q ↔ x = r ∧ y = q) := by
      intro x y hy
      exact ⟨fun e => nodeNo_inj hy hq e, by rintro ⟨rfl, rfl⟩; rfl⟩
    simp only [cellEdges, List.map_cons, List.map_nil, List.sum_cons, List.sum_nil, endForce,
      inj (by omega : b ≤ nx), inj (by omega : b + 1 ≤ nx), h.pos (by omega : a ≤ ny) (by omega : b ≤ nx),
      h.pos (by omega : a + 1 ≤ ny) (by omega : b ≤ nx), h.pos (by omega : a ≤ ny) (by omega : b + 1 ≤ nx),
      h.pos (by omega : a + 1 ≤ ny) (by omega : b + 1 ≤ nx), ite_and]
    simp only [T, R]
    push_cast
    generalize L / nx = hx
    generalize H / ny = hy
    fin_cases j <;> simp [sideForce] <;> split_ifs <;> first | omega | ring
  rw [Finset.sum_congr rfl fun a ha => Finset.sum_congr rfl fun b hb => cell a ha b hb]
  have inner : ∀ a, ∑ b ∈ Finset.range nx,
      ((if a = r then (if b = q then -T - R else 0) + (if b + 1 = q then R - T else 0) else 0) +
        (if a + 1 = r then (if b = q then T - R else 0) + (if b + 1 = q then R + T else 0) else 0)) =
      (if a = r then (if q < nx then -T - R else 0) + (if 0 < q then R - T else 0) else 0) +
        (if a + 1 = r then (if q < nx then T - R else 0) + (if 0 < q then R + T else 0) else 0) := by
    intro a
    rw [Finset.sum_add_distrib]
    congr 1 <;> split_ifs <;> simp [Finset.sum_add_distrib, sum_pick_succ hq, *]
  simp only [inner, Finset.sum_add_distrib, sum_pick, sum_pick_succ hr]
  simp only [T, R, edgeLoad, edgeSign, tributary]
  fin_cases j <;> simp [sideForce] <;> split_ifs <;> ring

/-- C97.  A plate meshed by `rect_grid` whose supports allow a field of uniform strain, and whose loads are the
edge tractions of the corresponding uniform stress, is solved exactly: `solids_auto` returns that field. -/
theorem C97_uniform_state (hs : SqrtFn sq) (h : GridModel d L H nx ny E nu rest)
    (htol : 1e-8 < L / nx * (H / ny) / 4) (hE : 0 < E) (h1 : -1 < nu) (h2 : nu < 1)
    (hrest : ∀ ρ ∈ rest.getLast?, 0 ≤ ρ) (hwf : WellFormed d) (hsp : SolverOk sp)
    (hsup : Supported d.cons d.nodes) {C : Matrix (Fin 3) (Fin 3) K} (hC : umat [E, nu] = .ok C)
    (c : Fin 2 → K) (G : Matrix (Fin 2) (Fin 2) K)
    (hfix : ∀ p < d.nodes.length, ∀ j : Fin 2, ¬ Free d.cons 2 p j → affine c G (posOf d.nodes p) j = 0)
    (hload : ∀ r q, r ≤ ny → q ≤ nx → ∀ j : Fin 2, Free d.cons 2 (nodeNo nx r q) j →
      IsLoad d.nodes.length d.loads (nodeNo nx r q) j
        (edgeLoad (C.mulVec (strainOf G)) nx ny (L / nx) (H / ny) r q j))
    (hres : Gui.solidsAuto sq sp de d plot = .ok res) :
    ∀ p < d.nodes.length, ∀ j : Fin 2, entry res.disp p j = some (affine c G (posOf d.nodes p) j) := by
  obtain ⟨ms, hm⟩ := C97_mesh (sq := sq) h htol hE h1 h2 hrest
  have hst := (C95_stable_iff hs hm hwf).2 hsup
  let u : ℕ → ℕ → K := fun p j => if hj : j < 2 then affine c G (posOf d.nodes p) ⟨j, hj⟩ else 0
  have hu : ∀ p (j : Fin 2), u p j = affine c G (posOf d.nodes p) j := by
    intro p j
    simp only [u, j.2, dif_pos]
  have heq : Equilibrium d.cons 2 d.loads ms u := by
    constructor
    · intro p j hp hj hf
      rw [hu p ⟨j, hj⟩]
      exact hfix p (by rw [← hwf.size]; exact hp) ⟨j, hj⟩ hf
    · intro p j hf
      have hp : p < (nx + 1) * (ny + 1) := by
        rw [← h.size, ← hwf.size]
        exact free_lt hf
      obtain ⟨r, q, hr, hq, rfl⟩ := node_split hp
      have hj := hf.1
      rw [C97_forces h hm.members hC c G hu hr hq ⟨j, hj⟩, hwf.size]
      exact hload r q hr hq ⟨j, hj⟩ hf
  intro p hp j
  rw [C19_only_equilibrium hwf hsp hm.members hst hres heq p j hp j.2, hu]

/-- A plate meshed by `rect_grid`, on rollers along its left edge with its lower left corner fixed, pulled with
the traction `σ` on its right edge. -/
def tensionPlate (L H E nu σ : K) (nx ny : ℕ) : Gui.Data K where
  nodes := (List.range ((nx + 1) * (ny + 1))).map fun v : ℕ =>
    [(v : K), (rectGrid L H nx ny).1.getD v 0, (rectGrid L H nx ny).2.1.getD v 0]
  cons := (List.range ((nx + 1) * (ny + 1))).map fun v =>
    [if v % (nx + 1) = 0 then -1 else 0, if v = 0 then -1 else 0]
  elements := (rectGrid L H nx ny).2.2
  mats := [[E, nu]]
  loads := (List.range (ny + 1)).map fun r => [((nodeNo nx r nx : ℕ) : K), σ * tributary ny (H / ny) r, 0]

theorem plate_grid (L H E nu σ : K) (nx ny : ℕ) :
    GridModel (tensionPlate L H E nu σ nx ny) L H nx ny E nu [] where
  elements := rfl
  material := rfl
  count := by simp [tensionPlate, (C65_elements L H nx ny).1]
  place := by
    intro v x y h1 h2
    have hv : v < (nx + 1) * (ny + 1) := by
      rw [← (C65_elements L H nx ny).1]
      exact (List.getElem?_eq_some_iff.1 h1).1
    refine ⟨v, ?_⟩
    simp [tensionPlate, hv, h1, h2]

theorem plate_cons (L H E nu σ : K) {nx ny v j : ℕ} {x : K} :
    entry (tensionPlate L H E nu σ nx ny).cons v j = some x ↔ v < (nx + 1) * (ny + 1) ∧
      ((j = 0 ∧ x = if v % (nx + 1) = 0 then -1 else 0) ∨ (j = 1 ∧ x = if v = 0 then -1 else 0)) := by
  rw [entry_some]
  simp only [tensionPlate, List.getElem?_map, Option.map_eq_some_iff]
  constructor
  · rintro ⟨row, ⟨a, ha, rfl⟩, hx⟩
    rw [List.getElem?_eq_some_iff] at ha
    obtain ⟨hv, ha⟩ := ha
    rw [List.getElem_range] at ha
    subst ha
    refine ⟨by simpa using hv, ?_⟩
    match j, hx with
    | 0, hx => simp at hx; exact .inl ⟨rfl, hx.symm⟩
    | 1, hx => simp at hx; exact .inr ⟨rfl, hx.symm⟩
    | j + 2, hx => simp at hx
  · rintro ⟨hv, ⟨rfl, rfl⟩ | ⟨rfl, rfl⟩⟩ <;> exact ⟨_, ⟨v, by simp [hv], rfl⟩, rfl⟩

theorem plate_wf (L H E nu σ : K) (nx ny : ℕ) : WellFormed (tensionPlate L H E nu σ nx ny) where
  codes := by
    intro v j x hj hx
    rcases ((plate_cons ..).1 hx).2 with ⟨_, rfl⟩ | ⟨_, rfl⟩ <;> split_ifs <;> simp
  width := by simp [tensionPlate]
  size := by simp [tensionPlate]

theorem nodeNo_mod {nx r c : ℕ} (hc : c ≤ nx) : nodeNo nx r c % (nx + 1) = c := by
  unfold nodeNo
  rw [Nat.mul_comm, Nat.mul_add_mod, Nat.mod_eq_of_lt (by omega)]

theorem nodeNo_zero {nx r c : ℕ} (hc : c ≤ nx) : nodeNo nx r c = 0 ↔ r = 0 ∧ c = 0 := by
  constructor
  · intro h
    exact nodeNo_inj (r' := 0) (c' := 0) hc (by omega) (by rw [h]; simp [nodeNo])
  · rintro ⟨rfl, rfl⟩
    simp [nodeNo]

theorem plate_free (L H E nu σ : K) {nx ny r c : ℕ} (hr : r ≤ ny) (hc : c ≤ nx) (j : Fin 2) :
    Free (tensionPlate L H E nu σ nx ny).cons 2 (nodeNo nx r c) j ↔
      ¬ (if j = 0 then c = 0 else r = 0 ∧ c = 0) := by
  have hlt := nodeNo_lt (nx := nx) hr hc
  unfold Free
  simp only [plate_cons, nodeNo_mod hc, nodeNo_zero hc, hlt, true_and]
  fin_cases j
  · by_cases h : c = 0 <;> simp [h]
  · by_cases h : r = 0 ∧ c = 0 <;> simp [h]

theorem plate_load (L H E nu σ : K) {nx ny r c : ℕ} (hr : r ≤ ny) (hc : c ≤ nx) (j : Fin 2) :
    IsLoad (tensionPlate L H E nu σ nx ny).nodes.length (tensionPlate L H E nu σ nx ny).loads (nodeNo nx r c) j
      (if c = nx ∧ j = 0 then σ * tributary ny (H / ny) r else 0) := by
  rw [(plate_grid L H E nu σ nx ny).size]
  have names : ∀ r' ≤ ny, ∀ v, Names ((nx + 1) * (ny + 1))
      [((nodeNo nx r' nx : ℕ) : K), σ * tributary ny (H / ny) r', 0] v ↔ v = nodeNo nx r' nx :=
    fun r' hr' v => names_nat (nodeNo_lt hr' (le_refl _)) rfl
  by_cases hcn : c = nx
  · subst hcn
    right
    have hsplit : (List.range (ny + 1)) = List.range r ++ r :: (List.range (ny - r)).map fun i => r + 1 + i := by
      have e : ny + 1 = r + (1 + (ny - r)) := by omega
      rw [e, List.range_add, List.range_add]
      simp [Nat.add_assoc]
    have hl : (tensionPlate L H E nu σ c ny).loads = (List.range (ny + 1)).map fun r : ℕ =>
        [((nodeNo c r c : ℕ) : K), σ * tributary ny (H / ny) r, 0] := rfl
    rw [hsplit, List.map_append, List.map_cons] at hl
    refine ⟨_, _, _, hl, (names r hr _).2 rfl, ?_, ?_⟩
    · intro L' hL'
      simp only [List.map_map, List.mem_map, List.mem_range, Function.comp_def] at hL'
      obtain ⟨i, hi, rfl⟩ := hL'
      rw [names _ (by omega)]
      intro h
      have := (nodeNo_inj (le_refl _) (le_refl _) h).1
      omega
    · fin_cases j <;> simp
  · left
    refine ⟨?_, by simp [hcn]⟩
    intro L' hL'
    simp only [tensionPlate, List.mem_map, List.mem_range] at hL'
    obtain ⟨i, hi, rfl⟩ := hL'
    rw [names _ (by omega)]
    intro h
    exact hcn (nodeNo_inj hc (le_refl _) h).2

theorem plate_supported {σ : K} (hny : 0 < ny) (hne : L / nx * (H / ny) ≠ 0) :
    Supported (tensionPlate L H E nu σ nx ny).cons (tensionPlate L H E nu σ nx ny).nodes := by
  have hg := plate_grid L H E nu σ nx ny
  have hwf := plate_wf L H E nu σ nx ny
  refine C95_pin_roller hwf (p := nodeNo nx 0 0) (q := nodeNo nx ny 0) (j := 0) ?_ ?_ (by omega) ?_ ?_ ?_
  · rw [hg.size]
    exact nodeNo_lt (by omega) (by omega)
  · rw [hg.size]
    exact nodeNo_lt (by omega) (by omega)
  · have e1 := congrFun (hg.pos (r := 0) (c := 0) (by omega) (by omega)) 1
    have e2 := congrFun (hg.pos (r := ny) (c := 0) (by omega) (by omega)) 1
    simp [posOf] at e1 e2
    simp only [Nat.sub_zero]
    rw [e1, e2]
    intro he
    have : (ny : K) * (H / ny) = 0 := by linear_combination -he
    have hny' : (ny : K) ≠ 0 := by exact_mod_cast hny.ne'
    have := (mul_eq_zero.1 this).resolve_left hny'
    exact hne (by rw [this, mul_zero])
  · intro j hj
    have := plate_free L H E nu σ (nx := nx) (ny := ny) (r := 0) (c := 0) (by omega) (by omega) ⟨j, hj⟩
    simp only [this, not_not]
    split <;> simp
  · have := plate_free L H E nu σ (nx := nx) (ny := ny) (r := ny) (c := 0) (by omega) (by omega) 0
    simp only [Fin.val_zero] at this
    rw [this]
    simp

/-- The displacement at the origin of the plate in tension. -/
def tensionC (L H E nu σ : K) : Fin 2 → K := ![σ / E * (L / 2), -(nu * σ / E) * (H / 2)]

/-- The displacement gradient of the plate in tension. -/
def tensionG (E nu σ : K) : Matrix (Fin 2) (Fin 2) K := !![σ / E, 0; 0, -(nu * σ / E)]

theorem tension_val (L H E nu σ : K) {nx ny r q : ℕ} (hr : r ≤ ny) (hq : q ≤ nx) (j : Fin 2) :
    affine (tensionC L H E nu σ) (tensionG E nu σ) (posOf (tensionPlate L H E nu σ nx ny).nodes (nodeNo nx r q)) j =
      if j = 0 then σ / E * (q * (L / nx)) else -(nu * σ / E) * (r * (H / ny)) := by
  rw [(plate_grid L H E nu σ nx ny).pos hr hq]
  unfold affine
  fin_cases j <;> simp [tensionC, tensionG, Fin.sum_univ_two] <;> ring

theorem tension_stress {σ : K} (hE : E ≠ 0) {C : Matrix (Fin 3) (Fin 3) K} (hC : umat [E, nu] = .ok C) :
    C.mulVec (strainOf (tensionG E nu σ)) = ![σ, 0, 0] := by
  obtain ⟨E', nu', e1, e2, rfl⟩ := umat_ok.1 hC
  simp only [List.cons.injEq, and_true] at e1
  obtain ⟨rfl, rfl⟩ := e1
  funext i
  fin_cases i <;> simp [Matrix.mulVec, dotProduct, Fin.sum_univ_three, strainOf, tensionG] <;> field_simp <;> ring

theorem tension_fix (L H E nu σ : K) (nx ny : ℕ) : ∀ p < (tensionPlate L H E nu σ nx ny).nodes.length, ∀ j : Fin 2,
    ¬ Free (tensionPlate L H E nu σ nx ny).cons 2 p j →
      affine (tensionC L H E nu σ) (tensionG E nu σ) (posOf (tensionPlate L H E nu σ nx ny).nodes p) j = 0 := by
  intro p hp j hf
  rw [(plate_grid L H E nu σ nx ny).size] at hp
  obtain ⟨r, q, hr, hq, rfl⟩ := node_split hp
  rw [plate_free L H E nu σ hr hq, not_not] at hf
  rw [tension_val L H E nu σ hr hq]
  split_ifs with hj
  · rw [if_pos hj] at hf
    simp [hf]
  · rw [if_neg hj] at hf
    simp [hf.1]

theorem tension_load {σ : K} (hpos : 0 < L / nx * (H / ny)) : ∀ r q, r ≤ ny → q ≤ nx → ∀ j : Fin 2,
    Free (tensionPlate L H E nu σ nx ny).cons 2 (nodeNo nx r q) j →
      IsLoad (tensionPlate L H E nu σ nx ny).nodes.length (tensionPlate L H E nu σ nx ny).loads (nodeNo nx r q) j
        (edgeLoad ![σ, 0, 0] nx ny (L / nx) (H / ny) r q j) := by
  have hnx : 0 < nx := by
    rcases Nat.eq_zero_or_pos nx with rfl | h
    · simp at hpos
    · exact h
  intro r q hr hq j hf
  rw [plate_free L H E nu σ hr hq] at hf
  have := plate_load L H E nu σ hr hq j
  convert this using 1
  fin_cases j
  · simp only [Fin.zero_eta, if_true] at hf
    simp [edgeLoad, edgeSign]
    have hq0 : 0 < q := by omega
    by_cases hqn : q = nx
    · simp [hqn, hnx]
    · simp [hqn, hq0, (by omega : q < nx)]
  · simp [edgeLoad]

/-- C97.  Simple tension.  For every length, height, number of cells, traction, Young's modulus and Poisson ratio,
`solids_auto` returns for the plate in tension exactly the displacements `σ x / E` and `-ν σ y / E` measured from
the lower left corner, without the equilibrium warning. -/
theorem C97_tension (hs : SqrtFn sq) (hsp : SolverOk sp) {σ : K} (htol : 1e-8 < L / nx * (H / ny) / 4) (hE : 0 < E)
    (h1 : -1 < nu) (h2 : nu < 1) :
    ∃ res, Gui.solidsAuto sq sp de (tensionPlate L H E nu σ nx ny) false = .ok res ∧ res.warned = false ∧
      ∀ r q, r ≤ ny → q ≤ nx →
        entry res.disp (nodeNo nx r q) 0 = some (σ / E * (q * (L / nx))) ∧
        entry res.disp (nodeNo nx r q) 1 = some (-(nu * σ / E) * (r * (H / ny))) := by
  have hg := plate_grid L H E nu σ nx ny
  have hwf := plate_wf L H E nu σ nx ny
  have hpos : 0 < L / nx * (H / ny) := by
    have := tol_pos.trans htol
    linarith
  have hnx : 0 < nx := by
    rcases Nat.eq_zero_or_pos nx with rfl | h
    · simp at hpos
    · exact h
  have hny : 0 < ny := by
    rcases Nat.eq_zero_or_pos ny with rfl | h
    · simp at hpos
    · exact h
  have hsup := plate_supported (E := E) (nu := nu) (σ := σ) hny hpos.ne'
  obtain ⟨res, hres, hw⟩ := C97_solids_auto (de := de) hs hg htol hE h1 h2 (by simp) hwf hsp hsup
    ⟨nodeNo nx 0 nx, 0, by
      have := plate_free L H E nu σ (nx := nx) (ny := ny) (r := 0) (c := nx) (by omega) (by omega) 0
      simp only [Fin.val_zero] at this
      rw [this]
      simp
      omega⟩ (by
      intro l hl
      simp only [tensionPlate, List.mem_map, List.mem_range] at hl
      obtain ⟨i, hi, rfl⟩ := hl
      refine ⟨by simp, nodeNo nx i nx, ?_⟩
      rw [hg.size]
      exact (names_nat (nodeNo_lt (by omega) (le_refl _)) rfl).2 rfl)
  refine ⟨res, hres, hw, ?_⟩
  have hnu : 1 - nu ^ 2 ≠ 0 := by nlinarith
  obtain ⟨C, hC⟩ := (C35_returns_iff [E, nu]).2 ⟨E, nu, rfl, fun h => hnu (by rw [h, sub_self])⟩
  have hst := tension_stress (σ := σ) hE.ne' hC
  have key := C97_uniform_state hs hg htol hE h1 h2 (by simp) hwf hsp hsup hC _ _ (tension_fix L H E nu σ nx ny)
    (by rw [hst]; exact tension_load hpos) hres
  intro r q hr hq
  have hp : nodeNo nx r q < (tensionPlate L H E nu σ nx ny).nodes.length := by
    rw [hg.size]
    exact nodeNo_lt hr hq
  have k0 := key _ hp 0
  have k1 := key _ hp 1
  rw [tension_val L H E nu σ hr hq] at k0 k1
  exact ⟨k0, k1⟩

end

/-! ## Cases -/

section demo

/-- Case for C97: a plate of 4 by 2 in 2 by 1 cells under traction 10 with `E = 1000`, `nu = 1/4`: the upper right
corner moves by (1/25, -1/200). -/
example : ∃ res, Gui.solidsAuto Real.sqrt cramerR cramerR (tensionPlate (4 : ℝ) 2 1000 (1 / 4) 10 2 1) false = .ok res ∧
    res.warned = false ∧ entry res.disp 5 0 = some (1 / 25) ∧ entry res.disp 5 1 = some (-(1 / 200)) := by
  obtain ⟨res, h1, h2, h3⟩ := C97_tension (K := ℝ) (L := 4) (H := 2) (E := 1000) (nu := 1 / 4) (nx := 2) (ny := 1)
    (de := cramerR) (σ := 10) sqrtFn_real cramerR_ok (by norm_num) (by norm_num) (by norm_num) (by norm_num)
  refine ⟨res, h1, h2, ?_⟩
  obtain ⟨a, b⟩ := h3 1 2 (by omega) (by omega)
  rw [show nodeNo 2 1 2 = 5 from rfl] at a b
  rw [a, b]
  norm_num

/-- Case for C95: the same plate is a connected mesh, and stable. -/
example : ∃ ms, SolidMesh Real.sqrt (tensionPlate (4 : ℝ) 2 1000 (1 / 4) 10 2 1) ms ∧
    Stable (tensionPlate (4 : ℝ) 2 1000 (1 / 4) 10 2 1).cons 2 ms := by
  obtain ⟨ms, h⟩ := C97_mesh (sq := Real.sqrt) (plate_grid (4 : ℝ) 2 1000 (1 / 4) 10 2 1) (by norm_num) (by norm_num)
    (by norm_num) (by norm_num) (by simp)
  refine ⟨ms, h, (C95_stable_iff sqrtFn_real h (plate_wf _ _ _ _ _ _ _)).2 ?_⟩
  exact plate_supported (by omega) (by norm_num)

end demo

end SolidsPy
