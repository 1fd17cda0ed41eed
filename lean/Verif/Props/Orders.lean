import Verif.Props.Static
import Verif.Props.Success
import Verif.Props.PlateStrains
import Verif.Proofs.Recovery

/-! # C20, C21: whole runs on reordered elements and renumbered nodes -/

set_option linter.unusedSectionVars false

namespace SolidsPy
open Spec Assem Post

theorem foldlM_perm {α β : Type} {f : β → α → Py β}
    (hc : ∀ s a b r, (∃ t, f s a = .ok t ∧ f t b = .ok r) → ∃ t, f s b = .ok t ∧ f t a = .ok r) {l l' : List α} (hp : l.Perm l')
    {s r : β} (h : l.foldlM f s = .ok r) : l'.foldlM f s = .ok r := by
  induction hp generalizing s r with
  | nil => exact h
  | cons x _ ih =>
    rw [List.foldlM_cons, bind_ok] at h ⊢
    obtain ⟨t, h1, h2⟩ := h
    exact ⟨t, h1, ih h2⟩
  | swap x y l =>
    rw [List.foldlM_cons, bind_ok] at h ⊢
    obtain ⟨t, h1, h2⟩ := h
    rw [List.foldlM_cons, bind_ok] at h2
    obtain ⟨t', h2, h3⟩ := h2
    obtain ⟨q, q1, q2⟩ := hc s y x t' ⟨t, h1, h2⟩
    exact ⟨q, q1, by rw [List.foldlM_cons, q2]; exact h3⟩
  | trans _ _ ih1 ih2 => exact ih2 (ih1 h)

/-- A loop that treats the entries of a list one by one treats a reordered list alike. -/
theorem mapM_perm {α β : Type} {f : α → Py β} {l l' : List α} {r : List β} (hp : l.Perm l') (h : l.mapM f = .ok r) :
    ∃ r', l'.mapM f = .ok r' ∧ (l.zip r).Perm (l'.zip r') ∧ r.Perm r' := by
  classical
  have h := mapM_ok.1 h
  have hne : ∀ a ∈ l, ∃ b, f a = .ok b := by
    intro a ha
    obtain ⟨i, hi, rfl⟩ := List.mem_iff_getElem.1 ha
    exact ⟨_, h.get hi (by rw [← h.length_eq]; exact hi)⟩
  by_cases hl : l = []
  · subst hl
    have := hp.nil_eq
    subst this
    exact ⟨r, mapM_ok.2 h, .refl _, .refl _⟩
  obtain ⟨a0, ha0⟩ := List.exists_mem_of_ne_nil _ hl
  obtain ⟨b0, -⟩ := hne a0 ha0
  let g : α → β := fun a => if h : ∃ b, f a = .ok b then h.choose else b0
  have hg : ∀ a ∈ l, f a = .ok (g a) := by
    intro a ha
    have := hne a ha
    show f a = .ok (if h : ∃ b, f a = .ok b then h.choose else b0)
    rw [dif_pos this]
    exact this.choose_spec
  have key : ∀ l : List α, (∀ a ∈ l, f a = .ok (g a)) → ∀ r, List.Forall₂ (fun a b => f a = .ok b) l r ↔ r = l.map g := by
    intro l
    induction l with
    | nil =>
      intro _ r
      exact ⟨fun h => by cases h; rfl, fun h => by subst h; exact .nil⟩
    | cons a l ih =>
      intro hl r
      constructor
      · intro h
        cases h with
        | cons h1 h2 =>
          rw [(ih (fun a ha => hl a (by simp [ha])) _).1 h2]
          rw [hl a (by simp), Except.ok.injEq] at h1
          rw [← h1]
          rfl
      · rintro rfl
        exact .cons (hl a (by simp)) ((ih (fun a ha => hl a (by simp [ha])) _).2 rfl)
  have e := (key l hg r).1 h
  subst e
  refine ⟨l'.map g, mapM_ok.2 ((key l' (fun a ha => hg a (hp.mem_iff.2 ha)) _).2 rfl), ?_, hp.map g⟩
  have ez : ∀ l : List α, l.zip (l.map g) = l.map fun a => (a, g a) := fun l => by
    induction l with
    | nil => rfl
    | cons a l ih => simp [ih]
  rw [ez, ez]
  exact hp.map _

section
variable {K : Type} [Field K] [LinearOrder K] [IsStrictOrderedRing K] [FloorRing K]
variable {sq : K → K} {sp de : Sol.Solver K} {d : Gui.Data K} {elements' : List (List ℤ)}

theorem front_perm (hp : d.elements.Perm elements') {op bc neq Kg Mg} (h1 : dme d.cons d.elements = .ok (op, bc, neq))
    (h2 : assembler (Uel.eleFun sq) d.elements d.mats d.nodes neq op = .ok (Kg, Mg)) :
    ∃ op', dme d.cons elements' = .ok (op', bc, neq) ∧
      assembler (Uel.eleFun sq) elements' d.mats d.nodes neq op' = .ok (Kg, Mg) := by
  obtain ⟨a1, a2⟩ := dme_ok.1 h1
  obtain ⟨op', b1, b2, -⟩ := mapM_perm hp a2
  exact ⟨op', dme_ok.2 ⟨a1, b1⟩, (C09_element_order_irrelevant (mapM_length a2) (mapM_length b1) b2 _).1 h2⟩

/-- C20.  Whatever the model and the solver: `solids_auto` on the elements in another order returns exactly when it returns on the given
order, and then the same displacements, the same number of equations and the same warning. -/
theorem C20_run (hp : d.elements.Perm elements') (res : Gui.Result K) :
    Gui.solidsAuto sq sp de d false = .ok res ↔ Gui.solidsAuto sq sp de { d with elements := elements' } false = .ok res := by
  have one : ∀ {d : Gui.Data K} {elements' : List (List ℤ)}, d.elements.Perm elements' →
      Gui.solidsAuto sq sp de d false = .ok res → Gui.solidsAuto sq sp de { d with elements := elements' } false = .ok res := by
    intro d elements' hp h
    obtain ⟨op, bc, neq, Kg, Mg, rhs, x, ok, full, plots, h1, h2, h3, h4, h5, h6, h7, rfl⟩ := auto_ok.1 h
    obtain ⟨op', g1, g2⟩ := front_perm hp h1 h2
    exact auto_ok.2 ⟨op', bc, neq, Kg, Mg, rhs, x, ok, full, plots, g1, g2, h3, h4, h5, h6, h7, rfl⟩
  exact ⟨one hp, fun h => one (d := { d with elements := elements' }) (elements' := d.elements) hp.symm h⟩

/-- C20.  Nodal strains and stresses: if all elements have one type, those of the reordered list are the same. -/
theorem C20_strains {nodes mats sol : Table K} {elements elements' : List (List ℤ)} (hp : elements.Perm elements') {ty : ℤ}
    (hty : ∀ el ∈ elements, el[1]? = some ty) {r} :
    strainNodes nodes elements mats sol = .ok r ↔ strainNodes nodes elements' mats sol = .ok r := by
  have one : ∀ {elements elements' : List (List ℤ)}, elements.Perm elements' → (∀ el ∈ elements, el[1]? = some ty) →
      strainNodes nodes elements mats sol = .ok r → strainNodes nodes elements' mats sol = .ok r := by
    intro elements elements' hp hty h
    unfold strainNodes at h ⊢
    rw [bind_ok] at h
    obtain ⟨el0, g0, h⟩ := h
    rw [bind_ok] at h
    obtain ⟨iet, g1, h⟩ := h
    rw [bind_ok] at h
    obtain ⟨⟨ndof, nne, q⟩, g2, h⟩ := h
    dsimp only at h
    rw [bind_ok] at h
    obtain ⟨acc, g3, h⟩ := h
    have m0 : el0 ∈ elements := List.mem_of_getElem? (pyGet_zero.1 g0)
    obtain rfl : iet = ty := by
      have := pyGet_one.1 g1
      rw [hty el0 m0] at this
      exact (Option.some.inj this).symm
    obtain ⟨e, es, he⟩ := List.exists_cons_of_ne_nil (List.ne_nil_of_mem (hp.mem_iff.1 m0))
    have m1 : e ∈ elements := hp.mem_iff.2 (by rw [he]; simp)
    rw [pyGet_zero.2 (show elements'[0]? = some e by rw [he]; rfl), ok_bind, pyGet_one.2 (hty e m1), ok_bind, g2, ok_bind]
    dsimp only
    rw [foldlM_perm ?_ hp g3, ok_bind]
    · exact h
    · rintro s a b r ⟨t, t1, t2⟩
      obtain ⟨ea, Ca, a1, a2, a3, rfl⟩ := strainElem_ok.1 t1
      obtain ⟨eb, Cb, b1, b2, b3, rfl⟩ := strainElem_ok.1 t2
      refine ⟨_, strainElem_ok.2 ⟨eb, Cb, b1, b2, b3, rfl⟩, strainElem_ok.2 ⟨ea, Ca, a1, a2, a3, ?_⟩⟩
      dsimp only
      congr 1
      · funext k
        rw [add_assoc, add_assoc, add_comm (gather _ _ k)]
      · funext k
        rw [add_assoc, add_assoc, add_comm (gather _ _ k)]
      · funext k
        omega
  exact ⟨one hp hty, one hp.symm fun el hel => hty el (hp.mem_iff.2 hel)⟩


/-! ## Renumbered nodes -/

theorem Renumbered.surj {d d' : Gui.Data K} {π : ℕ → ℕ} (hr : Renumbered π d d') : ∀ q < d.nodes.length, ∃ p < d.nodes.length, π p = q := by
  intro q hq
  have := Finset.surj_on_of_inj_on_of_card_le (s := Finset.range d.nodes.length)
    (t := Finset.range d.nodes.length) (fun p _ => π p)
    (fun p hp => Finset.mem_range.2 (hr.maps p (Finset.mem_range.1 hp)))
    (fun p q hp hq e => hr.inj p (Finset.mem_range.1 hp) q (Finset.mem_range.1 hq) e)
    le_rfl q (Finset.mem_range.2 hq)
  obtain ⟨p, hp, e⟩ := this
  exact ⟨p, Finset.mem_range.1 hp, e.symm⟩

theorem Renumbered.free {d d' : Gui.Data K} {π : ℕ → ℕ} (hr : Renumbered π d d') {p : ℕ} (hp : p < d.nodes.length) (j : ℕ) :
    Free d'.cons 2 (π p) j ↔ Free d.cons 2 p j := by
  unfold Free entry
  rw [hr.cons p hp]

theorem Renumbered.wellFormed {d d' : Gui.Data K} {π : ℕ → ℕ} (hr : Renumbered π d d') (hwf : WellFormed d) : WellFormed d' := by
  have hsz := hwf.size
  have hlt : ∀ {q : ℕ}, q < d'.cons.length → q < d.nodes.length := by
    intro q hq
    rw [hr.consSize, hsz] at hq
    exact hq
  refine ⟨?_, ?_, by rw [hr.consSize, hsz, hr.size]⟩
  · intro q j x hj hx
    obtain ⟨row, h1, _⟩ := entry_some.1 hx
    obtain ⟨p, hp, rfl⟩ := hr.surj q (hlt (List.getElem?_eq_some_iff.1 h1).1)
    unfold entry at hx
    rw [hr.cons p hp] at hx
    exact hwf.codes p j x hj hx
  · intro row hrow
    obtain ⟨q, hq, rfl⟩ := List.mem_iff_getElem.1 hrow
    obtain ⟨p, hp, rfl⟩ := hr.surj q (hlt hq)
    have := hr.cons p hp
    rw [List.getElem?_eq_getElem hq, List.getElem?_eq_getElem (by omega), Option.some.injEq] at this
    rw [this]
    exact hwf.width _ (List.getElem_mem _)

theorem Renumbered.stable {d d' : Gui.Data K} {π : ℕ → ℕ} {ms : List (Member K)} (hr : Renumbered π d d') (hwf : WellFormed d)
    (hms : Members sq d ms) (hst : Stable d.cons 2 ms) : Stable d'.cons 2 (ms.map (renameMember π)) := by
  have hsz := hwf.size
  intro u ha hz q j hq hj
  rw [hr.consSize, hsz] at hq
  obtain ⟨p, hp, rfl⟩ := hr.surj q hq
  refine hst (fun q c => u (π q) c) ?_ ?_ p j (by omega) hj
  · intro q c hq hc hf
    have hq' : q < d.nodes.length := by omega
    refine ha (π q) c ?_ hc (by rw [hr.free hq']; exact hf)
    rw [hr.consSize, hsz]
    exact hr.maps q hq'
  · intro q c hf
    have hq' : q < d.nodes.length := by have := free_lt hf; omega
    rw [← internal_renumber hr.inj (members_inn hms) u hq' c]
    exact hz _ _ ((hr.free hq' c).2 hf)

theorem Renumbered.plane {d d' : Gui.Data K} {π : ℕ → ℕ} (hr : Renumbered π d d') (hp : PlaneModel d) (hne : ∀ r ∈ d'.nodes, r ≠ []) :
    PlaneModel d' := by
  constructor
  · intro r hmem
    obtain ⟨q, hq, rfl⟩ := List.mem_iff_getElem.1 hmem
    have hq' := hq
    rw [hr.size] at hq'
    obtain ⟨p, hp', rfl⟩ := hr.surj q hq'
    have hc := hr.coords p hp'
    rw [List.getElem?_eq_getElem hq, List.getElem?_eq_getElem hp'] at hc
    simp only [Option.map_some, Option.some.injEq] at hc
    have h3 := hp.nodes _ (List.getElem_mem hp')
    have hl := congrArg List.length hc
    simp only [List.length_drop, h3] at hl
    have := List.length_pos_iff.2 (hne _ hmem)
    omega
  · intro el' hel' ty hty
    obtain ⟨i, hi, rfl⟩ := List.mem_iff_getElem.1 hel'
    have hi0 : i < d.elements.length := by rw [hr.elements.length_eq]; exact hi
    obtain ⟨b1, b2⟩ := hr.elements.get hi0 hi
    simp only [List.get_eq_getElem] at b1 b2
    have h1 : (d.elements[i])[1]? = some ty := by
      rw [← hty]
      have := congrArg (fun l => l[1]?) b1
      simpa [List.getElem?_take] using this.symm
    have := hp.types _ (List.getElem_mem hi0) ty h1
    rw [b2.length_eq] at this
    exact this

/-- C21.  A stable plane model is also solved after its nodes are renumbered, with the renumbered displacements. -/
theorem C21_renumbered_run {d d' : Gui.Data K} {π : ℕ → ℕ} {ms : List (Member K)} (hp : PlaneModel d) (hwf : WellFormed d) (hsp : SolverOk sp)
    (hms : Members sq d ms) (hst : Stable d.cons 2 ms) (hfree : ∃ p j, Free d.cons 2 p j) (hl : ∀ L ∈ d.loads, 3 ≤ L.length)
    (hr : Renumbered π d d') (hne : ∀ r ∈ d'.nodes, r ≠ []) :
    ∃ res res', Gui.solidsAuto sq sp de d false = .ok res ∧ Gui.solidsAuto sq sp de d' false = .ok res' ∧
      res'.disp.length = res.disp.length ∧ ∀ p < d.nodes.length, res'.disp[π p]? = res.disp[p]? := by
  obtain ⟨res, h⟩ := C93_solids_auto_returns (de := de) hp hwf hsp hms hst hfree (by
    intro L hL
    refine ⟨hl L hL, ?_⟩
    obtain ⟨i, hi, rfl⟩ := List.mem_iff_getElem.1 hL
    obtain ⟨p, h1, h2, -, -⟩ := hr.loads.get hi (by rw [← hr.loads.length_eq]; exact hi)
    exact ⟨p, (names_nat h1 h2).2 rfl⟩)
  obtain ⟨res', h'⟩ := C93_solids_auto_returns (de := de) (hr.plane hp hne) (hr.wellFormed hwf) hsp (members_renumber hr hms)
    (hr.stable hwf hms hst) (by
      obtain ⟨p, j, hf⟩ := hfree
      have hp' : p < d.nodes.length := by have := free_lt hf; have := hwf.size; omega
      exact ⟨π p, j, (hr.free hp' j).2 hf⟩) (by
    intro L hL
    obtain ⟨i, hi, rfl⟩ := List.mem_iff_getElem.1 hL
    have hi0 : i < d.loads.length := by rw [hr.loads.length_eq]; exact hi
    obtain ⟨p, h1, h2, h3, h4⟩ := hr.loads.get hi0 hi
    simp only [List.get_eq_getElem] at h3 h4
    have hlen := congrArg List.length h4
    have := hl _ (List.getElem_mem hi0)
    simp only [List.length_drop] at hlen
    exact ⟨by omega, π p, (names_nat (by rw [hr.size]; exact hr.maps p h1) h3).2 rfl⟩)
  exact ⟨res, res', h, h', C21_node_renumbering hwf hsp hms hst h hr h'⟩

theorem mapM_follow {α α' β : Type} {f : α → Py β} {f' : α' → Py β} {R : α → α' → Prop} {l : List α} {l' : List α'} {r : List β}
    (hR : List.Forall₂ R l l') (hf : ∀ a a' b, R a a' → f a = .ok b → f' a' = .ok b) (h : l.mapM f = .ok r) : l'.mapM f' = .ok r := by
  rw [mapM_ok] at h ⊢
  induction hR generalizing r with
  | nil => cases h; exact .nil
  | cons a _ ih =>
    cases h with
    | cons h1 h2 => exact .cons (hf _ _ _ a h1) (ih h2)

section
variable {d d' : Gui.Data K} {π : ℕ → ℕ}

theorem filter_follow (hr : Renumbered π d d') {ids ids' : List ℤ}
    (h : List.Forall₂ (fun i i' : ℤ => ∃ p : ℕ, p < d.nodes.length ∧ i = p ∧ i' = (π p : ℕ)) ids ids') {p : ℕ} (hp : p < d.nodes.length) (k : ℕ) :
    ((ids'.zipIdx k).filter fun x => decide (Resolves d'.nodes.length x.1 (π p))).map Prod.snd =
      ((ids.zipIdx k).filter fun x => decide (Resolves d.nodes.length x.1 p)).map Prod.snd := by
  induction h generalizing k with
  | nil => rfl
  | cons a _ ih =>
    obtain ⟨p', hp', rfl, rfl⟩ := a
    have e : Resolves d'.nodes.length ((π p' : ℕ) : ℤ) (π p) ↔ Resolves d.nodes.length ((p' : ℕ) : ℤ) p := by
      constructor
      · intro h
        have := resolves_unique h ⟨by rw [hr.size]; exact hr.maps p' hp', Or.inl rfl⟩
        rw [hr.inj p hp p' hp' this]
        exact ⟨hp', Or.inl rfl⟩
      · intro h
        rw [resolves_unique h ⟨hp', Or.inl rfl⟩]
        exact ⟨by rw [hr.size]; exact hr.maps p' hp', Or.inl rfl⟩
    simp only [List.zipIdx_cons, List.filter_cons, e]
    split
    · simp only [List.map_cons, ih]
    · exact ih _

theorem gather_follow (hr : Renumbered π d d') {ids ids' : List ℤ}
    (h : List.Forall₂ (fun i i' : ℤ => ∃ p : ℕ, p < d.nodes.length ∧ i = p ∧ i' = (π p : ℕ)) ids ids') (f : ℕ → Fin 3 → K)
    {p : Fin d.nodes.length} {q : Fin d'.nodes.length} (e : q.1 = π p.1) :
    gather ids'.zipIdx f q = gather ids.zipIdx f p := by
  unfold gather
  have := congrArg (fun l => (l.map f).sum) (filter_follow hr h p.2 0)
  simp only [List.map_map] at this
  rw [e]
  exact this

theorem spots_follow (hr : Renumbered π d d') {el el' : List ℤ}
    (h : List.Forall₂ (fun i i' : ℤ => ∃ p : ℕ, p < d.nodes.length ∧ i = p ∧ i' = (π p : ℕ)) (el.drop 3) (el'.drop 3))
    {p : Fin d.nodes.length} {q : Fin d'.nodes.length} (e : q.1 = π p.1) :
    spots d'.nodes.length el' q = spots d.nodes.length el p := by
  unfold spots
  rw [e]
  exact filter_follow hr h p.2 0

theorem strainElem_follow (hr : Renumbered π d d') {iet : ℤ} {ndof nne : ℕ} {sol sol' : Table K} (hsol : ∀ p < d.nodes.length, sol'[π p]? = sol[p]?)
    {el el' : List ℤ} (h3 : el'.take 3 = el.take 3)
    (hids : List.Forall₂ (fun i i' : ℤ => ∃ p : ℕ, p < d.nodes.length ∧ i = p ∧ i' = (π p : ℕ)) (el.drop 3) (el'.drop 3))
    {a b : NodeAcc K d.nodes.length} {a' : NodeAcc K d'.nodes.length}
    (ha : ∀ (p : Fin d.nodes.length) (q : Fin d'.nodes.length), q.1 = π p.1 → a'.E q = a.E p ∧ a'.S q = a.S p ∧ a'.cnt q = a.cnt p)
    (h : strainElem iet ndof nne d.nodes d.mats sol a el = .ok b) :
    ∃ b' : NodeAcc K d'.nodes.length, strainElem iet ndof nne d'.nodes d'.mats sol' a' el' = .ok b' ∧
      ∀ (p : Fin d.nodes.length) (q : Fin d'.nodes.length), q.1 = π p.1 → b'.E q = b.E p ∧ b'.S q = b.S p ∧ b'.cnt q = b.cnt p := by
  obtain ⟨eps, C, ⟨mi, row, xs, us, c1, c2, c3, c4, c5, c6, c7, c8⟩, g1, g2, rfl⟩ := strainElem_ok.1 h
  refine ⟨_, strainElem_ok.2 ⟨eps, C, ⟨mi, row, xs, us, ?_, ?_, c3, ?_, c5, ?_, ?_, c8⟩, ?_, ?_, rfl⟩, ?_⟩
  · rw [pyGet_two] at c1 ⊢
    rw [← c1]
    have := congrArg (fun l => l[2]?) h3
    simpa [List.getElem?_take] using this
  · rw [hr.mats]; exact c2
  · rw [← hids.length_eq]; exact c4
  · refine mapM_follow hids ?_ c6
    rintro _ _ b ⟨p, hp, rfl, rfl⟩ h
    obtain ⟨nd, h1, h⟩ := bind_ok.1 h
    obtain ⟨x, h2, h⟩ := bind_ok.1 h
    obtain ⟨y, h3, h⟩ := bind_ok.1 h
    rw [pyGet_nat] at h1
    have hc := hr.coords p hp
    rw [h1] at hc
    cases hrow : d'.nodes[π p]? with
    | none => rw [hrow] at hc; simp at hc
    | some nd' =>
      rw [hrow] at hc
      simp only [Option.map_some, Option.some.injEq] at hc
      rw [pyGet_one] at h2
      rw [pyGet_two] at h3
      have e1 := congrArg (fun l => l[0]?) hc
      have e2 := congrArg (fun l => l[1]?) hc
      simp only [List.getElem?_drop] at e1 e2
      rw [bind_ok]
      refine ⟨nd', pyGet_nat.2 hrow, bind_ok.2 ⟨x, pyGet_one.2 (e1.trans h2), bind_ok.2 ⟨y, pyGet_two.2 (e2.trans h3), h⟩⟩⟩
  · refine mapM_follow hids ?_ c7
    rintro _ _ b ⟨p, hp, rfl, rfl⟩ h
    obtain ⟨nd, h1, h⟩ := bind_ok.1 h
    rw [pyGet_nat] at h1
    exact bind_ok.2 ⟨nd, pyGet_nat.2 ((hsol p hp).trans h1), h⟩
  · intro z hz
    obtain ⟨i, hi, rfl⟩ := List.mem_iff_getElem.1 hz
    obtain ⟨p, hp, -, e⟩ := hids.get (by rw [hids.length_eq]; exact hi) hi
    simp only [List.get_eq_getElem] at e
    rw [e]
    exact ⟨π p, by rw [hr.size]; exact hr.maps p hp, Or.inl rfl⟩
  · rw [← hids.length_eq]; exact g2
  · intro p q e
    obtain ⟨q1, q2, q3⟩ := ha p q e
    dsimp only
    rw [q1, q2, q3, gather_follow hr hids _ e, gather_follow hr hids _ e, spots_follow hr hids e]
    exact ⟨rfl, rfl, rfl⟩

/-- C21.  Nodal strains and stresses of the renumbered model for the renumbered displacements are the renumbered strains and stresses. -/
theorem C21_strains (hr : Renumbered π d d') {sol sol' : Table K} (hsol : ∀ p < d.nodes.length, sol'[π p]? = sol[p]?) {E S}
    (h : strainNodes d.nodes d.elements d.mats sol = .ok (E, S)) :
    ∃ E' S', strainNodes d'.nodes d'.elements d'.mats sol' = .ok (E', S') ∧
      ∀ (p : Fin d.nodes.length) (q : Fin d'.nodes.length), q.1 = π p.1 → E' q = E p ∧ S' q = S p := by
  unfold strainNodes at h ⊢
  obtain ⟨el0, g0, h⟩ := bind_ok.1 h
  obtain ⟨iet, g1, h⟩ := bind_ok.1 h
  obtain ⟨⟨ndof, nne, n3⟩, g2, h⟩ := bind_ok.1 h
  dsimp only at h
  obtain ⟨acc, g3, h⟩ := bind_ok.1 h
  have loop : ∀ {els els' : List (List ℤ)}, List.Forall₂ (fun el el' : List ℤ => el'.take 3 = el.take 3 ∧
      List.Forall₂ (fun i i' : ℤ => ∃ p : ℕ, p < d.nodes.length ∧ i = p ∧ i' = (π p : ℕ)) (el.drop 3) (el'.drop 3)) els els' →
      ∀ (a b : NodeAcc K d.nodes.length) (a' : NodeAcc K d'.nodes.length),
      (∀ (p : Fin d.nodes.length) (q : Fin d'.nodes.length), q.1 = π p.1 → a'.E q = a.E p ∧ a'.S q = a.S p ∧ a'.cnt q = a.cnt p) →
      els.foldlM (strainElem iet ndof nne d.nodes d.mats sol) a = .ok b →
      ∃ b' : NodeAcc K d'.nodes.length, els'.foldlM (strainElem iet ndof nne d'.nodes d'.mats sol') a' = .ok b' ∧
      ∀ (p : Fin d.nodes.length) (q : Fin d'.nodes.length), q.1 = π p.1 → b'.E q = b.E p ∧ b'.S q = b.S p ∧ b'.cnt q = b.cnt p := by
    intro els els' hels
    induction hels with
    | nil =>
      intro a b a' ha h
      cases h
      exact ⟨a', rfl, ha⟩
    | cons x _ ih =>
      intro a b a' ha h
      rw [List.foldlM_cons] at h
      obtain ⟨t, t1, t2⟩ := bind_ok.1 h
      obtain ⟨t', t3, t4⟩ := strainElem_follow hr hsol x.1 x.2 ha t1
      obtain ⟨b', t5, t6⟩ := ih t b t' t4 t2
      exact ⟨b', by rw [List.foldlM_cons, t3]; exact t5, t6⟩
  obtain ⟨acc', k1, k2⟩ := loop hr.elements _ _ ⟨fun _ _ => 0, fun _ _ => 0, fun _ => 0⟩ (fun _ _ _ => ⟨rfl, rfl, rfl⟩) g3
  have hels := hr.elements
  rw [pyGet_zero] at g0
  rw [pyGet_one] at g1
  obtain ⟨hi, hel⟩ := List.getElem?_eq_some_iff.1 g0
  have hi' : 0 < d'.elements.length := by rw [← hels.length_eq]; exact hi
  obtain ⟨b1, -⟩ := hels.get hi hi'
  simp only [List.get_eq_getElem] at b1
  have g1' : (d'.elements[0])[1]? = some iet := by
    rw [← g1, ← hel]
    have := congrArg (fun l => l[1]?) b1
    simpa [List.getElem?_take] using this
  rw [pyGet_zero.2 (List.getElem?_eq_getElem hi'), ok_bind, pyGet_one.2 g1', ok_bind, g2, ok_bind]
  dsimp only
  rw [k1, ok_bind]
  cases h
  refine ⟨_, _, rfl, fun p q e => ?_⟩
  obtain ⟨q1, q2, q3⟩ := k2 p q e
  dsimp only
  rw [q1, q2, q3]
  exact ⟨rfl, rfl⟩

end
end

/-! Cases. -/
section demo

/-- The truss with its two bars listed the other way round. -/
example (res : Gui.Result ℝ) : Gui.solidsAuto Real.sqrt cramerR cramerR trussR false = .ok res ↔
    Gui.solidsAuto Real.sqrt cramerR cramerR { trussR with elements := [[1, 6, 1, 1, 2], [0, 6, 0, 0, 2]] } false = .ok res :=
  C20_run (.swap _ _ _) res

/-- The truss with node 2 moved to the front. -/
noncomputable def trussTurned : Gui.Data ℝ where
  nodes := [[0, 4, 3], [1, 0, 0], [2, 4, 0]]
  cons := [[0, 0], [-1, -1], [-1, -1]]
  elements := [[0, 6, 0, 1, 0], [1, 6, 1, 2, 0]]
  mats := [[125, 1], [9, 1]]
  loads := [[0, 4, -6]]

theorem trussTurned_renumbered : Renumbered (fun p => (p + 1) % 3) trussR trussTurned where
  maps p _ := Nat.mod_lt _ (by decide)
  inj p hp q hq e := by
    simp only [trussR, List.length_cons, List.length_nil] at hp hq
    omega
  size := rfl
  coords p hp := by
    simp only [trussR, List.length_cons, List.length_nil] at hp
    interval_cases p <;> rfl
  consSize := rfl
  cons p hp := by
    simp only [trussR, List.length_cons, List.length_nil] at hp
    interval_cases p <;> rfl
  mats := rfl
  elements := .cons ⟨rfl, .cons ⟨0, by decide, rfl, rfl⟩ (.cons ⟨2, by decide, rfl, rfl⟩ .nil)⟩
    (.cons ⟨rfl, .cons ⟨1, by decide, rfl, rfl⟩ (.cons ⟨2, by decide, rfl, rfl⟩ .nil)⟩ .nil)
  loads := .cons ⟨2, by decide, by simp, by simp, rfl⟩ .nil

/-- Case for C21: both are solved, and the loaded node, row 2 of the first answer, is row 0 of the second. -/
example : ∃ res res', Gui.solidsAuto Real.sqrt cramerR cramerR trussR false = .ok res ∧
    Gui.solidsAuto Real.sqrt cramerR cramerR trussTurned false = .ok res' ∧ res'.disp[0]? = res.disp[2]? := by
  obtain ⟨ms, hms⟩ := truss_members sqrtFn_real trussR_bars
  obtain ⟨res, res', h1, h2, -, h3⟩ := C21_renumbered_run (de := cramerR) trussR_plane trussR_wf cramerR_ok hms (trussR_stable hms)
    ⟨2, 0, trussR_free 0 (by omega)⟩ (by simp [trussR]) trussTurned_renumbered (by simp [trussTurned])
  exact ⟨res, res', h1, h2, h3 2 (by decide)⟩

/-- Two triangles. -/
def twoTris : Gui.Data ℚ where
  nodes := [[0, 0, 0], [1, 1, 0], [2, 1, 1], [3, 0, 1]]
  cons := [[-1, -1], [0, 0], [0, 0], [-1, 0]]
  elements := [[0, 3, 0, 0, 1, 2], [1, 3, 0, 0, 2, 3]]
  mats := [[1, 1/4]]
  loads := []

/-- The same with the nodes numbered backwards. -/
def twoTrisBack : Gui.Data ℚ where
  nodes := [[0, 0, 1], [1, 1, 1], [2, 1, 0], [3, 0, 0]]
  cons := [[-1, 0], [0, 0], [0, 0], [-1, -1]]
  elements := [[0, 3, 0, 3, 2, 1], [1, 3, 0, 3, 1, 0]]
  mats := [[1, 1/4]]
  loads := []

theorem twoTrisBack_renumbered : Renumbered (fun p => 3 - p) twoTris twoTrisBack where
  maps p _ := by
    simp only [twoTris, List.length_cons, List.length_nil]
    omega
  inj p hp q hq e := by
    simp only [twoTris, List.length_cons, List.length_nil] at hp hq
    omega
  size := rfl
  coords p hp := by
    simp only [twoTris, List.length_cons, List.length_nil] at hp
    interval_cases p <;> rfl
  consSize := rfl
  cons p hp := by
    simp only [twoTris, List.length_cons, List.length_nil] at hp
    interval_cases p <;> rfl
  mats := rfl
  elements := .cons ⟨rfl, .cons ⟨0, by decide, rfl, rfl⟩ (.cons ⟨1, by decide, rfl, rfl⟩ (.cons ⟨2, by decide, rfl, rfl⟩ .nil))⟩
    (.cons ⟨rfl, .cons ⟨0, by decide, rfl, rfl⟩ (.cons ⟨2, by decide, rfl, rfl⟩ (.cons ⟨3, by decide, rfl, rfl⟩ .nil))⟩ .nil)
  loads := .nil

/-- Cases for C20 and C21: the strains of a state that is not uniform, listed in another order and numbered backwards. -/
example : ∃ E S E' S', strainNodes twoTris.nodes twoTris.elements twoTris.mats [[0, 0], [1, 2], [3, 5], [0, 1]] = .ok (E, S) ∧
    strainNodes twoTris.nodes [[1, 3, 0, 0, 2, 3], [0, 3, 0, 0, 1, 2]] twoTris.mats [[0, 0], [1, 2], [3, 5], [0, 1]] = .ok (E, S) ∧
    strainNodes twoTrisBack.nodes twoTrisBack.elements twoTrisBack.mats [[0, 1], [3, 5], [1, 2], [0, 0]] = .ok (E', S') ∧
    E' ⟨2, by decide⟩ = E ⟨1, by decide⟩ ∧ S' ⟨3, by decide⟩ = S ⟨0, by decide⟩ := by
  obtain ⟨⟨E, S⟩, h⟩ : ∃ r, strainNodes twoTris.nodes twoTris.elements twoTris.mats [[0, 0], [1, 2], [3, 5], [0, 1]] = .ok r :=
    isOk_exists (by decide +kernel)
  obtain ⟨E', S', h', e⟩ := C21_strains twoTrisBack_renumbered (sol' := [[0, 1], [3, 5], [1, 2], [0, 0]]) (by
    intro p hp
    simp only [twoTris, List.length_cons, List.length_nil] at hp
    interval_cases p <;> rfl) h
  exact ⟨E, S, E', S', h, (C20_strains (.swap _ _ _) (ty := 3) (by simp)).1 h, h',
    (e ⟨1, by decide⟩ ⟨2, by decide⟩ rfl).1, (e ⟨0, by decide⟩ ⟨3, by decide⟩ rfl).2⟩

end demo
end SolidsPy
