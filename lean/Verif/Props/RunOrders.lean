import Verif.Props.AnyRun
import Verif.Props.Orders
import Verif.Props.Band
import Verif.Props.UserVibration
import Verif.Props.FrameModes

/-! # C169: element order, node numbers and band for frames and for the user's own elements -/

set_option linter.unusedSectionVars false

namespace SolidsPy
open Spec Assem

section
variable {K : Type} [Field K] [LinearOrder K] [IsStrictOrderedRing K] [FloorRing K]
variable {sq : K → K} {cons mats nodes loads : Table K} {elements elements' : List (List ℤ)} {nd n m : ℕ} {ms : List (Member K)}
variable {sp de : Sol.Solver K} {tab : ℤ → Py (Uel K)} {f : Uel K} {count : ℤ → Py ℕ} {sparse : Bool}

/-! ## The order of the elements -/

theorem front_perm_of {count : Option (ℤ → Py ℕ)} {uel : Option (Uel K)} (hp : elements.Perm elements') {op bc neq Kg Mg}
    (h1 : dme cons elements nd m count = .ok (op, bc, neq)) (h2 : assembler tab elements mats nodes neq op sparse uel = .ok (Kg, Mg)) :
    ∃ op', dme cons elements' nd m count = .ok (op', bc, neq) ∧
      assembler tab elements' mats nodes neq op' sparse uel = .ok (Kg, Mg) := by
  obtain ⟨a1, a2⟩ := dme_ok.1 h1
  obtain ⟨op', b1, b2, -⟩ := mapM_perm hp a2
  exact ⟨op', dme_ok.2 ⟨a1, b1⟩, (C09_element_order_irrelevant (mapM_length a2) (mapM_length b1) b2 _).1 h2⟩

/-- C169.  Whatever the tables and the solvers: the analysis of a frame with its elements in another order returns exactly when it returns
with the given order, and then the same displacements. -/
theorem C169_frame_elements (hp : elements.Perm elements') (full : Table K) :
    frameRun sq sp de sparse cons elements mats nodes loads = .ok full ↔
      frameRun sq sp de sparse cons elements' mats nodes loads = .ok full := by
  have one : ∀ {elements elements' : List (List ℤ)}, elements.Perm elements' →
      frameRun sq sp de sparse cons elements mats nodes loads = .ok full →
      frameRun sq sp de sparse cons elements' mats nodes loads = .ok full := by
    intro elements elements' hp h
    obtain ⟨op, bc, neq, Kg, Mg, rhs, x, h1, h2, h3⟩ := frameRun_ok.1 h
    obtain ⟨op', g1, g2⟩ := front_perm_of hp h1 h2
    exact frameRun_ok.2 ⟨op', bc, neq, Kg, Mg, rhs, x, g1, g2, h3⟩
  exact ⟨one hp, one hp.symm⟩

/-- C169.  The same for the user's own element, whatever it is. -/
theorem C169_user_elements (hp : elements.Perm elements') (full : Table K) :
    userRun tab f nd m count sp de sparse cons elements mats nodes loads = .ok full ↔
      userRun tab f nd m count sp de sparse cons elements' mats nodes loads = .ok full := by
  have one : ∀ {elements elements' : List (List ℤ)}, elements.Perm elements' →
      userRun tab f nd m count sp de sparse cons elements mats nodes loads = .ok full →
      userRun tab f nd m count sp de sparse cons elements' mats nodes loads = .ok full := by
    intro elements elements' hp h
    obtain ⟨op, bc, neq, Kg, Mg, rhs, x, h1, h2, h3⟩ := userRun_ok.1 h
    obtain ⟨op', g1, g2⟩ := front_perm_of hp h1 h2
    exact userRun_ok.2 ⟨op', bc, neq, Kg, Mg, rhs, x, g1, g2, h3⟩
  exact ⟨one hp, one hp.symm⟩

/-! ## The numbers of the nodes -/

variable {d d' : Gui.Data K} {π : ℕ → ℕ}

theorem members_renumber_of {fn : ℤ → Uel K → Prop} (hr : Renumbered π d d') (hms : List.Forall₂ (IsMember fn d.mats d.nodes) d.elements ms) :
    List.Forall₂ (IsMember fn d'.mats d'.nodes) d'.elements (ms.map (renameMember π)) := by
  have hel := hr.elements
  generalize d.elements = els at hms hel
  generalize d'.elements = els' at hel
  induction hms generalizing els' with
  | nil => cases hel; exact .nil
  | cons a _ ih =>
    rename_i el m els ms ht
    cases hel with
    | cons b t =>
      rename_i el' els'
      refine .cons ?_ (ih _ t)
      obtain ⟨ty, mi, params, rows, f, kl, ml, a1, a2, ⟨q, a3, a4⟩, a5, a6, a7, a8, a9⟩ := a
      obtain ⟨b1, b2⟩ := b
      have hidx : ∀ k < 3, el'[k]? = el[k]? := by
        intro k hk
        have := congrArg (fun l => l[k]?) b1
        simpa [List.getElem?_take, hk] using this
      have hnodes : ∃ rows', List.Forall₂ (Resolves d'.nodes.length) (el'.drop 3) (m.nodes.map π) ∧
          List.Forall₂ (fun p row => d'.nodes[p]? = some row) (m.nodes.map π) rows' ∧
          rows'.map (List.drop 1) = rows.map (List.drop 1) := by
        clear a1 a2 b1 hidx a8
        generalize el.drop 3 = ids at a5 b2
        generalize el'.drop 3 = ids' at b2
        generalize m.nodes = ps at a5 a6
        induction a5 generalizing rows ids' with
        | nil => cases b2; cases a6; exact ⟨[], .nil, .nil, rfl⟩
        | cons c _ ih =>
          cases b2 with
          | cons e t =>
            cases a6 with
            | cons g t' =>
              rename_i i p _ _ _ _ _ _ _
              obtain ⟨rows', h1, h2, h3⟩ := ih _ _ t t'
              obtain ⟨p', hp', rfl, rfl⟩ := e
              have hpp : p = p' := resolves_unique c ⟨hp', Or.inl rfl⟩
              subst hpp
              have hc := hr.coords p hp'
              rw [g] at hc
              cases hrow : d'.nodes[π p]? with
              | none => rw [hrow] at hc; simp at hc
              | some row' =>
                rw [hrow] at hc
                simp only [Option.map_some, Option.some.injEq] at hc
                refine ⟨row' :: rows', ?_, ?_, ?_⟩
                · exact .cons ⟨by rw [hr.size]; exact hr.maps p hp', Or.inl rfl⟩ h1
                · exact .cons hrow h2
                · simp only [List.map_cons, hc, h3]
      obtain ⟨rows', h1, h2, h3⟩ := hnodes
      refine ⟨ty, mi, params, rows', f, kl, ml, ?_, ?_, ⟨q, ?_, ?_⟩, h1, h2, a7, ?_, a9⟩
      · rw [hidx 1 (by omega)]; exact a1
      · rw [hidx 2 (by omega)]; exact a2
      · rw [hr.mats]; exact a3
      · rw [hr.mats]; exact a4
      · rw [h3]; exact a8
theorem internal_renumber_of {n : ℕ} (inj : ∀ p < n, ∀ q < n, π p = π q → p = q)
    {ms : List (Member K)} (hn : ∀ m ∈ ms, ∀ p ∈ m.nodes, p < n) (u : ℕ → ℕ → K) {p : ℕ} (hp : p < n)
    (j : ℕ) :
    internal nd (ms.map (renameMember π)) u (π p) j = internal nd ms (fun q c => u (π q) c) p j := by
  unfold internal
  rw [List.map_map]
  congr 1
  refine List.map_congr_left fun m hm => ?_
  have hforce : ∀ a, (renameMember π m).force nd u a j = m.force nd (fun q c => u (π q) c) a j := by
    intro a
    unfold Member.force renameMember
    simp only [List.length_map]
    refine Finset.sum_congr rfl fun b hb => Finset.sum_congr rfl fun c _ => ?_
    rw [Finset.mem_range] at hb
    simp [List.getD_eq_getElem?_getD, List.getElem?_map, List.getElem?_eq_getElem hb]
  simp only [Function.comp_apply, hforce]
  unfold renameMember
  simp only [List.length_map]
  refine Finset.sum_congr rfl fun a ha => ?_
  rw [Finset.mem_range] at ha
  have hq : m.nodes[a] < n := hn m hm _ (List.getElem_mem ha)
  have : ((m.nodes.map π)[a]? = some (π p)) ↔ (m.nodes[a]? = some p) := by
    simp only [List.getElem?_map, List.getElem?_eq_getElem ha, Option.map_some, Option.some.injEq]
    exact ⟨fun e => inj _ hq _ hp e, fun e => by rw [e]⟩
  simp only [this]

theorem Renumbered.free_of (hr : Renumbered π d d') {p : ℕ} (hp : p < d.nodes.length) (j : ℕ) :
    Free d'.cons nd (π p) j ↔ Free d.cons nd p j := by
  unfold Free entry
  rw [hr.cons p hp]

theorem Renumbered.codes_of (hr : Renumbered π d d') (hsz : d.cons.length = d.nodes.length) (h : ValidCons d.cons nd) :
    ValidCons d'.cons nd := by
  intro q j x hj hx
  obtain ⟨row, h1, _⟩ := entry_some.1 hx
  have hq := (List.getElem?_eq_some_iff.1 h1).1
  rw [hr.consSize, hsz] at hq
  obtain ⟨p, hp, rfl⟩ := hr.surj q hq
  unfold entry at hx
  rw [hr.cons p hp] at hx
  exact h p j x hj hx

theorem Renumbered.width_of (hr : Renumbered π d d') (hsz : d.cons.length = d.nodes.length) (h : ∀ r ∈ d.cons, r.length = nd) :
    ∀ r ∈ d'.cons, r.length = nd := by
  intro row hrow
  obtain ⟨q, hq, rfl⟩ := List.mem_iff_getElem.1 hrow
  have hq' := hq
  rw [hr.consSize, hsz] at hq'
  obtain ⟨p, hp, rfl⟩ := hr.surj q hq'
  have := hr.cons p hp
  rw [List.getElem?_eq_getElem hq, List.getElem?_eq_getElem (by omega), Option.some.injEq] at this
  rw [this]
  exact h _ (List.getElem_mem _)

theorem Renumbered.stable_of (hr : Renumbered π d d') (hsz : d.cons.length = d.nodes.length)
    (hin : ∀ m ∈ ms, ∀ p ∈ m.nodes, p < d.nodes.length) (hst : Stable d.cons nd ms) : Stable d'.cons nd (ms.map (renameMember π)) := by
  intro u ha hz q j hq hj
  rw [hr.consSize, hsz] at hq
  obtain ⟨p, hp, rfl⟩ := hr.surj q hq
  refine hst (fun q c => u (π q) c) ?_ ?_ p j (by omega) hj
  · intro q c hq hc hf
    have hq' : q < d.nodes.length := by omega
    refine ha (π q) c ?_ hc (by rw [hr.free_of hq']; exact hf)
    rw [hr.consSize, hsz]
    exact hr.maps q hq'
  · intro q c hf
    have hq' : q < d.nodes.length := by have := free_lt hf; omega
    rw [← internal_renumber_of hr.inj hin u hq' c]
    exact hz _ _ ((hr.free_of hq' c).2 hf)

theorem Renumbered.equilibrium_of (hr : Renumbered π d d') (hsz : d.cons.length = d.nodes.length)
    (hin : ∀ m ∈ ms, ∀ p ∈ m.nodes, p < d.nodes.length) {u : ℕ → ℕ → K}
    (he : Equilibrium d'.cons nd d'.loads (ms.map (renameMember π)) u) :
    Equilibrium d.cons nd d.loads ms (fun q c => u (π q) c) := by
  refine ⟨?_, ?_⟩
  · intro q c hq hc hf
    have hq' : q < d.nodes.length := by omega
    refine he.1 (π q) c ?_ hc (by rw [hr.free_of hq']; exact hf)
    rw [hr.consSize, hsz]
    exact hr.maps q hq'
  · intro q c hf
    have hq' : q < d.nodes.length := by have := free_lt hf; omega
    rw [← internal_renumber_of hr.inj hin _ hq' c, hsz]
    have := he.2 (π q) c ((hr.free_of hq' c).2 hf)
    rw [hr.consSize, hsz] at this
    exact isLoad_renumber hr.maps hr.inj hr.loads hq' this

theorem Renumbered.loads_named (hr : Renumbered π d d') {k : ℕ} (hl : ∀ L ∈ d.loads, k + 1 ≤ L.length) :
    (∀ L ∈ d.loads, k + 1 ≤ L.length ∧ ∃ p, Names d.nodes.length L p) ∧
      ∀ L ∈ d'.loads, k + 1 ≤ L.length ∧ ∃ p, Names d'.nodes.length L p := by
  constructor
  · intro L hL
    refine ⟨hl L hL, ?_⟩
    obtain ⟨i, hi, rfl⟩ := List.mem_iff_getElem.1 hL
    obtain ⟨p, h1, h2, -, -⟩ := hr.loads.get hi (by rw [← hr.loads.length_eq]; exact hi)
    exact ⟨p, (names_nat h1 h2).2 rfl⟩
  · intro L hL
    obtain ⟨i, hi, rfl⟩ := List.mem_iff_getElem.1 hL
    have hi0 : i < d.loads.length := by rw [hr.loads.length_eq]; exact hi
    obtain ⟨p, h1, h2, h3, h4⟩ := hr.loads.get hi0 hi
    simp only [List.get_eq_getElem] at h3 h4
    have hlen := congrArg List.length h4
    have := hl _ (List.getElem_mem hi0)
    simp only [List.length_drop] at hlen
    have hpos : 0 < d'.loads[i].length := by
      by_contra h0
      have : d'.loads[i] = [] := List.eq_nil_of_length_eq_zero (by omega)
      rw [this] at h3
      cases h3
    exact ⟨by omega, π p, (names_nat (by rw [hr.size]; exact hr.maps p h1) h3).2 rfl⟩

theorem Renumbered.rows_of (hr : Renumbered π d d') {el' : List ℤ} (h : el' ∈ d'.elements) :
    ∃ el ∈ d.elements, (∀ k < 3, el'[k]? = el[k]?) ∧ (el'.drop 3).length = (el.drop 3).length := by
  obtain ⟨i, hi, rfl⟩ := List.mem_iff_getElem.1 h
  have hi0 : i < d.elements.length := by rw [hr.elements.length_eq]; exact hi
  obtain ⟨b1, b2⟩ := hr.elements.get hi0 hi
  simp only [List.get_eq_getElem] at b1 b2
  refine ⟨_, List.getElem_mem hi0, fun k hk => ?_, b2.length_eq.symm⟩
  have := congrArg (fun l => l[k]?) b1
  simpa [List.getElem?_take, hk] using this

/-- C169.  A stable frame is also solved after its nodes are renumbered, with the renumbered displacements and rotations. -/
theorem C169_frame_nodes (hf : Frame d.cons d.nodes d.elements) (hms : List.Forall₂ (IsMember (Routine sq) d.mats d.nodes) d.elements ms)
    (hst : Stable d.cons 3 ms) (hsp : SolverOk sp) (hde : SolverOk de) (hl : ∀ L ∈ d.loads, 4 ≤ L.length) (hr : Renumbered π d d') :
    ∃ full full', frameRun sq sp de sparse d.cons d.elements d.mats d.nodes d.loads = .ok full ∧
      frameRun sq sp de sparse d'.cons d'.elements d'.mats d'.nodes d'.loads = .ok full' ∧
      ∀ p j, p < d.nodes.length → j < 3 → entry full' (π p) j = entry full p j ∧ (entry full p j).isSome := by
  have hf' : Frame d'.cons d'.nodes d'.elements := by
    refine ⟨hr.codes_of hf.size hf.codes, hr.width_of hf.size hf.width, by rw [hr.consSize, hf.size, hr.size], fun el' hel' => ?_⟩
    obtain ⟨el, hel, e1, e2⟩ := hr.rows_of hel'
    rw [e1 1 (by omega), e2]
    exact hf.beams el hel
  have hin := members_inn hms
  have hms' := members_renumber_of hr hms
  have hst' := hr.stable_of hf.size hin hst
  obtain ⟨l1, l2⟩ := hr.loads_named (k := 3) hl
  obtain ⟨full, h, he⟩ := C117_solved hf hms hst hsp hde sparse l1
  obtain ⟨full', h', he'⟩ := C117_solved hf' hms' hst' hsp hde sparse l2
  refine ⟨full, full', h, h', fun p j hp hj => ?_⟩
  have a := C117_unique hf hms hst hsp hde h (hr.equilibrium_of hf.size hin he') p j hp hj
  have b := C117_unique hf' hms' hst' hsp hde h' he' (π p) j (by rw [hr.size]; exact hr.maps p hp) hj
  exact ⟨by rw [a, b], by rw [a]; rfl⟩

/-- C169.  The same for the user's own elements. -/
theorem C169_user_nodes (hf : ElementOf nd n f) (hu : UserModel nd n d.cons d.nodes d.elements) (hc : Counts count (n * nd) d.elements)
    (h0 : 0 < n * nd) (hm : n * nd ≤ m) (hms : List.Forall₂ (Describes f d.mats d.nodes) d.elements ms)
    (hst : Stable d.cons nd ms) (hsp : SolverOk sp) (hde : SolverOk de) (hl : ∀ L ∈ d.loads, nd + 1 ≤ L.length) (hr : Renumbered π d d') :
    ∃ full full', userRun tab f nd m count sp de sparse d.cons d.elements d.mats d.nodes d.loads = .ok full ∧
      userRun tab f nd m count sp de sparse d'.cons d'.elements d'.mats d'.nodes d'.loads = .ok full' ∧
      ∀ p j, p < d.nodes.length → j < nd → entry full' (π p) j = entry full p j ∧ (entry full p j).isSome := by
  have hu' : UserModel nd n d'.cons d'.nodes d'.elements := by
    refine ⟨hr.codes_of hu.size hu.codes, hr.width_of hu.size hu.width, by rw [hr.consSize, hu.size, hr.size], fun el' hel' => ?_⟩
    obtain ⟨el, hel, e1, e2⟩ := hr.rows_of hel'
    rw [e2]
    exact hu.typed el hel
  have hc' : Counts count (n * nd) d'.elements := by
    intro el' hel'
    obtain ⟨el, hel, e1, e2⟩ := hr.rows_of hel'
    rw [e1 1 (by omega)]
    exact hc el hel
  have hin := members_inn hms
  have hms' : List.Forall₂ (Describes f d'.mats d'.nodes) d'.elements (ms.map (renameMember π)) := members_renumber_of hr hms
  have hst' := hr.stable_of hu.size hin hst
  obtain ⟨l1, l2⟩ := hr.loads_named (k := nd) hl
  obtain ⟨full, h, he⟩ := C135_solved (tab := tab) hf hu hc h0 hm hms hst hsp hde sparse l1
  obtain ⟨full', h', he'⟩ := C135_solved (tab := tab) hf hu' hc' h0 hm hms' hst' hsp hde sparse l2
  refine ⟨full, full', h, h', fun p j hp hj => ?_⟩
  have a := C135_unique hf hu hc h0 hm hms hst hsp hde h (hr.equilibrium_of hu.size hin he') p j hp hj
  have b := C135_unique hf hu' hc' h0 hm hms' hst' hsp hde h' he' (π p) j (by rw [hr.size]; exact hr.maps p hp) hj
  exact ⟨by rw [a, b], by rw [a]; rfl⟩

/-! ## The matrices of the renumbered model -/

theorem members_unique_any {fn : ℤ → Uel K → Prop} (hfn : ∀ ty f f', fn ty f → fn ty f' → f = f') {ms' : List (Member K)}
    (h : List.Forall₂ (IsMember fn mats nodes) elements ms) (h' : List.Forall₂ (IsMember fn mats nodes) elements ms') : ms = ms' := by
  induction h generalizing ms' with
  | nil => cases h'; rfl
  | cons a _ ih =>
    cases h' with
    | cons b t => rw [isMember_unique_of hfn a b, ih t]

theorem free_of_dofEq {neq : ℕ} {bc : List (List ℤ)} (h : eqcounter cons nd = .ok (neq, bc)) (hv : ValidCons cons nd) {p j : ℕ} (hj : j < nd)
    {i : Fin neq} (hd : DofEq bc neq p j i) : Free cons nd p j ∧ entry bc p j = some ((i : ℕ) : ℤ) := by
  obtain ⟨p', j', hf, he, -⟩ := (C01_numbering_bijective h).2 i i.2
  obtain ⟨rfl, rfl⟩ := (owns_of_eqcounter h hv hf he i.2).2.2 p j hj hd
  exact ⟨hf, he⟩

theorem renumbered_equations (hr : Renumbered π d d') (hsz : d.cons.length = d.nodes.length) {neq neq' : ℕ} {bc bc' : List (List ℤ)}
    (h : eqcounter d.cons nd = .ok (neq, bc)) (h' : eqcounter d'.cons nd = .ok (neq', bc')) :
    ∃ τ : Fin neq ≃ Fin neq', ∀ p j (i : Fin neq), Free d.cons nd p j → entry bc p j = some ((i : ℕ) : ℤ) →
      entry bc' (π p) j = some ((τ i : ℕ) : ℤ) := by
  have hlt : ∀ {p j}, Free d.cons nd p j → p < d.nodes.length := fun hf => by have := free_lt hf; omega
  have hex : ∀ i : Fin neq, ∃ i' : Fin neq', ∀ p j, Free d.cons nd p j → entry bc p j = some ((i : ℕ) : ℤ) →
      entry bc' (π p) j = some ((i' : ℕ) : ℤ) := fun i => by
    obtain ⟨p, j, hf, he, hu⟩ := (C01_numbering_bijective h).2 i i.2
    obtain ⟨e1, e2⟩ := free_entry h' ((hr.free_of (hlt hf) j).2 hf)
    refine ⟨⟨_, e2⟩, fun q c hq hk => ?_⟩
    obtain ⟨rfl, rfl⟩ := hu q c hq hk
    exact e1
  choose t ht using hex
  have hinj : Function.Injective t := fun i k e => by
    obtain ⟨p, j, hf, he, -⟩ := (C01_numbering_bijective h).2 i i.2
    obtain ⟨q, c, hq, hk, -⟩ := (C01_numbering_bijective h).2 k k.2
    have a := ht i p j hf he
    have b := ht k q c hq hk
    rw [← e] at b
    obtain ⟨_, _, _, _, hu⟩ := (C01_numbering_bijective h').2 (t i) (t i).2
    have a' := hu _ _ ((hr.free_of (hlt hf) j).2 hf) a
    have b' := hu _ _ ((hr.free_of (hlt hq) c).2 hq) b
    have epq : p = q := hr.inj p (hlt hf) q (hlt hq) (a'.1.trans b'.1.symm)
    have ejc : j = c := a'.2.trans b'.2.symm
    subst epq ejc
    rw [he, Option.some.injEq] at hk
    exact Fin.ext (by exact_mod_cast hk)
  have hsur : Function.Surjective t := fun i' => by
    obtain ⟨q, j, hf, he, -⟩ := (C01_numbering_bijective h').2 i' i'.2
    have hq := free_lt hf
    rw [hr.consSize, hsz] at hq
    obtain ⟨p, hp, rfl⟩ := hr.surj q hq
    have hf0 := (hr.free_of hp j).1 hf
    obtain ⟨e1, e2⟩ := free_entry h hf0
    refine ⟨⟨_, e2⟩, ?_⟩
    have := ht ⟨_, e2⟩ p j hf0 e1
    rw [he, Option.some.injEq] at this
    exact Fin.ext (by exact_mod_cast this.symm)
  exact ⟨Equiv.ofBijective t ⟨hinj, hsur⟩, fun p j i => ht i p j⟩

theorem renumbered_matrix {fn : ℤ → Uel K → Prop} (hfn : ∀ ty f f', fn ty f → fn ty f' → f = f') (hr : Renumbered π d d')
    (hsz : d.cons.length = d.nodes.length) {neq neq' : ℕ} {bc bc' : List (List ℤ)} {A : Matrix (Fin neq) (Fin neq) K}
    {B : Matrix (Fin neq') (Fin neq') K} {ms' : List (Member K)} (s : Setup fn d.cons d.elements d.mats d.nodes nd neq bc A ms)
    (s' : Setup fn d'.cons d'.elements d'.mats d'.nodes nd neq' bc' B ms') {τ : Fin neq ≃ Fin neq'}
    (hτ : ∀ p j (i : Fin neq), Free d.cons nd p j → entry bc p j = some ((i : ℕ) : ℤ) → entry bc' (π p) j = some ((τ i : ℕ) : ℤ)) :
    ∀ i k, B (τ i) (τ k) = A i k := by
  obtain rfl := members_unique_any hfn (members_renumber_of hr s.mem) s'.mem
  intro i k
  obtain ⟨U, hU⟩ := exists_completes (cons := d'.cons) bc' nd (Pi.single (τ k) (1 : K))
  have hin := members_inn s.mem
  have hlt : ∀ {p j}, Free d.cons nd p j → p < d.nodes.length := fun hf => by have := free_lt hf; omega
  have hV : Completes d.cons bc nd neq (Pi.single k (1 : K)) (fun p j => U (π p) j) := by
    intro p hp j hj
    have hp' : p < d.nodes.length := by omega
    have hq : π p < d'.cons.length := by rw [hr.consSize, hsz]; exact hr.maps p hp'
    constructor
    · intro a ha
      obtain ⟨f1, f2⟩ := free_of_dofEq s.eq s.valid hj ha
      have := (hU (π p) hq j hj).1 (τ a) ⟨_, hτ p j a f1 f2, by omega, (τ a).2, .inl rfl⟩
      dsimp only
      rw [this]
      by_cases e : a = k
      · subst e; rw [Pi.single_eq_same, Pi.single_eq_same]
      · rw [Pi.single_eq_of_ne e, Pi.single_eq_of_ne fun h => e (τ.injective h)]
    · intro hno
      refine (hU (π p) hq j hj).2 fun a' ha' => ?_
      obtain ⟨f1, -⟩ := free_of_dofEq s'.eq s'.valid hj ha'
      obtain ⟨e1, e2⟩ := free_entry s.eq ((hr.free_of hp' j).1 f1)
      exact hno ⟨_, e2⟩ ⟨_, e1, by omega, e2, .inl rfl⟩
  obtain ⟨p, j, hf, he, -⟩ := (C01_numbering_bijective s.eq).2 i i.2
  have a := s.mul _ _ hV p j i hf ⟨_, he, by omega, i.2, .inl rfl⟩
  have b := s'.mul _ _ hU (π p) j (τ i) ((hr.free_of (hlt hf) j).2 hf) ⟨_, hτ p j i hf he, by omega, (τ i).2, .inl rfl⟩
  rw [internal_renumber_of hr.inj hin U (hlt hf) j] at b
  rw [Matrix.mulVec_single_one] at a b
  exact b.trans a.symm

/-- The second pair of matrices is the first with equations renumbered by `τ`, and the equation of component `j` of node `p` becomes that of
component `j` of node `π p`. -/
structure Spec.SamePair (π : ℕ → ℕ) (cons : Table K) (nd : ℕ) (bc bc' : List (List ℤ)) {neq neq' : ℕ} (A B : Matrix (Fin neq) (Fin neq) K)
    (A' B' : Matrix (Fin neq') (Fin neq') K) (τ : Fin neq ≃ Fin neq') : Prop where
  place : ∀ p j (i : Fin neq), Free cons nd p j → entry bc p j = some ((i : ℕ) : ℤ) → entry bc' (π p) j = some ((τ i : ℕ) : ℤ)
  stiffness : ∀ i k, A' (τ i) (τ k) = A i k
  mass : ∀ i k, B' (τ i) (τ k) = B i k

theorem massRoutine_unique_of {sq : K → K} : ∀ ty f f', MassRoutine sq ty f → MassRoutine sq ty f' → f = f' := by
  rintro ty f f' ⟨f0, a1, rfl⟩ ⟨f1, b1, rfl⟩
  rw [Except.ok.inj (a1.symm.trans b1)]

section
variable {neq neq' : ℕ} {op op' bc bc' : List (List ℤ)} {Kg Mg : Matrix (Fin neq) (Fin neq) K} {Kg' Mg' : Matrix (Fin neq') (Fin neq') K}

/-- C169.  Stiffness and mass of the renumbered plane model are those of the model with equations renumbered, stable or not. -/
theorem C169_plane_matrices (hwf : WellFormed d) (hr : Renumbered π d d') (h1 : dme d.cons d.elements = .ok (op, bc, neq))
    (h2 : assembler (Uel.eleFun sq) d.elements d.mats d.nodes neq op = .ok (Kg, Mg)) (h1' : dme d'.cons d'.elements = .ok (op', bc', neq'))
    (h2' : assembler (Uel.eleFun sq) d'.elements d'.mats d'.nodes neq' op' = .ok (Kg', Mg')) :
    ∃ τ, SamePair π d.cons 2 bc bc' Kg Mg Kg' Mg' τ := by
  have hwf' := hr.wellFormed hwf
  obtain ⟨_, s⟩ := auto_setup h1 h2 hwf.codes hwf.width hwf.size
  obtain ⟨_, t⟩ := mass_setup h1 h2 hwf
  obtain ⟨_, s'⟩ := auto_setup h1' h2' hwf'.codes hwf'.width hwf'.size
  obtain ⟨_, t'⟩ := mass_setup h1' h2' hwf'
  obtain ⟨τ, hτ⟩ := renumbered_equations hr hwf.size s.eq s'.eq
  exact ⟨τ, hτ, renumbered_matrix (fun _ _ _ a b => Except.ok.inj (a.symm.trans b)) hr hwf.size s s' hτ,
    renumbered_matrix massRoutine_unique_of hr hwf.size t t' hτ⟩

/-- C169.  The renumbered frame. -/
theorem Renumbered.frame (hr : Renumbered π d d') (hf : Frame d.cons d.nodes d.elements) : Frame d'.cons d'.nodes d'.elements := by
  refine ⟨hr.codes_of hf.size hf.codes, hr.width_of hf.size hf.width, by rw [hr.consSize, hf.size, hr.size], fun el' hel' => ?_⟩
  obtain ⟨el, hel, e1, e2⟩ := hr.rows_of hel'
  rw [e1 1 (by omega), e2]
  exact hf.beams el hel

/-- C169.  Stiffness and mass of the renumbered frame. -/
theorem C169_frame_matrices (hf : Frame d.cons d.nodes d.elements) (hr : Renumbered π d d') (h1 : dme d.cons d.elements 3 = .ok (op, bc, neq))
    {sparse' : Bool} (h2 : assembler (Uel.eleFun sq) d.elements d.mats d.nodes neq op sparse = .ok (Kg, Mg))
    (h1' : dme d'.cons d'.elements 3 = .ok (op', bc', neq'))
    (h2' : assembler (Uel.eleFun sq) d'.elements d'.mats d'.nodes neq' op' sparse' = .ok (Kg', Mg')) :
    ∃ τ, SamePair π d.cons 3 bc bc' Kg Mg Kg' Mg' τ := by
  obtain ⟨_, s⟩ := frame_setup hf h1 h2
  obtain ⟨_, t⟩ := frame_mass_setup hf h1 h2
  obtain ⟨_, s'⟩ := frame_setup (hr.frame hf) h1' h2'
  obtain ⟨_, t'⟩ := frame_mass_setup (hr.frame hf) h1' h2'
  obtain ⟨τ, hτ⟩ := renumbered_equations hr hf.size s.eq s'.eq
  exact ⟨τ, hτ, renumbered_matrix (fun _ _ _ a b => Except.ok.inj (a.symm.trans b)) hr hf.size s s' hτ,
    renumbered_matrix massRoutine_unique_of hr hf.size t t' hτ⟩

theorem Renumbered.user (hr : Renumbered π d d') (hu : UserModel nd n d.cons d.nodes d.elements) :
    UserModel nd n d'.cons d'.nodes d'.elements := by
  refine ⟨hr.codes_of hu.size hu.codes, hr.width_of hu.size hu.width, by rw [hr.consSize, hu.size, hr.size], fun el' hel' => ?_⟩
  obtain ⟨el, hel, e1, e2⟩ := hr.rows_of hel'
  rw [e2]
  exact hu.typed el hel

theorem Renumbered.counts (hr : Renumbered π d d') {k : ℕ} (hc : Counts count k d.elements) : Counts count k d'.elements := by
  intro el' hel'
  obtain ⟨el, hel, e1, e2⟩ := hr.rows_of hel'
  rw [e1 1 (by omega)]
  exact hc el hel

/-- C169.  Stiffness and mass of the renumbered model of the user's own elements. -/
theorem C169_user_matrices (hf : ElementOf nd n f) (hu : UserModel nd n d.cons d.nodes d.elements) (hc : Counts count (n * nd) d.elements)
    (h0 : 0 < n * nd) (hm : n * nd ≤ m) (hr : Renumbered π d d') (h1 : dme d.cons d.elements nd m (some count) = .ok (op, bc, neq))
    {sparse' : Bool} (h2 : assembler tab d.elements d.mats d.nodes neq op sparse (some f) = .ok (Kg, Mg))
    (h1' : dme d'.cons d'.elements nd m (some count) = .ok (op', bc', neq'))
    (h2' : assembler tab d'.elements d'.mats d'.nodes neq' op' sparse' (some f) = .ok (Kg', Mg')) :
    ∃ τ, SamePair π d.cons nd bc bc' Kg Mg Kg' Mg' τ := by
  obtain ⟨_, s⟩ := user_setup hf hu hc h0 hm h1 h2
  obtain ⟨_, t⟩ := user_mass_setup hf hu hc h0 hm h1 h2
  obtain ⟨_, s'⟩ := user_setup hf (hr.user hu) (hr.counts hc) h0 hm h1' h2'
  obtain ⟨_, t'⟩ := user_mass_setup hf (hr.user hu) (hr.counts hc) h0 hm h1' h2'
  obtain ⟨τ, hτ⟩ := renumbered_equations hr hu.size s.eq s'.eq
  exact ⟨τ, hτ, renumbered_matrix (fun _ _ _ a b => a.trans b.symm) hr hu.size s s' hτ,
    renumbered_matrix (fun _ _ _ a b => a.trans b.symm) hr hu.size t t' hτ⟩

end

/-! ## The band -/

theorem band_of {fn gn : ℤ → Uel K → Prop} {neq : ℕ} {bc : List (List ℤ)} {Kg Mg : Matrix (Fin neq) (Fin neq) K} {μs : List (Member K)}
    (s : Setup fn cons elements mats nodes nd neq bc Kg ms) (t : Setup gn cons elements mats nodes nd neq bc Mg μs) {i k : Fin neq} :
    (∀ {p j q c : ℕ}, Kg i k ≠ 0 ∨ Mg i k ≠ 0 → Free cons nd p j → entry bc p j = some ((i : ℕ) : ℤ) → Free cons nd q c →
      entry bc q c = some ((k : ℕ) : ℤ) → ∃ el ∈ elements, RowHas nodes.length el p q) ∧
    ∀ {w : ℕ}, (∀ el ∈ elements, ∀ p q, RowHas nodes.length el p q → p ≤ q + w) →
      ((i : ℕ) + (nd * w + nd) ≤ k ∨ (k : ℕ) + (nd * w + nd) ≤ i) → Kg i k = 0 ∧ Mg i k = 0 := by
  have couple : ∀ {p j q c : ℕ}, Kg i k ≠ 0 ∨ Mg i k ≠ 0 → Free cons nd p j → entry bc p j = some ((i : ℕ) : ℤ) → Free cons nd q c →
      entry bc q c = some ((k : ℕ) : ℤ) → ∃ el ∈ elements, RowHas nodes.length el p q := by
    intro p j q c h hp hi hq hk
    rcases h with h | h
    · obtain ⟨m, hm, a, b⟩ := setup_coupling s h hp hi hq hk
      exact member_row s.mem hm a b
    · obtain ⟨m, hm, a, b⟩ := setup_coupling t h hp hi hq hk
      exact member_row t.mem hm a b
  refine ⟨couple, fun {w} hw hik => ?_⟩
  by_contra hno
  have h : Kg i k ≠ 0 ∨ Mg i k ≠ 0 := by
    by_contra h'
    push Not at h'
    exact hno h'
  obtain ⟨p, j, hp, hi, -⟩ := (C01_numbering_bijective s.eq).2 i i.2
  obtain ⟨q, c, hq, hk, -⟩ := (C01_numbering_bijective s.eq).2 k k.2
  obtain ⟨el, hel, hr⟩ := couple h hp hi hq hk
  have e1 : nd * p ≤ nd * q + nd * w := by rw [← Nat.mul_add]; exact Nat.mul_le_mul_left _ (hw el hel p q hr)
  have e2 : nd * q ≤ nd * p + nd * w := by rw [← Nat.mul_add]; exact Nat.mul_le_mul_left _ (hw el hel q p hr.symm)
  have j1 := hp.1
  have j2 := hq.1
  rcases hik with hik | hik
  · have := number_gap s.eq hp hi hq hk (by rw [Fin.le_def]; omega)
    omega
  · have := number_gap s.eq hq hk hp hi (by rw [Fin.le_def]; omega)
    omega

variable {neq : ℕ} {op bc : List (List ℤ)} {Kg Mg : Matrix (Fin neq) (Fin neq) K}

/-- C169.  The matrices of a frame couple only degrees of freedom of nodes of a common beam; if the numbers of the ends of every beam
differ by at most `w`, the entries `3 w + 3` places or more away from the diagonal vanish. -/
theorem C169_frame_band (hf : Frame cons nodes elements) (h1 : dme cons elements 3 = .ok (op, bc, neq))
    (h2 : assembler (Uel.eleFun sq) elements mats nodes neq op sparse = .ok (Kg, Mg)) {i k : Fin neq} :
    (∀ {p j q c : ℕ}, Kg i k ≠ 0 ∨ Mg i k ≠ 0 → Free cons 3 p j → entry bc p j = some ((i : ℕ) : ℤ) → Free cons 3 q c →
      entry bc q c = some ((k : ℕ) : ℤ) → ∃ el ∈ elements, RowHas nodes.length el p q) ∧
    ∀ {w : ℕ}, (∀ el ∈ elements, ∀ p q, RowHas nodes.length el p q → p ≤ q + w) →
      ((i : ℕ) + (3 * w + 3) ≤ k ∨ (k : ℕ) + (3 * w + 3) ≤ i) → Kg i k = 0 ∧ Mg i k = 0 := by
  obtain ⟨ms, s⟩ := frame_setup hf h1 h2
  obtain ⟨μs, t⟩ := frame_mass_setup hf h1 h2
  exact band_of s t

/-- C169.  The same for the user's own elements with `nd` degrees of freedom at each node. -/
theorem C169_user_band (hf : ElementOf nd n f) (hu : UserModel nd n cons nodes elements) (hc : Counts count (n * nd) elements)
    (h0 : 0 < n * nd) (hm : n * nd ≤ m) (h1 : dme cons elements nd m (some count) = .ok (op, bc, neq))
    (h2 : assembler tab elements mats nodes neq op sparse (some f) = .ok (Kg, Mg)) {i k : Fin neq} :
    (∀ {p j q c : ℕ}, Kg i k ≠ 0 ∨ Mg i k ≠ 0 → Free cons nd p j → entry bc p j = some ((i : ℕ) : ℤ) → Free cons nd q c →
      entry bc q c = some ((k : ℕ) : ℤ) → ∃ el ∈ elements, RowHas nodes.length el p q) ∧
    ∀ {w : ℕ}, (∀ el ∈ elements, ∀ p q, RowHas nodes.length el p q → p ≤ q + w) →
      ((i : ℕ) + (nd * w + nd) ≤ k ∨ (k : ℕ) + (nd * w + nd) ≤ i) → Kg i k = 0 ∧ Mg i k = 0 := by
  obtain ⟨ms, s⟩ := user_setup hf hu hc h0 hm h1 h2
  obtain ⟨μs, t⟩ := user_mass_setup hf hu hc h0 hm h1 h2
  exact band_of s t

end

/-! ## Frequencies -/

/-- C169.  So the natural frequencies do not depend on the numbering, and the shapes of vibration are renumbered. -/
theorem C169_modes {π : ℕ → ℕ} {cons : Table ℝ} {nd neq neq' : ℕ} {bc bc' : List (List ℤ)} {A B : Matrix (Fin neq) (Fin neq) ℝ}
    {A' B' : Matrix (Fin neq') (Fin neq') ℝ} {τ : Fin neq ≃ Fin neq'} (h : SamePair π cons nd bc bc' A B A' B' τ)
    {w : Fin neq → ℝ} {φ : Fin neq → Fin neq → ℝ} (hm : Modes A B w φ) :
    ∃ (e : neq' = neq) (φ' : _), Modes A' B' (fun k => w (k.cast e)) φ' ∧ ∀ k i, φ' k (τ i) = φ (k.cast e) i := by
  have e : neq' = neq := by simpa using (Fintype.card_congr τ).symm
  subst e
  have key : ∀ {C C' : Matrix (Fin neq') (Fin neq') ℝ}, (∀ i k, C' (τ i) (τ k) = C i k) → ∀ (x : Fin neq' → ℝ) i,
      C'.mulVec (fun i => x (τ.symm i)) (τ i) = C.mulVec x i := by
    intro C C' hC x i
    unfold Matrix.mulVec dotProduct
    rw [← τ.sum_comp]
    simp only [hC, Equiv.symm_apply_apply]
  refine ⟨rfl, fun k i => φ k (τ.symm i), ⟨hm.order, fun k => funext fun i => ?_, fun k l => ?_⟩, fun k i => ?_⟩
  · obtain ⟨i, rfl⟩ := τ.surjective i
    rw [key h.stiffness, Pi.smul_apply, key h.mass, hm.motion]
    rfl
  · rw [← hm.normal k l]
    unfold dotProduct
    rw [← τ.sum_comp]
    simp only [key h.mass, Equiv.symm_apply_apply]
  · simp

section demo

noncomputable def testFrameData : Gui.Data ℝ := ⟨testFrame.2.2.2.1, testFrame.1, testFrame.2.1, testFrame.2.2.1, testFrame.2.2.2.2⟩

/-- The frame of the test with its nodes numbered from the other end. -/
noncomputable def testFrameBack : Gui.Data ℝ :=
  ⟨[[0, 4, 6], [1, 0, 6], [2, 0, 0]], [[-1, -1, -1], [0, 0, 0], [-1, -1, -1]], [[0, 8, 0, 2, 1], [1, 8, 0, 1, 0]],
    [[200000000000, 133 / 1000000, 1 / 25]], [[1, -12000, -24000, -6000]]⟩

theorem testFrame_back : Renumbered (fun p => 2 - p) testFrameData testFrameBack where
  maps := by intro p hp; simp [testFrameData, testFrame] at hp ⊢; omega
  inj := by intro p hp q hq; simp [testFrameData, testFrame] at hp hq ⊢; omega
  size := rfl
  coords := by
    intro p hp
    have : p < 3 := hp
    rcases (by omega : p = 0 ∨ p = 1 ∨ p = 2) with rfl | rfl | rfl <;> rfl
  consSize := rfl
  cons := by
    intro p hp
    have : p < 3 := hp
    rcases (by omega : p = 0 ∨ p = 1 ∨ p = 2) with rfl | rfl | rfl <;> rfl
  mats := rfl
  elements := by
    refine .cons ⟨rfl, .cons ⟨0, ?_, rfl, rfl⟩ (.cons ⟨1, ?_, rfl, rfl⟩ .nil)⟩
      (.cons ⟨rfl, .cons ⟨1, ?_, rfl, rfl⟩ (.cons ⟨2, ?_, rfl, rfl⟩ .nil)⟩ .nil) <;> simp [testFrameData, testFrame]
  loads := by
    refine .cons ⟨1, by simp [testFrameData, testFrame], by simp, by simp, rfl⟩ .nil

theorem testFrame_members : ∃ ks, List.Forall₂ (IsMember (Routine Real.sqrt) testFrame.2.2.1 testFrame.2.2.2.1) testFrame.2.1 ks := by
  have hb := testFrame_beams
  obtain ⟨_, _, _, _, h0⟩ := hb [0, 8, 0, 0, 1] (by simp [testFrame])
  obtain ⟨_, _, _, _, h1⟩ := hb [1, 8, 0, 1, 2] (by simp [testFrame])
  obtain ⟨m0, h0⟩ := h0.exists_member sqrtFn_real
  obtain ⟨m1, h1⟩ := h1.exists_member sqrtFn_real
  exact ⟨[m0, m1], .cons h0 (.cons h1 .nil)⟩

/-- Case for C169: the test frame numbered from the other end and with its beams in the other order turns at the joint as before. -/
example (sparse : Bool) : ∃ full, frameRun Real.sqrt cramerR cramerR sparse testFrameBack.cons [[1, 8, 0, 1, 0], [0, 8, 0, 2, 1]] testFrameBack.mats
    testFrameBack.nodes testFrameBack.loads = .ok full ∧ entry full 1 2 = some (-507505867191 / 3840264264216625) := by
  obtain ⟨ms, hk⟩ := testFrame_members
  obtain ⟨full, full', h, h', he⟩ := C169_frame_nodes (d := testFrameData) testFrame_frame hk (testFrame_stable hk) cramerR_ok cramerR_ok
    (sparse := sparse) (by simp [testFrameData, testFrame]) testFrame_back
  obtain ⟨full0, h0, -, -, e⟩ := testFrame_solved sparse
  have : full = full0 := Except.ok.inj (h.symm.trans h0)
  subst this
  refine ⟨full', (C169_frame_elements (List.Perm.swap _ _ _) _).1 h', ?_⟩
  have := (he 1 2 (by simp [testFrameData, testFrame]) (by omega)).1
  exact this.trans e

/-- Case for C169: both numberings of the test frame have the same matrices up to the order of the equations. -/
example : ∃ (bc bc' : _) (neq neq' : ℕ) (A B : Matrix (Fin neq) (Fin neq) ℝ) (A' B' : Matrix (Fin neq') (Fin neq') ℝ) (τ : Fin neq ≃ Fin neq'),
    SamePair (fun p => 2 - p) testFrame.1 3 bc bc' A B A' B' τ := by
  obtain ⟨ms, hk⟩ := testFrame_members
  have hf' := testFrame_back.frame (d := testFrameData) testFrame_frame
  obtain ⟨op, bc, neq, A, B, h1, h2⟩ := C117_assembled testFrame_frame hk true
  obtain ⟨op', bc', neq', A', B', h1', h2'⟩ := C117_assembled hf' (members_renumber_of testFrame_back hk) false
  obtain ⟨τ, h⟩ := C169_frame_matrices (d := testFrameData) testFrame_frame testFrame_back h1 h2 h1' h2'
  exact ⟨bc, bc', neq, neq', A, B, A', B', τ, h⟩

/-- Case for C169: the body of two tetrahedra with the tetrahedra listed in the other order. -/
example (tab : ℤ → Py (Uel ℚ)) (sparse : Bool) : ∃ full, userRun tab Uel.elastTet4 3 12 (fun _ => .ok 12) cramerSolver cramerSolver sparse tetCons
    [[1, 9, 0, 1, 2, 3, 4], [0, 9, 0, 0, 1, 2, 3]] tetMats tetNodes [[4, 0, 0, 1]] = .ok full := by
  obtain ⟨ms, h, h1, h2, h3⟩ := tet_case
  have hL : ∀ L ∈ [[(4 : ℚ), 0, 0, 1]], 3 + 1 ≤ L.length ∧ ∃ p, Names tetNodes.length L p := by
    intro L hL
    rw [List.mem_singleton] at hL
    subst hL
    exact ⟨le_rfl, 4, (names_nat (p := 4) (by simp [tetNodes]) (by simp)).2 rfl⟩
  obtain ⟨full, hr, -⟩ := C135_solved (tab := tab) h.element h.model h.counts h.some_dofs h.room h.members h3 cramerSolver_ok cramerSolver_ok sparse hL
  exact ⟨full, (C169_user_elements (List.Perm.swap _ _ _) _).1 hr⟩

/-- Case for C169: a bridge of four beams in a row: equations of nodes that no beam joins are not coupled. -/
example {sq : ℝ → ℝ} {op bc : List (List ℤ)} {neq : ℕ} {Kg Mg : Matrix (Fin neq) (Fin neq) ℝ} {mats nodes : Table ℝ} (hn : nodes.length = 5)
    (h1 : dme (List.replicate 5 [(0 : ℝ), 0, 0]) [[0, 8, 0, 0, 1], [1, 8, 0, 1, 2], [2, 8, 0, 2, 3], [3, 8, 0, 3, 4]] 3 = .ok (op, bc, neq))
    (h2 : assembler (Uel.eleFun sq) [[0, 8, 0, 0, 1], [1, 8, 0, 1, 2], [2, 8, 0, 2, 3], [3, 8, 0, 3, 4]] mats nodes neq op = .ok (Kg, Mg))
    {i k : Fin neq} (hik : (i : ℕ) + 6 ≤ k) : Kg i k = 0 ∧ Mg i k = 0 := by
  have hf : Frame (List.replicate 5 [(0 : ℝ), 0, 0]) nodes [[0, 8, 0, 0, 1], [1, 8, 0, 1, 2], [2, 8, 0, 2, 3], [3, 8, 0, 3, 4]] := by
    refine ⟨?_, ?_, by simp [hn], by simp⟩
    · intro p j x hj hx
      obtain ⟨row, h1, h2⟩ := entry_some.1 hx
      obtain rfl := List.eq_of_mem_replicate (List.mem_of_getElem? h1)
      rcases (by omega : j = 0 ∨ j = 1 ∨ j = 2) with rfl | rfl | rfl <;> simp at h2 <;> exact .inl h2.symm
    · intro r hr
      rw [List.eq_of_mem_replicate hr]
      rfl
  refine (C169_frame_band hf h1 h2).2 (w := 1) ?_ (.inl hik)
  rw [hn]
  intro el hel p q hr
  simp only [List.mem_cons, List.not_mem_nil, or_false] at hel
  obtain ⟨⟨x, hx, hx1, hx2⟩, y, hy, hy1, hy2⟩ := hr
  rcases hel with rfl | rfl | rfl | rfl <;> simp at hx hy <;> omega

end demo

end SolidsPy
