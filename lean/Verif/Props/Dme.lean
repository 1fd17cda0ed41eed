import Verif.Proofs.Dme

/-! # C04, C05, C06: the assembly operator (`DME`) -/

set_option linter.unusedSectionVars false

namespace SolidsPy
open Spec Assem

variable {K : Type} [Field K] [LinearOrder K] [IsStrictOrderedRing K] [FloorRing K]

/-- C04. One operator row per element. -/
theorem C04_operator_row_count {cons : Table K} {elements : List (List ℤ)} {nd m : ℕ}
    {ndofEl : Option (ℤ → Py ℕ)} {op bc : List (List ℤ)} {neq : ℕ}
    (h : dme cons elements nd m ndofEl = .ok (op, bc, neq)) :
    op.length = elements.length ∧ ∀ r ∈ op, r.length = m := by
  obtain ⟨_, h2⟩ := dme_ok.1 h
  refine ⟨mapM_length h2, fun r hr => ?_⟩
  obtain ⟨i, hi, rfl⟩ := List.mem_iff_getElem.1 hr
  have hl : i < elements.length := by rw [← mapM_length h2]; exact hi
  obtain ⟨b, hb, hg⟩ := mapM_getElem? h2 (List.getElem?_eq_getElem hl)
  rw [List.getElem?_eq_getElem hi, Option.some.injEq] at hb
  rw [hb]
  obtain ⟨ty, n, rows, _, _, _, h5⟩ := dmeRow_ok.1 hg
  rcases assignSlice_ok.1 h5 with ⟨h6, rfl⟩ | ⟨_, v, _, rfl⟩
  · simp [h6]
  · simp

/-- C04. Entry `w*k + j` of operator row `e` is entry `j` of the boundary condition row of the `k`-th
node of element `e` (`w` columns per node; the node id is resolved like a Python index). -/
theorem C04_operator_row_entries {cons : Table K} {elements : List (List ℤ)} {nd m w : ℕ}
    {ndofEl : Option (ℤ → Py ℕ)} {op bc : List (List ℤ)} {neq : ℕ}
    (h : dme cons elements nd m ndofEl = .ok (op, bc, neq)) (hw : ∀ r ∈ cons, r.length = w)
    {e : ℕ} {el : List ℤ} (he : elements[e]? = some el) {ty : ℤ} {n : ℕ} (hty : el[1]? = some ty)
    (hn : match ndofEl with | none => TypeDofs ty n | some f => f ty = .ok n)
    (hn0 : 0 < n) (hm0 : 0 < m) {k : ℕ} {g : ℤ} (hg : el[3 + k]? = some g) {p : ℕ}
    (hp : Resolves cons.length g p) {j : ℕ} (hj : j < w) :
    entry op e (w * k + j) = entry bc p j := by
  obtain ⟨h1, h2⟩ := dme_ok.1 h
  obtain ⟨row, hrow, hr⟩ := mapM_getElem? h2 he
  obtain ⟨ty', n', rows, h3, h4, h5, h6⟩ := dmeRow_ok.1 hr
  have hnn : n' = n := by
    rw [hty, Option.some.injEq] at h3
    subst h3
    unfold dofCount at h4
    cases ndofEl with
    | none => simp only [TypeDofs] at h4 hn; omega
    | some f =>
      simp only at h4 hn
      rw [hn, Except.ok.injEq] at h4
      exact h4.symm
  subst hnn
  have hbw := bc_widths h1 hw
  obtain ⟨hrw, hrl⟩ := pyGetMany_widths hbw h5
  have hbl : bc.length = cons.length := by
    have := congrArg List.length (eqcounter_shape h1).1
    simpa using this
  obtain ⟨r, hr1, hr2⟩ := mapM_getElem? h5 (i := k) (a := g) (by simpa using hg)
  obtain ⟨p', hp', hr3⟩ := pyGet_resolves.1 hr2
  have hpp : p' = p := by
    rw [hbl] at hp'
    unfold Resolves at hp hp'
    omega
  subst hpp
  have hfl := flatten_getElem? (rows := rows) (k := k) hrw hj
  rw [hr1, Option.bind_some] at hfl
  have hrj : j < r.length := by rw [hbw r (pyGet_mem hr2)]; exact hj
  rw [List.getElem?_eq_getElem hrj] at hfl
  unfold entry
  rw [hrow, hr3, Option.bind_some, Option.bind_some, List.getElem?_eq_getElem hrj]
  rcases assignSlice_ok.1 h6 with ⟨h7, rfl⟩ | ⟨_, v, h8, rfl⟩
  · rw [List.getElem?_append_left (List.getElem?_eq_some_iff.1 hfl).1, hfl]
  · rw [h8] at hfl
    have : w * k + j = 0 := by
      by_contra hne
      rw [List.getElem?_eq_none (by simp; omega)] at hfl
      simp at hfl
    rw [this] at hfl ⊢
    rw [List.getElem?_append_left (by simp; omega), List.getElem?_replicate, if_pos (by omega)]
    simpa using hfl

/-- C04. After the degrees of freedom of the element, the row is padded with zeros. -/
theorem C04_operator_row_padding {cons : Table K} {elements : List (List ℤ)} {nd m : ℕ}
    {ndofEl : Option (ℤ → Py ℕ)} {op bc : List (List ℤ)} {neq : ℕ}
    (h : dme cons elements nd m ndofEl = .ok (op, bc, neq))
    {e : ℕ} {el : List ℤ} (he : elements[e]? = some el) {ty : ℤ} {n : ℕ} (hty : el[1]? = some ty)
    (hn : match ndofEl with | none => TypeDofs ty n | some f => f ty = .ok n)
    {c : ℕ} (hc : n ≤ c) (hcm : c < m) : entry op e c = some 0 := by
  obtain ⟨h1, h2⟩ := dme_ok.1 h
  obtain ⟨row, hrow, hr⟩ := mapM_getElem? h2 he
  obtain ⟨ty', n', rows, h3, h4, h5, h6⟩ := dmeRow_ok.1 hr
  have hnn : n' = n := by
    rw [hty, Option.some.injEq] at h3
    subst h3
    unfold dofCount at h4
    cases ndofEl with
    | none => simp only [TypeDofs] at h4 hn; omega
    | some f =>
      simp only at h4 hn
      rw [hn, Except.ok.injEq] at h4
      exact h4.symm
  subst hnn
  unfold entry
  rw [hrow, Option.bind_some]
  rcases assignSlice_ok.1 h6 with ⟨h7, rfl⟩ | ⟨_, v, _, rfl⟩
  · rw [List.getElem?_append_right (by omega), List.getElem?_replicate, if_pos (by omega)]
  · rw [List.getElem?_append_right (by simp; omega), List.getElem?_replicate,
      if_pos (by simp; omega)]

/-- Case for C04: a triangle and a quad, operator width 8. -/
example : dme ([[-1, 0], [0, 0], [0, -1], [0, 0], [0, 0]] : Table ℚ)
    [[0, 1, 0, 0, 1, 2, 3], [1, 3, 0, 1, 4, 2]] 2 8 =
    .ok ([[-1, 0, 1, 2, 3, -1, 4, 5], [1, 2, 6, 7, 3, -1, 0, 0]],
      [[-1, 0], [1, 2], [3, -1], [4, 5], [6, 7]], 8) := by decide +kernel

/-- C05. With the default parameters and a two column constraint array, `DME` returns exactly when
every element has a type in 1..8, every node id exists, and the connectivity supplies exactly the
degrees of freedom of the type.  Anything else raises. -/
theorem C05_dme_accepts_iff {cons : Table K} {elements : List (List ℤ)}
    (hw : ∀ r ∈ cons, r.length = 2) :
    (∃ r, dme cons elements = .ok r) ↔ ∀ el ∈ elements, ∃ ty, el[1]? = some ty ∧
      TypeDofs ty (2 * (el.drop 3).length) ∧
      ∀ g ∈ el.drop 3, ∃ p, Resolves cons.length g p := by
  constructor
  · rintro ⟨⟨op, bc, neq⟩, h⟩
    obtain ⟨h1, h2⟩ := dme_ok.1 h
    intro el hel
    obtain ⟨row, hr⟩ := mapM_exists.1 ⟨op, h2⟩ el hel
    obtain ⟨ty, n, rows, h3, h4, h5, h6⟩ := dmeRow_ok.1 hr
    obtain ⟨hrw, hrl⟩ := pyGetMany_widths (bc_widths h1 hw) h5
    have hfl := flatten_length hrw
    have hbl : bc.length = cons.length := by
      have := congrArg List.length (eqcounter_shape h1).1
      simpa using this
    refine ⟨ty, h3, ?_, ?_⟩
    · have h4' : TypeDofs ty n := h4
      rcases assignSlice_ok.1 h6 with ⟨h7, _⟩ | ⟨_, v, h8, _⟩
      · have : n = 2 * (el.drop 3).length := by
          unfold TypeDofs at h4'
          omega
        rwa [← this]
      · rw [h8] at hfl
        simp at hfl
        omega
    · intro g hg
      obtain ⟨r, hr⟩ := mapM_exists.1 ⟨rows, h5⟩ g hg
      obtain ⟨p, hp, _⟩ := pyGet_resolves.1 hr
      rw [hbl] at hp
      exact ⟨p, hp⟩
  · intro H
    obtain ⟨⟨neq, bc⟩, h1⟩ : ∃ r, eqcounter cons 2 = .ok r := by
      obtain ⟨⟨a, b⟩, hr⟩ := numberRows_exists (nd := 2) (t := truncTab cons) (n := 0) (by
        intro r hr
        simp only [truncTab, List.mem_map] at hr
        obtain ⟨r', hr', rfl⟩ := hr
        simp [hw r' hr'])
      exact ⟨(b, a), by simp [eqcounter, hr, pure, Except.pure]⟩
    have hbl : bc.length = cons.length := by
      have := congrArg List.length (eqcounter_shape h1).1
      simpa using this
    obtain ⟨op, hop⟩ : ∃ op, elements.mapM (dmeRow bc 18 none) = .ok op := by
      rw [mapM_exists]
      intro el hel
      obtain ⟨ty, h3, h4, h5⟩ := H el hel
      obtain ⟨rows, hrows⟩ : ∃ rows, pyGetMany bc (el.drop 3) = .ok rows := by
        unfold pyGetMany
        rw [mapM_exists]
        intro g hg
        obtain ⟨p, hp⟩ := h5 g hg
        rw [← hbl] at hp
        exact ⟨bc[p]'hp.1, pyGet_resolves.2 ⟨p, hp, List.getElem?_eq_getElem hp.1⟩⟩
      obtain ⟨hrw, hrl⟩ := pyGetMany_widths (bc_widths h1 hw) hrows
      have hfl := flatten_length hrw
      refine ⟨_, dmeRow_ok.2 ⟨ty, _, rows, h3, h4, hrows, assignSlice_ok.2 (Or.inl ⟨?_, rfl⟩)⟩⟩
      rw [hfl, hrl]
      unfold TypeDofs at h4
      omega
    exact ⟨(op, bc, neq), dme_ok.2 ⟨h1, hop⟩⟩

/-- C05. A triangle row padded to the width of a quad (4 node ids) makes the whole call fail, whatever
the rest of the mesh is. -/
theorem C05_padded_triangle_rejected {cons : Table K} {elements : List (List ℤ)}
    (hw : ∀ r ∈ cons, r.length = 2) {el : List ℤ} (hel : el ∈ elements) (hty : el[1]? = some 3)
    (hlen : el.length = 7) : ∃ e, dme cons elements = .error e := by
  rw [← py_not_ok, C05_dme_accepts_iff hw]
  intro H
  obtain ⟨ty, h1, h2, _⟩ := H el hel
  rw [hty, Option.some.injEq] at h1
  subst h1
  simp [TypeDofs, hlen] at h2

/-- Case for C05: a padded triangle next to a quad is rejected, the unpadded one accepted. -/
example : dme ([[0, 0], [0, 0], [0, 0], [0, 0], [0, 0]] : Table ℚ)
      [[0, 1, 0, 0, 1, 2, 3], [1, 3, 0, 1, 4, 2, 0]] = .error .valueError ∧
    ∃ r, dme ([[0, 0], [0, 0], [0, 0], [0, 0], [0, 0]] : Table ℚ)
      [[0, 1, 0, 0, 1, 2, 3], [1, 3, 0, 1, 4, 2]] = .ok r :=
  ⟨by decide +kernel, (C05_dme_accepts_iff (by decide)).2 (by
    simp only [List.mem_cons, List.not_mem_nil, or_false, forall_eq_or_imp, forall_eq]
    refine ⟨⟨1, rfl, by simp [TypeDofs], ?_⟩, ⟨3, rfl, by simp [TypeDofs], ?_⟩⟩
    · simp [Resolves]
      exact ⟨⟨0, by omega⟩, ⟨1, by omega⟩, ⟨2, by omega⟩, ⟨3, by omega⟩⟩
    · simp [Resolves]
      exact ⟨⟨1, by omega⟩, ⟨4, by omega⟩, ⟨2, by omega⟩⟩)⟩

/-- C06. `DME` with the default `ndof_node = 2` on a three column array accepts every two node beam
element (types 7 and 8) with existing nodes, and maps each unconstrained rotation of its nodes to
equation 0, which (when there are equations) belongs to a translation. -/
theorem C06_wrong_ndof_aliases_rotation {cons : Table K} {elements : List (List ℤ)}
    {op bc : List (List ℤ)} {neq : ℕ} (h : dme cons elements = .ok (op, bc, neq))
    (hw : ∀ r ∈ cons, r.length = 3)
    {e : ℕ} {el : List ℤ} (he : elements[e]? = some el) {ty : ℤ} (hty : el[1]? = some ty)
    (hb : ty = 7 ∨ ty = 8) {k p : ℕ} (hk : el[3 + k]? = some (p : ℤ)) (hp : entry cons p 2 = some 0) :
    entry op e (3 * k + 2) = some 0 ∧
    (0 < neq → ∃ i j, j < 2 ∧ Free cons 2 i j ∧ entry bc i j = some 0) := by
  have hpl : p < cons.length := by
    obtain ⟨row, h1, _⟩ := entry_some.1 hp
    exact (List.getElem?_eq_some_iff.1 h1).1
  have hn : TypeDofs ty 6 := by unfold TypeDofs; omega
  obtain ⟨h1, _⟩ := dme_ok.1 h
  refine ⟨?_, fun h0 => ?_⟩
  · rw [C04_operator_row_entries h hw he hty (n := 6) hn (by omega) (by omega) hk
      ⟨hpl, Or.inl rfl⟩ (by omega : 2 < 3)]
    rw [eqcounter_entry h1 hp, if_neg (by omega)]
    simpa using pyTrunc_natCast (K := K) 0
  · obtain ⟨i, j, hf, hr⟩ := exists_free h1 h0
    exact ⟨i, j, hf.1, hf, by rw [(free_entry h1 hf).1, hr]; rfl⟩

/-- C06. Acceptance: every all-beam mesh with existing nodes is accepted. -/
theorem C06_wrong_ndof_accepted {cons : Table K} {elements : List (List ℤ)}
    (hw : ∀ r ∈ cons, r.length = 3)
    (hel : ∀ el ∈ elements, (el[1]? = some 7 ∨ el[1]? = some 8) ∧ el.length = 5 ∧
      ∀ g ∈ el.drop 3, ∃ p, Resolves cons.length g p) :
    ∃ r, dme cons elements = .ok r := by
  obtain ⟨⟨neq, bc⟩, h1⟩ : ∃ r, eqcounter cons 2 = .ok r := by
    obtain ⟨⟨a, b⟩, hr⟩ := numberRows_exists (nd := 2) (t := truncTab cons) (n := 0) (by
      intro r hr
      simp only [truncTab, List.mem_map] at hr
      obtain ⟨r', hr', rfl⟩ := hr
      simp [hw r' hr'])
    exact ⟨(b, a), by simp [eqcounter, hr, pure, Except.pure]⟩
  have hbl : bc.length = cons.length := by
    have := congrArg List.length (eqcounter_shape h1).1
    simpa using this
  obtain ⟨op, hop⟩ : ∃ op, elements.mapM (dmeRow bc 18 none) = .ok op := by
    rw [mapM_exists]
    intro el hm
    obtain ⟨h2, h3, h5⟩ := hel el hm
    obtain ⟨rows, hrows⟩ : ∃ rows, pyGetMany bc (el.drop 3) = .ok rows := by
      unfold pyGetMany
      rw [mapM_exists]
      intro g hg
      obtain ⟨p, hp⟩ := h5 g hg
      rw [← hbl] at hp
      exact ⟨bc[p]'hp.1, pyGet_resolves.2 ⟨p, hp, List.getElem?_eq_getElem hp.1⟩⟩
    obtain ⟨hrw, hrl⟩ := pyGetMany_widths (bc_widths h1 hw) hrows
    have hfl := flatten_length hrw
    have hlen : rows.flatten.length = min 6 18 := by
      rw [hfl, hrl, List.length_drop, h3]
      norm_num
    rcases h2 with h2 | h2
    · exact ⟨_, dmeRow_ok.2 ⟨7, 6, rows, h2, by simp [dofCount, TypeDofs], hrows,
        assignSlice_ok.2 (Or.inl ⟨hlen, rfl⟩)⟩⟩
    · exact ⟨_, dmeRow_ok.2 ⟨8, 6, rows, h2, by simp [dofCount, TypeDofs], hrows,
        assignSlice_ok.2 (Or.inl ⟨hlen, rfl⟩)⟩⟩
  exact ⟨(op, bc, neq), dme_ok.2 ⟨h1, hop⟩⟩

/-- Case for C06: a cantilever beam; the free rotation of node 1 is assembled into equation 0. -/
example : dme ([[-1, -1, -1], [0, 0, 0]] : Table ℚ) [[0, 8, 0, 0, 1]] =
    .ok ([[-1, -1, -1, 0, 1, 0, 0, 0, 0, 0, 0, 0, 0, 0, 0, 0, 0, 0]], [[-1, -1, -1], [0, 1, 0]], 2) := by
  decide +kernel

end SolidsPy
