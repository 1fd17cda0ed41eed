import Verif.Props.MeshTables
import Verif.Props.Loads
import Verif.Props.Numbering
import Mathlib.Tactic.IntervalCases

/-! # C70 - C72: boundary conditions and loads on tagged lines -/

set_option linter.unusedSectionVars false

namespace SolidsPy
open Spec Pre Assem

section
variable {K : Type} [Field K] [LinearOrder K] [IsStrictOrderedRing K] [FloorRing K]

theorem pyFin_resolves {n : ℕ} {z : ℤ} {k : Fin n} : pyFin n z = .ok k ↔ Resolves n z k := by
  rw [pyFin_ok]
  unfold Resolves
  have := k.2
  omega

theorem setCell_ok {col : ℕ} {v : K} {tab t : Table K} {z : ℤ} (h : setCell col v tab z = .ok t) :
    (∃ (i : ℕ) (row : List K), Resolves tab.length z i ∧ tab[i]? = some row ∧ col < row.length ∧
      t = tab.set i (row.set col v)) := by
  unfold setCell at h
  obtain ⟨k, hk, h⟩ := bind_ok.1 h
  split at h
  · rename_i hc
    exact ⟨k, tab.get k, pyFin_resolves.1 hk, by simp, hc, (pure_ok.1 h).symm⟩
  · cases h

theorem setCell_exists {col : ℕ} {v : K} {tab : Table K} {z : ℤ} {i : ℕ} {row : List K}
    (h1 : Resolves tab.length z i) (h2 : tab[i]? = some row) (h3 : col < row.length) :
    ∃ t, setCell col v tab z = .ok t := by
  unfold setCell
  rw [(pyFin_resolves (k := ⟨i, h1.1⟩)).2 h1, ok_bind]
  have : tab.get ⟨i, h1.1⟩ = row := by
    rw [List.getElem?_eq_getElem h1.1, Option.some.injEq] at h2
    exact h2
  rw [this, if_pos h3]
  exact ⟨_, rfl⟩

theorem setCell_error {col : ℕ} {v : K} {tab : Table K} {z : ℤ} {e} (h : setCell col v tab z = .error e) :
    e = .indexError := by
  unfold setCell at h
  rcases hk : pyFin tab.length z with e' | k
  · rw [hk] at h
    cases h
    exact pyFin_error hk
  · rw [hk, ok_bind] at h
    split at h
    · cases h
    · cases h; rfl

/-- Effect of `table[idx, col] = v`. -/
theorem setCol_ok {tab t : Table K} {idx : List ℤ} {col : ℕ} {v : K} (h : setCol tab idx col v = .ok t) :
    t.length = tab.length ∧ ∀ (i : ℕ) (row : List K), tab[i]? = some row →
      ((∃ z ∈ idx, Resolves tab.length z i) → col < row.length ∧ t[i]? = some (row.set col v)) ∧
      ((¬ ∃ z ∈ idx, Resolves tab.length z i) → t[i]? = some row) := by
  unfold setCol at h
  induction idx generalizing tab with
  | nil =>
    obtain rfl := pure_ok.1 h
    exact ⟨rfl, fun i row hi => ⟨by simp, fun _ => hi⟩⟩
  | cons z idx ih =>
    rw [List.foldlM_cons] at h
    obtain ⟨t', h1, h2⟩ := bind_ok.1 h
    obtain ⟨k, rk, hk, hrk, hcol, rfl⟩ := setCell_ok h1
    obtain ⟨ih1, ih2⟩ := ih h2
    rw [List.length_set] at ih1 ih2
    refine ⟨ih1, fun i row hi => ?_⟩
    by_cases hik : k = i
    · subst hik
      rw [hi, Option.some.injEq] at hrk
      subst hrk
      have h3 := ih2 k (row.set col v) (by rw [List.getElem?_set_self hk.1])
      refine ⟨fun _ => ⟨hcol, ?_⟩, fun hn => absurd ⟨z, by simp, hk⟩ hn⟩
      by_cases h4 : ∃ z ∈ idx, Resolves tab.length z k
      · have := (h3.1 h4).2
        rwa [List.set_set] at this
      · exact h3.2 h4
    · have h3 := ih2 i row (by rw [List.getElem?_set_ne hik]; exact hi)
      constructor
      · rintro ⟨w, hw, hr⟩
        rcases List.mem_cons.1 hw with rfl | hw
        · exact absurd (resolves_unique hk hr) hik
        · exact h3.1 ⟨w, hw, hr⟩
      · intro hn
        exact h3.2 fun ⟨w, hw, hr⟩ => hn ⟨w, by simp [hw], hr⟩

theorem setCol_exists {tab : Table K} {idx : List ℤ} {col : ℕ} {v : K}
    (h : ∀ z ∈ idx, ∃ (i : ℕ) (row : List K), Resolves tab.length z i ∧ tab[i]? = some row ∧ col < row.length) :
    ∃ t, setCol tab idx col v = .ok t := by
  unfold setCol
  induction idx generalizing tab with
  | nil => exact ⟨tab, rfl⟩
  | cons z idx ih =>
    rw [List.foldlM_cons]
    obtain ⟨i, row, h1, h2, h3⟩ := h z (by simp)
    obtain ⟨t, ht⟩ := setCell_exists (v := v) h1 h2 h3
    rw [ht, ok_bind]
    obtain ⟨k, rk, hk, hrk, hcol, rfl⟩ := setCell_ok ht
    apply ih
    intro w hw
    obtain ⟨i', row', h1', h2', h3'⟩ := h w (by simp [hw])
    rw [List.length_set]
    by_cases hik : k = i'
    · subst hik
      exact ⟨k, _, h1', List.getElem?_set_self hk.1, by simpa using hcol⟩
    · exact ⟨i', row', h1', by rw [List.getElem?_set_ne hik]; exact h2', h3'⟩

theorem setCol_needs {tab t : Table K} {idx : List ℤ} {col : ℕ} {v : K} (h : setCol tab idx col v = .ok t) :
    ∀ z ∈ idx, ∃ (i : ℕ) (row : List K), Resolves tab.length z i ∧ tab[i]? = some row ∧ col < row.length := by
  intro z hz
  have h' := setCol_ok h
  unfold setCol at h
  have : ∃ i, Resolves tab.length z i := by
    clear h'
    induction idx generalizing tab with
    | nil => simp at hz
    | cons w idx ih =>
      rw [List.foldlM_cons] at h
      obtain ⟨t', h1, h2⟩ := bind_ok.1 h
      obtain ⟨k, rk, hk, hrk, hcol, rfl⟩ := setCell_ok h1
      rcases List.mem_cons.1 hz with rfl | hz
      · exact ⟨k, hk⟩
      · have := ih h2 hz
        rwa [List.length_set] at this
  obtain ⟨i, hi⟩ := this
  refine ⟨i, tab[i]'hi.1, hi, List.getElem?_eq_getElem _, ?_⟩
  exact ((h'.2 i _ (List.getElem?_eq_getElem _)).1 ⟨z, hz, hi⟩).1

theorem setCol_error {tab : Table K} {idx : List ℤ} {col : ℕ} {v : K} {e}
    (h : setCol tab idx col v = .error e) : e = .indexError := by
  unfold setCol at h
  induction idx generalizing tab with
  | nil => cases h
  | cons z idx ih =>
    rw [List.foldlM_cons] at h
    rcases hc : setCell col v tab z with e' | t
    · rw [hc] at h
      cases h
      exact setCell_error hc
    · rw [hc, ok_bind] at h
      exact ih h

/-! ## C70 -/

/-- Some line with the tag has node `i` (of a table of `n` nodes) among its nodes. -/
def OnLine (lines : List (List ℤ)) (phys : List ℤ) (tag : ℤ) (n i : ℕ) : Prop :=
  ∃ (l : ℕ) (line : List ℤ), lines[l]? = some line ∧ phys[l]? = some tag ∧ ∃ z ∈ line, Resolves n z i

theorem taggedNodes_ok {cells : String → Option (List (List ℤ))} {data : String → Option (List ℤ)}
    {lines : List (List ℤ)} {phys : List ℤ} (hc : cells "line" = some lines) (hd : data "line" = some phys)
    {tag : ℤ} {flat : List ℤ} (h : taggedNodes cells data tag = .ok flat) :
    flat = (tagged lines phys tag).flatten := by
  unfold taggedNodes dictGet at h
  rw [hc, hd] at h
  dsimp only at h
  rw [ok_bind, ok_bind] at h
  obtain ⟨rows, h4, h⟩ := bind_ok.1 h
  have hlt : ∀ i : ℕ, phys[i]? = some tag → i < lines.length := by
    intro i hi
    obtain ⟨c, hc⟩ := mapM_exists.1 ⟨rows, h4⟩ i (mem_tagIds.2 hi)
    exact (List.getElem?_eq_some_iff.1 (pyGet_nat.1 hc)).1
  have h6 := tagged_ok hlt
  rw [h4, Except.ok.injEq] at h6
  subst h6
  exact (pure_ok.1 h).symm

theorem mem_flat {lines : List (List ℤ)} {phys : List ℤ} {tag z : ℤ} :
    z ∈ (tagged lines phys tag).flatten ↔
      ∃ (l : ℕ) (line : List ℤ), lines[l]? = some line ∧ phys[l]? = some tag ∧ z ∈ line := by
  rw [List.mem_flatten]
  constructor
  · rintro ⟨line, h1, h2⟩
    obtain ⟨l, h3, h4⟩ := mem_tagged.1 h1
    exact ⟨l, line, h3, h4, h2⟩
  · rintro ⟨l, line, h1, h2, h3⟩
    exact ⟨line, mem_tagged.2 ⟨l, h1, h2⟩, h3⟩

theorem onLine_iff {s : List ℤ → List ℤ} (hs : Enumerates s) {lines : List (List ℤ)} {phys : List ℤ} {tag : ℤ}
    {n i : ℕ} : OnLine lines phys tag n i ↔ ∃ z ∈ s (tagged lines phys tag).flatten, Resolves n z i := by
  constructor
  · rintro ⟨l, line, h1, h2, z, h3, h4⟩
    exact ⟨z, ((hs _).2 z).2 (mem_flat.2 ⟨l, line, h1, h2, h3⟩), h4⟩
  · rintro ⟨z, h1, h2⟩
    obtain ⟨l, line, h3, h4, h5⟩ := mem_flat.1 (((hs _).2 z).1 h1)
    exact ⟨l, line, h3, h4, z, h5, h2⟩

/-- C70.  `boundary_conditions` writes the two flags in columns 3 and 4 of the nodes on the tagged lines and
changes nothing else. -/
theorem C70_effect {s : List ℤ → List ℤ} (hs : Enumerates s) {cells : String → Option (List (List ℤ))}
    {data : String → Option (List ℤ)} {lines : List (List ℤ)} {phys : List ℤ} (hc : cells "line" = some lines)
    (hd : data "line" = some phys) {tag : ℤ} {nodes t : Table K} {bx by_ : K}
    (h : boundaryConditions s cells data tag nodes bx by_ = .ok t) :
    t.length = nodes.length ∧ ∀ (i : ℕ) (row : List K), nodes[i]? = some row →
      (OnLine lines phys tag nodes.length i → 4 < row.length ∧ t[i]? = some ((row.set 3 bx).set 4 by_)) ∧
      (¬ OnLine lines phys tag nodes.length i → t[i]? = some row) := by
  unfold boundaryConditions at h
  obtain ⟨flat, h1, h⟩ := bind_ok.1 h
  obtain rfl := taggedNodes_ok hc hd h1
  obtain ⟨t', h2, h3⟩ := bind_ok.1 h
  obtain ⟨l1, e1⟩ := setCol_ok h2
  obtain ⟨l2, e2⟩ := setCol_ok h3
  refine ⟨l2.trans l1, fun i row hi => ?_⟩
  rw [l1] at e2
  rw [onLine_iff hs]
  constructor
  · intro ho
    have a := (e1 i row hi).1 ho
    have b := (e2 i _ a.2).1 ho
    refine ⟨by simpa using b.1, b.2⟩
  · intro ho
    exact (e2 i _ ((e1 i row hi).2 ho)).2 ho

/-- C70.  It succeeds on node tables with five columns when the tags match the lines and the lines name
existing nodes. -/
theorem C70_success {s : List ℤ → List ℤ} (hs : Enumerates s) {cells : String → Option (List (List ℤ))}
    {data : String → Option (List ℤ)} {lines : List (List ℤ)} {phys : List ℤ} (hc : cells "line" = some lines)
    (hd : data "line" = some phys) (hl : phys.length = lines.length) {nodes : Table K}
    (hn : ∀ line ∈ lines, ∀ z ∈ line, 0 ≤ z ∧ z < nodes.length) (hw : ∀ row ∈ nodes, row.length = 5)
    (tag : ℤ) (bx by_ : K) : ∃ t, boundaryConditions s cells data tag nodes bx by_ = .ok t := by
  unfold boundaryConditions taggedNodes dictGet
  rw [hc, hd]
  dsimp only
  rw [ok_bind, ok_bind, tagged_ok (fun i hi => by
    rw [← hl]
    exact (List.getElem?_eq_some_iff.1 hi).1), ok_bind]
  have hz : ∀ z ∈ s (tagged lines phys tag).flatten, ∃ (i : ℕ) (row : List K),
      Resolves nodes.length z i ∧ nodes[i]? = some row ∧ row.length = 5 := by
    intro z hz
    obtain ⟨l, line, h3, -, h5⟩ := mem_flat.1 (((hs _).2 z).1 hz)
    obtain ⟨h6, h7⟩ := hn line (List.mem_of_getElem? h3) z h5
    have h8 : z.toNat < nodes.length := by omega
    exact ⟨z.toNat, nodes[z.toNat], ⟨h8, by omega⟩, List.getElem?_eq_getElem h8, hw _ (List.getElem_mem _)⟩
  obtain ⟨t1, h1⟩ := setCol_exists (v := bx) (col := 3) fun z hz' => by
    obtain ⟨i, row, a, b, c⟩ := hz z hz'
    exact ⟨i, row, a, b, by omega⟩
  obtain ⟨l1, e1⟩ := setCol_ok h1
  obtain ⟨t2, h2⟩ := setCol_exists (tab := t1) (v := by_) (col := 4) (idx := s (tagged lines phys tag).flatten) fun z hz' => by
    obtain ⟨i, row, a, b, c⟩ := hz z hz'
    have := ((e1 i row b).1 ⟨z, hz', a⟩).2
    exact ⟨i, _, by rwa [l1], this, by simp [c]⟩
  refine ⟨t2, ?_⟩
  show (do
    let t ← setCol nodes (s (tagged lines phys tag).flatten) 3 bx
    setCol t (s (tagged lines phys tag).flatten) 4 by_ : Py (Table K)) = _
  rw [h1, ok_bind, h2]

theorem nodeTable_ext {t t' nodes : Table K} (h1 : t.length = nodes.length) (h2 : t'.length = nodes.length)
    (h : ∀ (i : ℕ) (row : List K), nodes[i]? = some row → t[i]? = t'[i]?) : t = t' := by
  apply List.ext_getElem?
  intro i
  by_cases hi : i < nodes.length
  · exact h i _ (List.getElem?_eq_getElem hi)
  · rw [List.getElem?_eq_none (by omega), List.getElem?_eq_none (by omega)]

/-- C70.  The result, or the exception, does not depend on the order in which Python enumerates the set of
nodes. -/
theorem C70_order_free {s s' : List ℤ → List ℤ} (hs : Enumerates s) (hs' : Enumerates s')
    (cells : String → Option (List (List ℤ))) (data : String → Option (List ℤ)) (tag : ℤ) (nodes : Table K)
    (bx by_ : K) : boundaryConditions s cells data tag nodes bx by_ =
      boundaryConditions s' cells data tag nodes bx by_ := by
  have one : ∀ (tab : Table K) (flat : List ℤ) (col : ℕ) (v : K),
      setCol tab (s flat) col v = setCol tab (s' flat) col v := by
    intro tab flat col v
    have hm : ∀ z, z ∈ s flat ↔ z ∈ s' flat := fun z => by rw [(hs flat).2, (hs' flat).2]
    rcases h : setCol tab (s flat) col v with e | t
    · rcases h' : setCol tab (s' flat) col v with e' | t'
      · rw [setCol_error h, setCol_error h']
      · obtain ⟨t, ht⟩ := setCol_exists (v := v) (idx := s flat) fun z hz => setCol_needs h' z ((hm z).1 hz)
        rw [ht] at h
        cases h
    · obtain ⟨t', ht'⟩ := setCol_exists (v := v) (idx := s' flat) fun z hz => setCol_needs h z ((hm z).2 hz)
      rw [ht']
      congr 1
      obtain ⟨l1, e1⟩ := setCol_ok h
      obtain ⟨l2, e2⟩ := setCol_ok ht'
      refine nodeTable_ext l1 l2 fun i row hi => ?_
      by_cases hx : ∃ z ∈ s flat, Resolves tab.length z i
      · have hx' : ∃ z ∈ s' flat, Resolves tab.length z i := by
          obtain ⟨z, a, b⟩ := hx
          exact ⟨z, (hm z).1 a, b⟩
        rw [((e1 i row hi).1 hx).2, ((e2 i row hi).1 hx').2]
      · have hx' : ¬ ∃ z ∈ s' flat, Resolves tab.length z i := by
          rintro ⟨z, a, b⟩
          exact hx ⟨z, (hm z).2 a, b⟩
        rw [(e1 i row hi).2 hx, (e2 i row hi).2 hx']
  unfold boundaryConditions
  congr 1
  funext flat
  simp only [one]

/-- C70.  Applying the same condition again changes nothing. -/
theorem C70_twice {s s' : List ℤ → List ℤ} (hs : Enumerates s) (hs' : Enumerates s')
    {cells : String → Option (List (List ℤ))} {data : String → Option (List ℤ)} {tag : ℤ} {nodes t : Table K}
    {bx by_ : K} (h : boundaryConditions s cells data tag nodes bx by_ = .ok t) :
    boundaryConditions s' cells data tag t bx by_ = .ok t := by
  rw [C70_order_free hs' hs]
  have hh := h
  unfold boundaryConditions at h
  obtain ⟨flat, h1, h⟩ := bind_ok.1 h
  have hlines : ∃ lines phys, cells "line" = some lines ∧ data "line" = some phys := by
    unfold taggedNodes dictGet at h1
    rcases hc : cells "line" with _ | lines
    · rw [hc] at h1; cases h1
    · rcases hd : data "line" with _ | phys
      · rw [hc, hd] at h1; cases h1
      · exact ⟨_, _, rfl, rfl⟩
  obtain ⟨lines, phys, hc, hd⟩ := hlines
  obtain ⟨t', h2, h3⟩ := bind_ok.1 h
  obtain ⟨l1, e1⟩ := setCol_ok h2
  obtain ⟨l2, e2⟩ := setCol_ok h3
  obtain ⟨t1, h4⟩ := setCol_exists (tab := t) (v := bx) (col := 3) (idx := s flat) fun z hz => by
    obtain ⟨i, row, a, b, c⟩ := setCol_needs h3 z hz
    have := ((e2 i row b).1 ⟨z, hz, a⟩).2
    exact ⟨i, _, by rwa [l2], this, by rw [List.length_set]; omega⟩
  obtain ⟨l3, e3⟩ := setCol_ok h4
  obtain ⟨t2, h5⟩ := setCol_exists (tab := t1) (v := by_) (col := 4) (idx := s flat) fun z hz => by
    obtain ⟨i, row, a, b, c⟩ := setCol_needs h3 z hz
    have h6 := ((e2 i row b).1 ⟨z, hz, a⟩).2
    rw [← l2] at a
    have h7 := ((e3 i _ h6).1 ⟨z, hz, a⟩).2
    exact ⟨i, _, by rwa [l3], h7, by rw [List.length_set, List.length_set]; omega⟩
  have key : boundaryConditions s cells data tag t bx by_ = .ok t2 := by
    unfold boundaryConditions
    rw [h1, ok_bind]
    show (do
      let t ← setCol t (s flat) 3 bx
      setCol t (s flat) 4 by_ : Py (Table K)) = _
    rw [h4, ok_bind, h5]
  rw [key]
  congr 1
  obtain ⟨a1, a2⟩ := C70_effect hs hc hd hh
  obtain ⟨b1, b2⟩ := C70_effect hs hc hd key
  refine nodeTable_ext (nodes := nodes) (b1.trans a1) a1 fun i row hi => ?_
  rw [a1] at b2
  by_cases ho : OnLine lines phys tag nodes.length i
  · have h6 := ((a2 i row hi).1 ho).2
    rw [((b2 i _ h6).1 ho).2, h6]
    congr 1
    rw [List.set_comm _ _ (by omega : (4 : ℕ) ≠ 3)]
    simp
  · have h6 := (a2 i row hi).2 ho
    rw [(b2 i _ h6).2 ho, h6]

/-- C70.  On nodes shared by two lines the later call wins; nodes of the first line only keep the flags of the
first call; other rows are untouched. -/
theorem C70_later_wins {s s' : List ℤ → List ℤ} (hs : Enumerates s) (hs' : Enumerates s')
    {cells : String → Option (List (List ℤ))} {data : String → Option (List ℤ)} {lines : List (List ℤ)}
    {phys : List ℤ} (hc : cells "line" = some lines) (hd : data "line" = some phys) {tag tag' : ℤ}
    {nodes t t' : Table K} {bx by_ bx' by' : K}
    (h : boundaryConditions s cells data tag nodes bx by_ = .ok t)
    (h' : boundaryConditions s' cells data tag' t bx' by' = .ok t') {i : ℕ} {row : List K}
    (hi : nodes[i]? = some row) :
    (OnLine lines phys tag' nodes.length i → t'[i]? = some ((row.set 3 bx').set 4 by')) ∧
    (OnLine lines phys tag nodes.length i → ¬ OnLine lines phys tag' nodes.length i →
      t'[i]? = some ((row.set 3 bx).set 4 by_)) ∧
    (¬ OnLine lines phys tag nodes.length i → ¬ OnLine lines phys tag' nodes.length i → t'[i]? = some row) := by
  obtain ⟨a1, a2⟩ := C70_effect hs hc hd h
  obtain ⟨b1, b2⟩ := C70_effect hs' hc hd h'
  rw [a1] at b2
  have a3 := a2 i row hi
  refine ⟨fun ho => ?_, fun h1 h2 => ?_, fun h1 h2 => ?_⟩
  · by_cases h1 : OnLine lines phys tag nodes.length i
    · have := ((b2 i _ (a3.1 h1).2).1 ho).2
      rw [this]
      congr 1
      rw [List.set_comm _ _ (by omega : (4 : ℕ) ≠ 3)]
      simp
    · exact ((b2 i _ (a3.2 h1)).1 ho).2
  · exact (b2 i _ (a3.1 h1).2).2 h2
  · exact (b2 i _ (a3.2 h1)).2 h2

/-- Lines 0-1 (tag 7) and 1-2 (tag 8) of a three-node mesh. -/
example : (do
    let t ← boundaryConditions (K := ℚ) List.dedup (fun _ => some [[0, 1], [1, 2]]) (fun _ => some [7, 8]) 7
      [[0, 5, 6, 0, 0], [1, 5, 6, 0, 0], [2, 5, 6, 0, 0]] (-1) 0
    boundaryConditions List.dedup (fun _ => some [[0, 1], [1, 2]]) (fun _ => some [7, 8]) 8 t 0 (-1)) =
    .ok [[0, 5, 6, -1, 0], [1, 5, 6, 0, -1], [2, 5, 6, 0, -1]] := by decide +kernel

/-! ## C71 -/

/-- Node number `z` is on a line with the tag. -/
def LineNode (lines : List (List ℤ)) (phys : List ℤ) (tag z : ℤ) : Prop :=
  ∃ (l : ℕ) (line : List ℤ), lines[l]? = some line ∧ phys[l]? = some tag ∧ z ∈ line

/-- C71.  One row per distinct node of the tagged lines, each with an equal share; the shares add up to the
total load. -/
theorem C71_shares {s : List ℤ → List ℤ} (hs : Enumerates s) {cells : String → Option (List (List ℤ))}
    {data : String → Option (List ℤ)} {lines : List (List ℤ)} {phys : List ℤ} (hc : cells "line" = some lines)
    (hd : data "line" = some phys) {tag : ℤ} {px py : K} {rows : Table K}
    (h : loading s cells data tag px py = .ok rows) :
    ∃ ids : List ℤ, ids.Nodup ∧ (∀ z, z ∈ ids ↔ LineNode lines phys tag z) ∧ ids ≠ [] ∧
      rows = (ids.map fun z : ℤ => [(z : K), px / (ids.length : K), py / (ids.length : K)]) ∧
      (rows.map fun r => r.getD 1 0).sum = px ∧ (rows.map fun r => r.getD 2 0).sum = py := by
  unfold loading at h
  obtain ⟨flat, h1, h⟩ := bind_ok.1 h
  obtain rfl := taggedNodes_ok hc hd h1
  dsimp only at h
  split at h
  · cases h
  · rename_i hne
    have hr := pure_ok.1 h
    refine ⟨s (tagged lines phys tag).flatten, (hs _).1, fun z => ?_, ?_, hr.symm, ?_, ?_⟩
    · rw [(hs _).2, mem_flat]
      rfl
    · intro h0
      rw [h0] at hne
      simp at hne
    · have : ((s (tagged lines phys tag).flatten).length : K) ≠ 0 := by exact_mod_cast hne
      rw [← hr, List.map_map]
      simp only [Function.comp_def, List.getD_cons_succ, List.getD_cons_zero, List.map_const', List.sum_replicate,
        nsmul_eq_mul]
      field_simp
    · have : ((s (tagged lines phys tag).flatten).length : K) ≠ 0 := by exact_mod_cast hne
      rw [← hr, List.map_map]
      simp only [Function.comp_def, List.getD_cons_succ, List.getD_cons_zero, List.map_const', List.sum_replicate,
        nsmul_eq_mul]
      field_simp

/-- C71.  If no line carries the tag the call raises `ZeroDivisionError`; if some nonempty line does (and every
tag belongs to a line) it returns. -/
theorem C71_no_line {s : List ℤ → List ℤ} (hs : Enumerates s) {cells : String → Option (List (List ℤ))}
    {data : String → Option (List ℤ)} {lines : List (List ℤ)} {phys : List ℤ} (hc : cells "line" = some lines)
    (hd : data "line" = some phys) (hl : phys.length = lines.length) (tag : ℤ) (px py : K) :
    ((¬ ∃ z, LineNode lines phys tag z) → loading s cells data tag px py = .error .zeroDivision) ∧
    ((∃ z, LineNode lines phys tag z) → ∃ rows, loading s cells data tag px py = .ok rows) := by
  have ht : taggedNodes cells data tag = .ok (tagged lines phys tag).flatten := by
    unfold taggedNodes dictGet
    rw [hc, hd]
    dsimp only
    rw [ok_bind, ok_bind, tagged_ok (fun i hi => by
      rw [← hl]
      exact (List.getElem?_eq_some_iff.1 hi).1), ok_bind]
    rfl
  unfold loading
  rw [ht, ok_bind]
  dsimp only
  constructor
  · intro hn
    rw [if_pos]
    rw [List.length_eq_zero_iff, List.eq_nil_iff_forall_not_mem]
    intro z hz
    exact hn ⟨z, mem_flat.1 (((hs _).2 z).1 hz)⟩
  · rintro ⟨z, hz⟩
    rw [if_neg]
    · exact ⟨_, rfl⟩
    · intro h0
      rw [List.length_eq_zero_iff] at h0
      have := ((hs _).2 z).2 (mem_flat.2 hz)
      rw [h0] at this
      simp at this

/-- C71.  In another set order the same rows come in another order. -/
theorem C71_order {s s' : List ℤ → List ℤ} (hs : Enumerates s) (hs' : Enumerates s')
    {cells : String → Option (List (List ℤ))} {data : String → Option (List ℤ)} {tag : ℤ} {px py : K}
    {rows : Table K} (h : loading s cells data tag px py = .ok rows) :
    ∃ rows', loading s' cells data tag px py = .ok rows' ∧ rows'.Perm rows := by
  unfold loading at h ⊢
  obtain ⟨flat, h1, h⟩ := bind_ok.1 h
  rw [h1, ok_bind]
  dsimp only at h ⊢
  have hp : (s' flat).Perm (s flat) := (List.perm_ext_iff_of_nodup (hs' flat).1 (hs flat).1).2 fun z => by
    rw [(hs flat).2, (hs' flat).2]
  rw [hp.length_eq]
  split at h
  · cases h
  · rename_i hne
    rw [if_neg hne]
    obtain rfl := pure_ok.1 h
    exact ⟨_, rfl, hp.map _⟩

/-! ## C72 -/

open Classical in
/-- C72.  If all nodes of the loaded line are existing free nodes, the right hand side carries the whole load:
the equations of each component add up to that component, and all together to `P_x + P_y`. -/
theorem C72_total {s : List ℤ → List ℤ} (hs : Enumerates s) {cells : String → Option (List (List ℤ))}
    {data : String → Option (List ℤ)} {lines : List (List ℤ)} {phys : List ℤ} (hc : cells "line" = some lines)
    (hd : data "line" = some phys) {tag : ℤ} {px py : K} {loads : Table K}
    (h : loading s cells data tag px py = .ok loads) {cons : Table K} {neq : ℕ} {bc : List (List ℤ)}
    (hq : eqcounter cons 2 = .ok (neq, bc)) (hv : ValidCons cons 2)
    (hf : ∀ z, LineNode lines phys tag z → ∃ p : ℕ, z = p ∧ Free cons 2 p 0 ∧ Free cons 2 p 1) :
    ∃ rhs, loadasem loads bc neq 2 = .ok rhs ∧
      (∀ j : Fin 2, ∑ i ∈ Finset.univ.filter (fun i : Fin neq => ∃ p, entry bc p j = some ((i : ℕ) : ℤ)), rhs i = ![px, py] j) ∧
      ∑ i, rhs i = px + py := by
  obtain ⟨ids, hnd, hmem, hne, hrows, -, -⟩ := C71_shares hs hc hd h
  have hn0 : (ids.length : K) ≠ 0 := by
    have : ids.length ≠ 0 := fun h0 => hne (List.length_eq_zero_iff.1 h0)
    exact_mod_cast this
  have hbl : bc.length = cons.length := by
    have := congrArg List.length (eqcounter_shape hq).1
    simpa using this
  have hlt : ∀ {p j}, Free cons 2 p j → p < cons.length := by
    rintro p j ⟨-, x, hx, -⟩
    obtain ⟨row, h1, -⟩ := entry_some.1 hx
    exact (List.getElem?_eq_some_iff.1 h1).1
  have hnames : ∀ (z : ℤ) (a b : K) (p q : ℕ), z = p → p < cons.length →
      (Names cons.length [(z : K), a, b] q ↔ q = p) := by
    rintro z a b p q rfl hp
    rw [names_iff]
    simp only [List.getElem?_cons_zero, Option.some.injEq, exists_eq_left', pyTrunc_intCast]
    unfold Resolves
    omega
  obtain ⟨rhs, hr⟩ := C13_load_success (loads := loads) hq hv (by
    intro L hL
    rw [hrows] at hL
    obtain ⟨z, hz, rfl⟩ := List.mem_map.1 hL
    obtain ⟨p, hp, hf0, -⟩ := hf z ((hmem z).1 hz)
    exact ⟨by simp, p, (hnames z _ _ p p hp (hlt hf0)).2 rfl⟩)
  -- value of an equation
  have val : ∀ {p : ℕ} {j : Fin 2} {i : Fin neq}, Free cons 2 p j → entry bc p j = some ((i : ℕ) : ℤ) →
      ((p : ℤ) ∈ ids → rhs i = ![px, py] j / ids.length) ∧ ((p : ℤ) ∉ ids → rhs i = 0) := by
    intro p j i hfree hi
    obtain ⟨e1, e2⟩ := C13_load_vector hq hv hr hfree hi
    constructor
    · intro hp
      obtain ⟨pre, post, hsplit⟩ := List.append_of_mem hp
      have hsp : loads = (pre.map fun z : ℤ => [(z : K), px / (ids.length : K), py / (ids.length : K)]) ++
          [((p : ℤ) : K), px / (ids.length : K), py / (ids.length : K)] ::
          (post.map fun z : ℤ => [(z : K), px / (ids.length : K), py / (ids.length : K)]) := by
        rw [hrows]
        generalize (ids.length : K) = N
        rw [hsplit]
        simp
      have h3 := e2 _ _ _ hsp ((hnames _ _ _ p p rfl (hlt hfree)).2 rfl) (by
        intro L hL hnm
        obtain ⟨z, hz, rfl⟩ := List.mem_map.1 hL
        have hzi : z ∈ ids := by rw [hsplit]; simp [hz]
        obtain ⟨q, hzq, hf0, -⟩ := hf z ((hmem z).1 hzi)
        have hpq := (hnames z _ _ q p hzq (hlt hf0)).1 hnm
        subst hpq
        rw [hsplit] at hnd
        have := (List.nodup_append.1 hnd).2.1
        rw [List.nodup_cons] at this
        rw [hzq] at hz
        exact this.1 hz)
      fin_cases j
      · simpa using h3.symm
      · simpa using h3.symm
    · intro hp
      refine e1 fun L hL hnm => ?_
      rw [hrows] at hL
      obtain ⟨z, hz, rfl⟩ := List.mem_map.1 hL
      obtain ⟨q, hzq, hf0, -⟩ := hf z ((hmem z).1 hz)
      have hpq := (hnames z _ _ q p hzq (hlt hf0)).1 hnm
      subst hpq
      rw [hzq] at hz
      exact hp hz
  obtain ⟨n1, n2⟩ := C01_numbering_bijective hq
  have free_of : ∀ {p : ℕ} {j : Fin 2} {i : Fin neq}, entry bc p j = some ((i : ℕ) : ℤ) → Free cons 2 p j := by
    intro p j i hi
    obtain ⟨p', j', hf', he', -⟩ := n2 i i.2
    have ho := owns_of_eqcounter hq hv hf' he' i.2
    obtain ⟨rfl, hj⟩ := ho.2.2 p j j.2 ⟨_, hi, by omega, i.2, Or.inl rfl⟩
    rw [hj]
    exact hf'
  have comp : ∀ j : Fin 2, ∑ i ∈ Finset.univ.filter (fun i : Fin neq => ∃ p, entry bc p j = some ((i : ℕ) : ℤ)), rhs i = ![px, py] j := by
    intro j
    have hz : ∀ z : {z // z ∈ ids.toFinset}, ∃ i : Fin neq, ∃ p : ℕ, z.1 = p ∧ Free cons 2 p j ∧
        entry bc p j = some ((i : ℕ) : ℤ) := by
      rintro ⟨z, hz⟩
      rw [List.mem_toFinset] at hz
      obtain ⟨p, hp, hf0, hf1⟩ := hf z ((hmem z).1 hz)
      have hfj : Free cons 2 p j := by
        fin_cases j
        · exact hf0
        · exact hf1
      obtain ⟨k, hk, hk'⟩ := n1 p j hfj
      exact ⟨⟨k, hk⟩, p, hp, hfj, hk'⟩
    choose e p hp hfp he using hz
    have h1 := Finset.sum_of_injOn (s := (Finset.univ : Finset {z // z ∈ ids.toFinset}))
      (t := Finset.univ.filter fun i : Fin neq => ∃ p, entry bc p j = some ((i : ℕ) : ℤ))
      (f := fun _ => ![px, py] j / (ids.length : K)) (g := rhs) e
      (by
        intro z _ z' _ hzz
        have ho := owns_of_eqcounter hq hv (hfp z) (he z) (e z).2
        have := ho.2.2 (p z') j j.2 ⟨_, he z', by omega, (e z).2, Or.inl (by rw [hzz])⟩
        apply Subtype.ext
        rw [hp z, hp z', this.1])
      (by
        intro z _
        simp only [Finset.coe_filter, Finset.mem_univ, true_and, Set.mem_ofPred_eq]
        exact ⟨_, he z⟩)
      (by
        intro i hi hni
        simp only [Finset.mem_filter, Finset.mem_univ, true_and] at hi
        obtain ⟨q, hq'⟩ := hi
        refine (val (free_of hq') hq').2 fun hqi => hni ?_
        refine ⟨⟨(q : ℤ), List.mem_toFinset.2 hqi⟩, by simp, ?_⟩
        have hpq : p ⟨(q : ℤ), List.mem_toFinset.2 hqi⟩ = q := by
          have := hp ⟨(q : ℤ), List.mem_toFinset.2 hqi⟩
          dsimp only at this
          exact_mod_cast this.symm
        have h2 := he ⟨(q : ℤ), List.mem_toFinset.2 hqi⟩
        rw [hpq, hq', Option.some.injEq] at h2
        exact Fin.ext (by exact_mod_cast h2.symm))
      (by
        intro z _
        refine ((val (hfp z) (he z)).1 ?_).symm
        rw [← hp z]
        exact List.mem_toFinset.1 z.2)
    rw [← h1, Finset.sum_const, Finset.card_univ, Fintype.card_coe, List.toFinset_card_of_nodup hnd, nsmul_eq_mul]
    field_simp
  refine ⟨rhs, hr, comp, ?_⟩
  have hsplit : (Finset.univ : Finset (Fin neq)) =
      (Finset.univ.filter fun i : Fin neq => ∃ p, entry bc p (0 : Fin 2) = some ((i : ℕ) : ℤ)) ∪
      (Finset.univ.filter fun i : Fin neq => ∃ p, entry bc p (1 : Fin 2) = some ((i : ℕ) : ℤ)) := by
    ext i
    simp only [Finset.mem_univ, Finset.mem_union, Finset.mem_filter, true_and, true_iff]
    obtain ⟨p, j, hfp, he, -⟩ := n2 i i.2
    have := hfp.1
    interval_cases j
    · exact Or.inl ⟨p, he⟩
    · exact Or.inr ⟨p, he⟩
  rw [hsplit, Finset.sum_union, comp 0, comp 1]
  · rfl
  · rw [Finset.disjoint_filter]
    rintro i - ⟨p, hp⟩ ⟨q, hq'⟩
    have ho := owns_of_eqcounter hq hv (free_of hp) hp i.2
    have := (ho.2.2 q 1 (by omega) ⟨_, hq', by omega, i.2, Or.inl rfl⟩).2
    simp at this

/-- Loads (6, 9) on the line 1-2-3 of a mesh with node 0 fixed. -/
example : loading (K := ℚ) List.dedup (fun _ => some [[1, 2], [2, 3], [0, 1]]) (fun _ => some [5, 5, 6]) 5 6 9 =
    .ok [[1, 2, 3], [2, 2, 3], [3, 2, 3]] ∧
    eqcounter ([[-1, -1], [0, 0], [0, 0], [0, 0]] : Table ℚ) 2 = .ok (6, [[-1, -1], [0, 1], [2, 3], [4, 5]]) ∧
    (loadasem ([[1, 2, 3], [2, 2, 3], [3, 2, 3]] : Table ℚ) [[-1, -1], [0, 1], [2, 3], [4, 5]] 6).map List.ofFn =
      .ok [2, 3, 2, 3, 2, 3] := by decide +kernel

end
end SolidsPy
