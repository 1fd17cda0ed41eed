import Verif.Model.Pre
import Verif.Spec.Tables
import Verif.Proofs.Lists

/-! # C68 - C69: element and node tables -/

set_option linter.unusedSectionVars false

namespace SolidsPy
open Spec Pre

theorem tagIds_cons (p : ℤ) (phys : List ℤ) (tag : ℤ) :
    tagIds (p :: phys) tag = (if p = tag then [0] else []) ++ (tagIds phys tag).map Nat.succ := by
  unfold tagIds
  rw [List.length_cons, List.range_succ_eq_map, List.filter_cons, List.filter_map]
  by_cases h : p = tag
  · simp [h, Function.comp_def]
  · simp [h, Function.comp_def]

theorem mem_tagIds {phys : List ℤ} {tag : ℤ} {i : ℕ} : i ∈ tagIds phys tag ↔ phys[i]? = some tag := by
  unfold tagIds
  rw [List.mem_filter, List.mem_range, decide_eq_true_eq]
  constructor
  · exact fun h => h.2
  · exact fun h => ⟨(List.getElem?_eq_some_iff.1 h).1, h⟩

theorem tagged_ok {α : Type} {cells : List α} {phys : List ℤ} {tag : ℤ}
    (h : ∀ i : ℕ, phys[i]? = some tag → i < cells.length) :
    ((tagIds phys tag).mapM fun i : ℕ => pyGet cells i) = .ok (tagged cells phys tag) := by
  induction phys generalizing cells with
  | nil => simp [tagIds, tagged, pure, Except.pure]
  | cons p phys ih =>
    rw [tagIds_cons]
    cases cells with
    | nil =>
      have h0 : ∀ i : ℕ, (p :: phys)[i]? ≠ some tag := fun i hi => by simpa using h i hi
      have h1 : p ≠ tag := by simpa using h0 0
      have h2 : tagIds phys tag = [] := by
        rw [List.eq_nil_iff_forall_not_mem]
        intro i hi
        exact h0 (i + 1) (by simpa using mem_tagIds.1 hi)
      simp [h1, h2, tagged, pure, Except.pure]
    | cons c cells =>
      have h1 := ih (cells := cells) (fun i hi => by
        have := h (i + 1) (by simpa using hi)
        simpa using this)
      have h2 : (((tagIds phys tag).map Nat.succ).mapM fun i : ℕ => pyGet (c :: cells) i) =
          .ok (tagged cells phys tag) := by
        rw [← h1, List.mapM_map]
        refine mapM_congr fun i _ => ?_
        have : ∀ x, pyGet (c :: cells) ((i.succ : ℕ) : ℤ) = .ok x ↔ pyGet cells (i : ℤ) = .ok x := by
          intro x
          rw [pyGet_nat, pyGet_nat]
          simp
        rcases hg : pyGet cells (i : ℤ) with e | x
        · rcases hg' : pyGet (c :: cells) ((i.succ : ℕ) : ℤ) with e' | x
          · obtain rfl := pyGet_error hg
            obtain rfl := pyGet_error hg'
            exact hg'
          · rw [(this x).1 hg'] at hg
            cases hg
        · exact (this x).2 hg
      by_cases hp : p = tag
      · rw [if_pos hp, List.cons_append, List.nil_append, List.mapM_cons, h2]
        have : pyGet (c :: cells) ((0 : ℕ) : ℤ) = .ok c := pyGet_nat.2 rfl
        rw [this]
        simp [tagged, hp, pure, Except.pure]
      · rw [if_neg hp, List.nil_append, h2]
        simp [tagged, hp]

theorem mem_tagged {α : Type} {cells : List α} {phys : List ℤ} {tag : ℤ} {c : α} :
    c ∈ tagged cells phys tag ↔ ∃ i : ℕ, cells[i]? = some c ∧ phys[i]? = some tag := by
  unfold tagged
  simp only [List.mem_map, List.mem_filter, decide_eq_true_eq]
  constructor
  · rintro ⟨⟨c, t⟩, ⟨h, rfl⟩, rfl⟩
    obtain ⟨i, hi⟩ := List.mem_iff_getElem?.1 h
    rw [List.getElem?_zip_eq_some] at hi
    exact ⟨i, hi⟩
  · rintro ⟨i, h1, h2⟩
    exact ⟨(c, tag), ⟨List.mem_iff_getElem?.2 ⟨i, List.getElem?_zip_eq_some.2 ⟨h1, h2⟩⟩, rfl⟩, rfl⟩

theorem dictNnode_iff {kind : String} {n : ℕ} : dictNnode kind = some n ↔ KindNodes kind n := by
  constructor
  · intro h
    unfold dictNnode at h
    split at h
    · simp only [Option.some.injEq] at h; subst_vars; exact .triangle
    · split at h
      · simp only [Option.some.injEq] at h; subst_vars; exact .triangle6
      · split at h
        · simp only [Option.some.injEq] at h; subst_vars; exact .quad
        · cases h
  · rintro (_ | _ | _) <;> rfl

/-! ## C68 -/

/-- C68.  On a mesh whose cells of the kind all have a tag and the right number of nodes, `ele_writer` returns
the tagged cells in order, numbered from `nini`, with the given type and material, and `nini` plus their
number. -/
theorem C68_elements {cells : String → Option (List (List ℤ))} {data : String → Option (List ℤ)} {kind : String}
    {eles : List (List ℤ)} {phys : List ℤ} {n : ℕ} (hc : cells kind = some eles) (hd : data kind = some phys)
    (hk : KindNodes kind n) (hl : phys.length = eles.length) (hn : ∀ c ∈ eles, c.length = n)
    (tag ty mat nini : ℤ) :
    eleWriter cells data kind tag ty mat nini =
      .ok (nini + (tagged eles phys tag).length,
        (tagged eles phys tag).zipIdx.map fun x => [nini + x.2, ty, mat] ++ x.1) := by
  have ht := tagged_ok (cells := eles) (phys := phys) (tag := tag) fun i hi => by
    rw [← hl]
    exact (List.getElem?_eq_some_iff.1 hi).1
  unfold eleWriter dictGet
  rw [hc, hd, dictNnode_iff.2 hk]
  dsimp only
  rw [ok_bind, ok_bind, ok_bind, ht, ok_bind]
  have h2 : ((tagged eles phys tag).zipIdx.mapM fun rk : List ℤ × ℕ =>
      if rk.1.length = n then (pure ((nini + rk.2) :: ty :: mat :: rk.1) : Py (List ℤ))
      else .error .valueError) =
      .ok ((tagged eles phys tag).zipIdx.map fun x => [nini + x.2, ty, mat] ++ x.1) := by
    rw [mapM_ok, List.forall₂_map_right_iff, List.forall₂_same]
    intro x hx
    have hx1 : x.1 ∈ tagged eles phys tag := List.fst_mem_of_mem_zipIdx hx
    obtain ⟨i, hi, -⟩ := mem_tagged.1 hx1
    rw [if_pos (hn _ (List.mem_of_getElem? hi))]
    rfl
  rw [h2, ok_bind, ← mapM_length ht]
  rfl

/-- C68.  In any case, if `ele_writer` returns, the ids are consecutive from `nini`, all rows have the given type
and material and the nodes of the tagged cells, in order. -/
theorem C68_any {cells : String → Option (List (List ℤ))} {data : String → Option (List ℤ)} {kind : String}
    {tag ty mat nini nf : ℤ} {els : List (List ℤ)}
    (h : eleWriter cells data kind tag ty mat nini = .ok (nf, els)) :
    ∃ eles phys, cells kind = some eles ∧ data kind = some phys ∧
      nf = nini + (tagged eles phys tag).length ∧
      els = (tagged eles phys tag).zipIdx.map fun x => [nini + x.2, ty, mat] ++ x.1 := by
  unfold eleWriter at h
  obtain ⟨eles, h1, h⟩ := bind_ok.1 h
  obtain ⟨n, h2, h⟩ := bind_ok.1 h
  obtain ⟨phys, h3, h⟩ := bind_ok.1 h
  obtain ⟨rows, h4, h⟩ := bind_ok.1 h
  obtain ⟨els', h5, h⟩ := bind_ok.1 h
  have h := pure_ok.1 h
  rw [Prod.mk.injEq] at h
  obtain ⟨rfl, rfl⟩ := h
  have hlt : ∀ i : ℕ, phys[i]? = some tag → i < eles.length := by
    intro i hi
    obtain ⟨c, hc⟩ := mapM_exists.1 ⟨rows, h4⟩ i (mem_tagIds.2 hi)
    exact (List.getElem?_eq_some_iff.1 (pyGet_nat.1 hc)).1
  have h6 := tagged_ok hlt
  rw [h4, Except.ok.injEq] at h6
  subst h6
  refine ⟨eles, phys, ?_, ?_, ?_, ?_⟩
  · unfold dictGet at h1
    split at h1
    · rename_i h; rw [h]; simpa using h1
    · cases h1
  · unfold dictGet at h3
    split at h3
    · rename_i h; rw [h]; simpa using h3
    · cases h3
  · rw [mapM_length h4]
  · have := mapM_ok.1 h5
    symm
    rw [← List.forall₂_eq_eq_eq, List.forall₂_map_left_iff]
    refine List.Forall₂.imp ?_ this
    intro x y hxy
    split at hxy
    · exact pure_ok.1 hxy
    · cases hxy

/-- C68.  An unknown cell kind raises `KeyError`. -/
theorem C68_unknown {cells : String → Option (List (List ℤ))} {data : String → Option (List ℤ)} {kind : String}
    (h : (¬ ∃ n, KindNodes kind n) ∨ cells kind = none ∨ data kind = none) (tag ty mat nini : ℤ) :
    eleWriter cells data kind tag ty mat nini = .error .keyError := by
  unfold eleWriter dictGet
  rcases hc : cells kind with _ | eles
  · rfl
  · rcases hk : dictNnode kind with _ | n
    · rfl
    · rcases hd : data kind with _ | phys
      · rfl
      · rcases h with h | h | h
        · exact absurd ⟨n, dictNnode_iff.1 hk⟩ h
        · rw [hc] at h; cases h
        · rw [hd] at h; cases h

/-- The calls of a preprocessing script: each block starts where the previous one ended, the rows are
concatenated. -/
def writeBlocks (cells : String → Option (List (List ℤ))) (data : String → Option (List ℤ))
    (blocks : List (String × ℤ × ℤ × ℤ)) (nini : ℤ) : Py (ℤ × List (List ℤ)) :=
  blocks.foldlM (fun st b => do
    let r ← eleWriter cells data b.1 b.2.1 b.2.2.1 b.2.2.2 st.1
    pure (r.1, st.2 ++ r.2)) (nini, [])

/-- C68.  The ids of the concatenated blocks are `nini, nini + 1, ...` without gaps or repetitions. -/
theorem C68_chain {cells : String → Option (List (List ℤ))} {data : String → Option (List ℤ)}
    {blocks : List (String × ℤ × ℤ × ℤ)} {nini nf : ℤ} {els : List (List ℤ)}
    (h : writeBlocks cells data blocks nini = .ok (nf, els)) :
    nf = nini + els.length ∧ els.map List.head? = (List.range els.length).map fun i : ℕ => some (nini + i) := by
  unfold writeBlocks at h
  have key : ∀ (blocks : List (String × ℤ × ℤ × ℤ)) (st : ℤ × List (List ℤ)),
      (st.1 = nini + st.2.length ∧ st.2.map List.head? = (List.range st.2.length).map fun i : ℕ => some (nini + i)) →
      ∀ r, blocks.foldlM (fun st b => do
        let r ← eleWriter cells data b.1 b.2.1 b.2.2.1 b.2.2.2 st.1
        pure (r.1, st.2 ++ r.2)) st = (.ok r : Py _) →
      r.1 = nini + r.2.length ∧ r.2.map List.head? = (List.range r.2.length).map fun i : ℕ => some (nini + i) := by
    intro blocks
    induction blocks with
    | nil =>
      intro st hst r hr
      obtain rfl := pure_ok.1 hr
      exact hst
    | cons b blocks ih =>
      intro st hst r hr
      rw [List.foldlM_cons] at hr
      obtain ⟨st', h1, h2⟩ := bind_ok.1 hr
      obtain ⟨⟨nf, rows⟩, h3, h4⟩ := bind_ok.1 h1
      obtain rfl := pure_ok.1 h4
      refine ih _ ?_ r h2
      obtain ⟨eles, phys, -, -, rfl, rfl⟩ := C68_any h3
      generalize tagged eles phys b.2.1 = T
      refine ⟨?_, ?_⟩
      · simp only [List.length_append, List.length_map, List.length_zipIdx, hst.1]
        push_cast
        ring
      · rw [List.map_append, hst.2, List.length_append, List.range_add, List.map_append]
        congr 1
        apply List.ext_getElem
        · simp
        · intro i h1 h2
          simp [hst.1]
          ring
  exact key blocks (nini, []) (by simp) _ h

/-- Two tagged triangles out of three, then a quadrilateral. -/
example : writeBlocks
    (fun k => if k = "triangle" then some [[0, 1, 2], [1, 2, 3], [2, 3, 4]] else
      if k = "quad" then some [[4, 5, 6, 7]] else none)
    (fun k => if k = "triangle" then some [10, 11, 10] else if k = "quad" then some [12] else none)
    [("triangle", 10, 3, 0), ("quad", 12, 1, 1)] 5 =
    .ok (8, [[5, 3, 0, 0, 1, 2], [6, 3, 0, 2, 3, 4], [7, 1, 1, 4, 5, 6, 7]]) := by decide +kernel

/-! ## C69 -/

section
variable {K : Type} [Field K] [LinearOrder K] [IsStrictOrderedRing K] [FloorRing K]

/-- C69.  Row `i` of the node table is `i`, the first two coordinates of point `i`, and two zero flags. -/
theorem C69_nodes {points : Table K} (h : ∀ p ∈ points, 2 ≤ p.length) :
    ∃ t, nodeWriter points = .ok t ∧ t.length = points.length ∧
      ∀ (i : ℕ) (p : List K), points[i]? = some p → ∃ x y, p[0]? = some x ∧ p[1]? = some y ∧
        t[i]? = some [(i : K), x, y, 0, 0] := by
  have hex : ∃ t, nodeWriter points = .ok t := by
    unfold nodeWriter
    rw [mapM_exists]
    intro pk hpk
    have := h pk.1 (List.fst_mem_of_mem_zipIdx hpk)
    match hp : pk.1, this with
    | x :: y :: l, _ => exact ⟨_, rfl⟩
  obtain ⟨t, ht⟩ := hex
  refine ⟨t, ht, ?_, ?_⟩
  · unfold nodeWriter at ht
    rw [mapM_length ht, List.length_zipIdx]
  · intro i p hi
    have hz : points.zipIdx[i]? = some (p, i) := by
      rw [List.getElem?_zipIdx, hi]
      simp
    unfold nodeWriter at ht
    obtain ⟨b, hb, hf⟩ := mapM_getElem? ht hz
    have := h p (List.mem_of_getElem? hi)
    match p, this with
    | x :: y :: l, _ =>
      refine ⟨x, y, rfl, rfl, ?_⟩
      rw [hb, ← pure_ok.1 hf]

example : nodeWriter ([[1, 2, 0], [3, 4, 0]] : Table ℚ) = .ok [[0, 1, 2, 0, 0], [1, 3, 4, 0, 0]] := by
  decide +kernel

end

end SolidsPy
