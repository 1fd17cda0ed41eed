import Verif.Proofs.Numbering
import Verif.Spec.Mesh

/-! Lemmas about `DME`. -/

set_option linter.unusedSectionVars false

namespace SolidsPy
open Spec

theorem pyGet_resolves {α : Type} {l : List α} {i : ℤ} {x : α} :
    pyGet l i = .ok x ↔ ∃ k, Resolves l.length i k ∧ l[k]? = some x := by
  unfold pyGet
  constructor
  · intro h
    split at h
    · rename_i k hk
      simp only [Except.ok.injEq] at h
      refine ⟨k, ⟨k.2, ?_⟩, by simp [← h]⟩
      rcases pyFin_ok.1 hk with h | h
      · exact Or.inl h
      · right; omega
    · simp at h
  · rintro ⟨k, ⟨hk, hi⟩, hx⟩
    have : pyFin l.length i = .ok ⟨k, hk⟩ := by
      rw [pyFin_ok]
      rcases hi with hi | hi
      · left; simpa using hi
      · right; simp; omega
    rw [this]
    simp only [Except.ok.injEq, List.get_eq_getElem]
    rw [List.getElem?_eq_getElem hk, Option.some.injEq] at hx
    exact hx

namespace Assem

theorem flatten_getElem? {α : Type} {rows : List (List α)} {w : ℕ}
    (hw : ∀ r ∈ rows, r.length = w) {k j : ℕ} (hj : j < w) :
    rows.flatten[w * k + j]? = rows[k]?.bind fun r => r[j]? := by
  induction rows generalizing k with
  | nil => simp
  | cons r rows ih =>
    have hr : r.length = w := hw r (by simp)
    cases k with
    | zero =>
      simp only [List.flatten_cons, Nat.mul_zero, Nat.zero_add, List.getElem?_cons_zero,
        Option.bind_some]
      rw [List.getElem?_append_left (by omega)]
    | succ k =>
      simp only [List.flatten_cons, List.getElem?_cons_succ]
      rw [List.getElem?_append_right (by rw [hr, Nat.mul_succ]; omega), hr,
        ← ih fun r hr => hw r (by simp [hr])]
      congr 1
      rw [Nat.mul_succ]
      omega

theorem flatten_length {α : Type} {rows : List (List α)} {w : ℕ}
    (hw : ∀ r ∈ rows, r.length = w) : rows.flatten.length = rows.length * w := by
  induction rows with
  | nil => simp
  | cons r rows ih =>
    rw [List.flatten_cons, List.length_append, ih fun r hr => hw r (by simp [hr]),
      hw r (by simp), List.length_cons, Nat.succ_mul]
    omega

theorem eletype_ok {ty : ℤ} {t : ℕ × ℕ × ℕ} (h : eletype ty = .ok t) : TypeDofs ty t.1 := by
  unfold eletype at h
  split at h <;> simp at h <;> subst h <;> simp [TypeDofs]

theorem eletype_of {ty : ℤ} {n : ℕ} (h : TypeDofs ty n) : ∃ t, eletype ty = .ok t ∧ t.1 = n := by
  rcases h with ⟨rfl, rfl⟩ | ⟨rfl, rfl⟩ | ⟨rfl, rfl⟩ | ⟨rfl, rfl⟩ | ⟨rfl, rfl⟩ | ⟨rfl, rfl⟩ |
    ⟨rfl, rfl⟩ | ⟨rfl, rfl⟩ <;> exact ⟨_, rfl, rfl⟩

/-- The size of an element as `DME` sees it. -/
def dofCount (ndofEl : Option (ℤ → Py ℕ)) (ty : ℤ) (n : ℕ) : Prop :=
  match ndofEl with
  | none => TypeDofs ty n
  | some f => f ty = .ok n

theorem dmeRow_ok {bc : List (List ℤ)} {m : ℕ} {ndofEl : Option (ℤ → Py ℕ)} {el row : List ℤ} :
    dmeRow bc m ndofEl el = .ok row ↔ ∃ ty n rows, el[1]? = some ty ∧ dofCount ndofEl ty n ∧
      pyGetMany bc (el.drop 3) = .ok rows ∧ assignSlice m n rows.flatten = .ok row := by
  unfold dmeRow dofCount
  cases ndofEl with
  | none =>
    simp only [bind_ok, pyGet_one, pure_ok]
    constructor
    · rintro ⟨ty, h1, t, h2, n, rfl, rows, h3, h4⟩
      exact ⟨ty, _, rows, h1, eletype_ok h2, h3, h4⟩
    · rintro ⟨ty, n, rows, h1, h2, h3, h4⟩
      obtain ⟨t, ht, rfl⟩ := eletype_of h2
      exact ⟨ty, h1, t, ht, _, rfl, rows, h3, h4⟩
  | some f =>
    simp only [bind_ok, pyGet_one]
    constructor
    · rintro ⟨ty, h1, n, h2, rows, h3, h4⟩
      exact ⟨ty, n, rows, h1, h2, h3, h4⟩
    · rintro ⟨ty, n, rows, h1, h2, h3, h4⟩
      exact ⟨ty, h1, n, h2, rows, h3, h4⟩

theorem assignSlice_ok {w n : ℕ} {vals row : List ℤ} :
    assignSlice w n vals = .ok row ↔
      (vals.length = min n w ∧ row = vals ++ List.replicate (w - min n w) 0) ∨
      (vals.length ≠ min n w ∧ ∃ v, vals = [v] ∧
        row = List.replicate (min n w) v ++ List.replicate (w - min n w) 0) := by
  unfold assignSlice
  dsimp only
  split
  · rename_i h
    simp [h, eq_comm]
  · rename_i h
    split
    · rename_i v
      have h' : ¬ 1 = min n w := by simpa using h
      simp [h', eq_comm]
    · rename_i h2
      simp only [reduceCtorEq, false_iff, not_or, not_and, not_exists]
      exact ⟨fun h' => absurd h' h, fun _ v hv => absurd hv (h2 v)⟩

section
variable {K : Type} [Field K] [LinearOrder K] [IsStrictOrderedRing K] [FloorRing K]

theorem dme_ok {cons : Table K} {elements : List (List ℤ)} {nd m : ℕ}
    {ndofEl : Option (ℤ → Py ℕ)} {op bc : List (List ℤ)} {neq : ℕ} :
    dme cons elements nd m ndofEl = .ok (op, bc, neq) ↔
      eqcounter cons nd = .ok (neq, bc) ∧ elements.mapM (dmeRow bc m ndofEl) = .ok op := by
  unfold dme
  constructor
  · intro h
    rw [bind_ok] at h
    obtain ⟨⟨a, b⟩, h1, h2⟩ := h
    simp only [bind_ok, pure_ok, Prod.mk.injEq] at h2
    obtain ⟨c, h3, rfl, rfl, rfl⟩ := h2
    exact ⟨h1, h3⟩
  · rintro ⟨h1, h2⟩
    simp [h1, h2, pure, Except.pure]

theorem bc_widths {cons : Table K} {nd neq w : ℕ} {bc : List (List ℤ)}
    (h : eqcounter cons nd = .ok (neq, bc)) (hw : ∀ r ∈ cons, r.length = w) :
    ∀ r ∈ bc, r.length = w := by
  intro r hr
  have : r.length ∈ bc.map List.length := List.mem_map_of_mem hr
  rw [(eqcounter_shape h).1, List.mem_map] at this
  obtain ⟨r', h1, h2⟩ := this
  rw [← h2, hw r' h1]

theorem pyGetMany_widths {bc rows : List (List ℤ)} {idx : List ℤ} {w : ℕ}
    (hw : ∀ r ∈ bc, r.length = w) (h : pyGetMany bc idx = .ok rows) :
    (∀ r ∈ rows, r.length = w) ∧ rows.length = idx.length := by
  refine ⟨fun r hr => ?_, mapM_length h⟩
  obtain ⟨i, hi, rfl⟩ := List.mem_iff_getElem.1 hr
  have hl : i < idx.length := by rw [← mapM_length h]; exact hi
  obtain ⟨b, hb, hg⟩ := mapM_getElem? h (List.getElem?_eq_getElem hl)
  rw [List.getElem?_eq_getElem hi, Option.some.injEq] at hb
  rw [hb]
  exact hw _ (pyGet_mem hg)

end
end Assem
end SolidsPy
