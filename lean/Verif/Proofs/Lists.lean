import Verif.Proofs.Py

/-! # Lists of lists -/

namespace SolidsPy

theorem flatMap_map_getElem? {α β γ : Type} (l : List α) (L : List β) (g : α → β → γ) {a b : ℕ}
    (hb : b < L.length) {x : α} (hx : l[a]? = some x) :
    (l.flatMap fun x => L.map (g x))[a * L.length + b]? = (L[b]?).map (g x) := by
  induction l generalizing a with
  | nil => simp at hx
  | cons y l ih =>
    rw [List.flatMap_cons]
    cases a with
    | zero =>
      simp only [List.getElem?_cons_zero, Option.some.injEq] at hx
      subst hx
      rw [List.getElem?_append_left (by simpa using hb)]
      simp
    | succ a =>
      rw [List.getElem?_append_right (by simp; nlinarith)]
      rw [← ih (a := a) (by simpa using hx)]
      congr 1
      simp
      rw [Nat.succ_mul]
      omega

theorem flatMap_map_length {α β γ : Type} (l : List α) (L : List β) (g : α → β → γ) :
    (l.flatMap fun x => L.map (g x)).length = l.length * L.length := by
  induction l with
  | nil => simp
  | cons y l ih => simp only [List.flatMap_cons, List.length_append, List.length_map, ih, List.length_cons]; ring

theorem div_mod_lt {e m n : ℕ} (h : e < m * n) : e / m < n ∧ e % m < m ∧ e = e / m * m + e % m := by
  have hm : 0 < m := by
    rcases Nat.eq_zero_or_pos m with h' | h'
    · subst h'; omega
    · exact h'
  exact ⟨Nat.div_lt_of_lt_mul h, Nat.mod_lt _ hm, (Nat.div_add_mod' e m).symm⟩

theorem base_inj {m r c r' c' : ℕ} (hc : c < m) (hc' : c' < m) (h : r * m + c = r' * m + c') :
    r = r' ∧ c = c' := by
  have hm : 0 < m := by omega
  have h1 : (r * m + c) / m = (r' * m + c') / m := by rw [h]
  have e : ∀ r c, c < m → (r * m + c) / m = r := by
    intro r c hc
    rw [Nat.add_comm, Nat.add_mul_div_right _ _ hm, Nat.div_eq_of_lt hc, Nat.zero_add]
  rw [e r c hc, e r' c' hc'] at h1
  subst h1
  exact ⟨rfl, by omega⟩

end SolidsPy
