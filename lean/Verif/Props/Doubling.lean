import Verif.Props.Symmetry
import Verif.Props.TemplateRun

/-! # Every half has its whole (C139) -/

set_option linter.unusedSectionVars false

namespace SolidsPy
open Spec Assem Matrix

section
variable {K : Type} [Field K] [LinearOrder K] [IsStrictOrderedRing K] [FloorRing K]
variable {sq : K → K} {d : Gui.Data K} {ms : List (Member K)} {F : ℕ → ℕ → K}

/-- The nodes off the line. -/
def offAxis (i0 : Fin 2) (c : K) (nodes : Table K) : List ℕ := (List.range nodes.length).filter fun p => coordOf nodes p i0 ≠ c

/-- The place of the mirror image of a node: behind the old nodes, in their order. -/
def imageOf (i0 : Fin 2) (c : K) (nodes : Table K) (p : ℕ) : ℕ :=
  if coordOf nodes p i0 = c then p else nodes.length + (offAxis i0 c nodes).idxOf p

/-- The node which an entry of a row names. -/
def posOf (n : ℕ) (z : ℤ) : ℕ := (if z < 0 then z + n else z).toNat

theorem posOf_resolves {n : ℕ} {z : ℤ} {p : ℕ} (h : Resolves n z p) : posOf n z = p := by
  unfold posOf
  obtain ⟨h1, h2 | h2⟩ := h
  · rw [if_neg (by omega)]; omega
  · rw [if_pos (by omega)]; omega

/-- A copy of a row. -/
def copyRow (n : ℕ) (φ : ℕ → ℕ) (mirror : Bool) (el : List ℤ) : List ℤ :=
  el.take 3 ++ (inOrder mirror ((el.drop 3).map (posOf n))).map fun p => (φ p : ℤ)

theorem inOrder_map {α β : Type} (g : α → β) (mirror : Bool) (l : List α) : inOrder mirror (l.map g) = (inOrder mirror l).map g := by
  unfold inOrder
  split
  · unfold reversed
    rcases l with _ | ⟨a, _ | ⟨b, _ | ⟨c, _ | ⟨d, _ | ⟨e, _ | ⟨f, _ | ⟨g', _ | ⟨h, _ | ⟨i, _ | ⟨j, l⟩⟩⟩⟩⟩⟩⟩⟩⟩⟩ <;> rfl
  · rfl

theorem inOrder_length {α : Type} (mirror : Bool) (l : List α) : (inOrder mirror l).length = l.length := by
  unfold inOrder
  split
  · exact reversed_length l
  · rfl

theorem mem_inOrder {α : Type} {mirror : Bool} {l : List α} {a : α} (h : a ∈ inOrder mirror l) : a ∈ l := by
  unfold inOrder at h
  split at h
  · have := forall_reversed (R := fun x y : α => x ∈ l) (l := l) (l' := l) (List.forall₂_same.2 fun x hx => hx)
    obtain ⟨i, hi, rfl⟩ := List.mem_iff_getElem.1 h
    exact (List.forall₂_iff_get.1 this).2 i hi hi
  · exact h

theorem copyRow_drop {n : ℕ} {φ : ℕ → ℕ} {mirror : Bool} {el : List ℤ} (hl : 3 ≤ el.length) :
    (copyRow n φ mirror el).drop 3 = (inOrder mirror ((el.drop 3).map (posOf n))).map fun p => (φ p : ℤ) := by
  unfold copyRow
  rw [List.drop_append_of_le_length (by rw [List.length_take]; omega), List.drop_eq_nil_of_le (by rw [List.length_take]; omega)]
  rfl

theorem copyRow_copy {n n' : ℕ} {φ : ℕ → ℕ} {mirror : Bool} {el : List ℤ} (hl : 3 ≤ el.length) (hφ : ∀ p < n, φ p < n') :
    CopyOf n n' φ mirror el (copyRow n φ mirror el) := by
  refine ⟨?_, ?_, fun ps h => ?_⟩
  · unfold copyRow
    rw [List.getElem?_append_left (by rw [List.length_take]; omega), List.getElem?_take_of_lt (by omega)]
  · unfold copyRow
    rw [List.getElem?_append_left (by rw [List.length_take]; omega), List.getElem?_take_of_lt (by omega)]
  · have e : (el.drop 3).map (posOf n) = ps := by
      clear hl
      generalize el.drop 3 = l at h
      induction h with
      | nil => rfl
      | cons h _ ih => rw [List.map_cons, posOf_resolves h, ih]
    have hb : ∀ p ∈ ps, p < n := by
      clear e
      generalize el.drop 3 = l at h
      induction h with
      | nil => simp
      | cons h _ ih =>
        intro p hp
        rcases List.mem_cons.1 hp with rfl | hp
        · exact h.1
        · exact ih p hp
    rw [copyRow_drop hl, e, List.forall₂_map_left_iff, List.forall₂_map_right_iff, List.forall₂_same]
    exact fun p hp => ⟨hφ p (hb p (mem_inOrder hp)), .inl rfl⟩

theorem forceAt_range {n : ℕ} (G : ℕ → ℕ → K) {p : ℕ} (hp : p < n) {j : ℕ} (hj : j < 2) :
    forceAt ((List.range n).map fun q => (q, G q 0, G q 1)) p j = G p j := by
  have : ∀ l : List ℕ, p ∈ l → forceAt (l.map fun q => (q, G q 0, G q 1)) p j = G p j := by
    intro l
    induction l with
    | nil => simp
    | cons a l ih =>
      intro h
      rw [List.map_cons]
      unfold forceAt
      split
      · next e =>
        obtain rfl : a = p := e
        rcases (by omega : j = 0 ∨ j = 1) with rfl | rfl <;> simp
      · next e =>
        rcases List.mem_cons.1 h with rfl | h
        · exact absurd rfl e
        · exact ih h
  exact this _ (List.mem_range.2 hp)

theorem mem_offAxis {i0 : Fin 2} {c : K} {nodes : Table K} {p : ℕ} : p ∈ offAxis i0 c nodes ↔ p < nodes.length ∧ coordOf nodes p i0 ≠ c := by
  unfold offAxis
  simp

theorem imageOf_lt {i0 : Fin 2} {c : K} {nodes : Table K} {p : ℕ} (hp : p < nodes.length) :
    imageOf i0 c nodes p < nodes.length + (offAxis i0 c nodes).length := by
  unfold imageOf
  split
  · omega
  · next h =>
    have := List.idxOf_lt_length_iff.2 (mem_offAxis.2 ⟨hp, h⟩)
    omega

theorem imageOf_self {i0 : Fin 2} {c : K} {nodes : Table K} {p : ℕ} (hp : p < nodes.length) :
    imageOf i0 c nodes p = p ↔ coordOf nodes p i0 = c := by
  unfold imageOf
  split
  · next h => exact iff_of_true rfl h
  · next h => exact iff_of_false (by omega) h

/-- The table which has the rows of the old one changed by `f` and behind them those of the images. -/
def doubledRows (i0 : Fin 2) (c : K) (nodes : Table K) (f g : ℕ → List K) : Table K :=
  (List.range nodes.length).map f ++ (offAxis i0 c nodes).map g

theorem doubledRows_length {i0 : Fin 2} {c : K} {nodes : Table K} {f g : ℕ → List K} :
    (doubledRows i0 c nodes f g).length = nodes.length + (offAxis i0 c nodes).length := by
  simp [doubledRows]

theorem doubledRows_old {i0 : Fin 2} {c : K} {nodes : Table K} {f g : ℕ → List K} {p : ℕ} (hp : p < nodes.length) :
    (doubledRows i0 c nodes f g)[p]? = some (f p) := by
  unfold doubledRows
  rw [List.getElem?_append_left (by simpa using hp), List.getElem?_map, List.getElem?_range hp]
  rfl

theorem doubledRows_new {i0 : Fin 2} {c : K} {nodes : Table K} {f g : ℕ → List K} {p : ℕ} (hp : p < nodes.length)
    (ha : coordOf nodes p i0 ≠ c) : (doubledRows i0 c nodes f g)[imageOf i0 c nodes p]? = some (g p) := by
  unfold doubledRows imageOf
  rw [if_neg ha, List.getElem?_append_right (by simp), List.length_map, List.length_range, Nat.add_sub_cancel_left, List.getElem?_map,
    List.getElem?_idxOf (mem_offAxis.2 ⟨hp, ha⟩)]
  rfl

theorem doubledRows_cover {i0 : Fin 2} {c : K} {nodes : Table K} {q : ℕ} (hq : q < nodes.length + (offAxis i0 c nodes).length) :
    ∃ p < nodes.length, q = p ∨ (q = imageOf i0 c nodes p ∧ coordOf nodes p i0 ≠ c) := by
  by_cases h : q < nodes.length
  · exact ⟨q, h, .inl rfl⟩
  · have hk : q - nodes.length < (offAxis i0 c nodes).length := by omega
    have hm := mem_offAxis.1 (List.getElem_mem hk)
    refine ⟨_, hm.1, .inr ⟨?_, hm.2⟩⟩
    unfold imageOf
    have hnd : (offAxis i0 c nodes).Nodup := List.nodup_range.filter _
    rw [if_neg hm.2, hnd.idxOf_getElem]
    omega

/-- The code of a degree of freedom. -/
def codeOf (cons : Table K) (p j : ℕ) : K := fieldOf cons p j

theorem free_row {cons : Table K} {p : ℕ} {a b : K} (h : cons[p]? = some [a, b]) (ha : a = 0 ∨ a = -1) (hb : b = 0 ∨ b = -1) {j : ℕ} (hj : j < 2) :
    Free cons 2 p j ↔ (if j = 0 then a else b) = 0 := by
  rcases (by omega : j = 0 ∨ j = 1) with rfl | rfl
  · rw [if_pos rfl]
    rcases ha with rfl | rfl
    · exact iff_of_true (free_code (by omega) (by simp [entry, h])) rfl
    · exact iff_of_false (held_code (by simp [entry, h])) (by norm_num)
  · rw [if_neg one_ne_zero]
    rcases hb with rfl | rfl
    · exact iff_of_true (free_code (by omega) (by simp [entry, h])) rfl
    · exact iff_of_false (held_code (by simp [entry, h])) (by norm_num)

/-- The supports of the whole. -/
def wholeCode (i0 : Fin 2) (c : K) (anti : Bool) (d : Gui.Data K) (p j : ℕ) : K :=
  if coordOf d.nodes p i0 = c ∧ parity (K := K) i0 anti j ≠ 1 then 0 else fieldOf d.cons p j

/-- The forces on the whole. -/
def wholeForce (i0 : Fin 2) (c : K) (anti : Bool) (nodes : Table K) (F : ℕ → ℕ → K) (q j : ℕ) : K :=
  if q < nodes.length then (if coordOf nodes q i0 = c then F q j + parity i0 anti j * F q j else F q j)
  else parity i0 anti j * F ((offAxis i0 c nodes).getD (q - nodes.length) 0) j

/-- The whole. -/
def wholeOf (i0 : Fin 2) (c : K) (anti : Bool) (F : ℕ → ℕ → K) (d : Gui.Data K) : Gui.Data K where
  nodes := doubledRows i0 c d.nodes (fun p => [(p : K), coordOf d.nodes p 0, coordOf d.nodes p 1]) fun p =>
    [(imageOf i0 c d.nodes p : K), (if i0 = 0 then 2 * c - coordOf d.nodes p 0 else coordOf d.nodes p 0),
      (if i0 = 0 then coordOf d.nodes p 1 else 2 * c - coordOf d.nodes p 1)]
  cons := doubledRows i0 c d.nodes (fun p => [wholeCode i0 c anti d p 0, wholeCode i0 c anti d p 1]) fun p =>
    [wholeCode i0 c anti d p 0, wholeCode i0 c anti d p 1]
  elements := d.elements.map (copyRow d.nodes.length id false) ++ d.elements.map (copyRow d.nodes.length (imageOf i0 c d.nodes) true)
  mats := d.mats
  loads := loadRows ((List.range (d.nodes.length + (offAxis i0 c d.nodes).length)).map fun q =>
    (q, wholeForce i0 c anti d.nodes F q 0, wholeForce i0 c anti d.nodes F q 1))

theorem wholeCode_cases (hwf : WellFormed d) {i0 : Fin 2} {c : K} {anti : Bool} {p j : ℕ} (hp : p < d.nodes.length) (hj : j < 2) :
    wholeCode i0 c anti d p j = 0 ∨ wholeCode i0 c anti d p j = -1 := by
  unfold wholeCode
  split
  · exact .inl rfl
  · have h1 : p < d.cons.length := by rw [hwf.size]; exact hp
    have h2 := hwf.width _ (List.getElem_mem h1)
    have h3 : entry d.cons p j = some (d.cons[p][j]'(by omega)) := by
      unfold entry
      rw [List.getElem?_eq_getElem h1, Option.bind_some, List.getElem?_eq_getElem]
    have := hwf.codes p j _ hj h3
    unfold fieldOf
    rw [h3]
    exact this

theorem free_half (hwf : WellFormed d) {p j : ℕ} (hp : p < d.nodes.length) (hj : j < 2) : Free d.cons 2 p j ↔ fieldOf d.cons p j = 0 := by
  have h1 : p < d.cons.length := by rw [hwf.size]; exact hp
  have h2 := hwf.width _ (List.getElem_mem h1)
  have h3 : entry d.cons p j = some (d.cons[p][j]'(by omega)) := by
    unfold entry
    rw [List.getElem?_eq_getElem h1, Option.bind_some, List.getElem?_eq_getElem]
  have h4 : fieldOf d.cons p j = d.cons[p][j]'(by omega) := by
    unfold fieldOf
    rw [h3]
    rfl
  rw [h4]
  rcases hwf.codes p j _ hj h3 with h | h
  · exact iff_of_true (free_code hj (h3.trans (by rw [h]))) h
  · exact iff_of_false (held_code (h3.trans (by rw [h]))) (by rw [h]; norm_num)

theorem free_whole (hwf : WellFormed d) (i0 : Fin 2) (c : K) (anti : Bool) (F : ℕ → ℕ → K) {p j : ℕ} (hp : p < d.nodes.length) (hj : j < 2) :
    (Free (wholeOf i0 c anti F d).cons 2 p j ↔ wholeCode i0 c anti d p j = 0) ∧
    (Free (wholeOf i0 c anti F d).cons 2 (imageOf i0 c d.nodes p) j ↔ wholeCode i0 c anti d p j = 0) := by
  have h1 := free_row (cons := (wholeOf i0 c anti F d).cons) (doubledRows_old (i0 := i0) (c := c) hp) (wholeCode_cases hwf hp (by omega))
    (wholeCode_cases hwf hp (by omega)) hj
  have e : (if j = 0 then wholeCode i0 c anti d p 0 else wholeCode i0 c anti d p 1) = wholeCode i0 c anti d p j := by
    rcases (by omega : j = 0 ∨ j = 1) with rfl | rfl <;> rfl
  rw [e] at h1
  refine ⟨h1, ?_⟩
  by_cases ha : coordOf d.nodes p i0 = c
  · rw [(imageOf_self hp).2 ha]
    exact h1
  · have h2 := free_row (cons := (wholeOf i0 c anti F d).cons) (doubledRows_new hp ha) (wholeCode_cases hwf hp (by omega))
      (wholeCode_cases hwf hp (by omega)) hj
    rwa [e] at h2

theorem put_flipped {i0 : Fin 2} {c X Y x y : K} (hX : X = if i0 = 0 then 2 * c - x else x) (hY : Y = if i0 = 0 then y else 2 * c - y) :
    X = flipped i0 0 0 * x + flipped i0 0 1 * y + (if (0 : Fin 2) = i0 then 2 * c else 0) ∧
    Y = flipped i0 1 0 * x + flipped i0 1 1 * y + (if (1 : Fin 2) = i0 then 2 * c else 0) := by
  subst hX hY
  fin_cases i0 <;> simp [flipped] <;> ring

/-- Every half can be completed to a whole, which is held on the line only where the half is held for other reasons than symmetry. -/
theorem C139_exists (hp : PlaneModel d) (hms : Members sq d ms) (hwf : WellFormed d) (i0 : Fin 2) (c : K) (anti : Bool) (F : ℕ → ℕ → K)
    (hax : ∀ p < d.nodes.length, coordOf d.nodes p i0 = c → ∀ j < 2, parity (K := K) i0 anti j ≠ 1 → ¬ Free d.cons 2 p j) :
    ∃ (d' : Gui.Data K) (ρ : ℕ → ℕ) (F' : ℕ → ℕ → K), Doubled i0 c id ρ d d' ∧ HalfHeld i0 anti id ρ d d' ∧ WellFormed d' ∧ PlaneModel d' ∧
      LoadField d' F' ∧ HalfLoaded i0 anti id ρ d.nodes.length F F' ∧ (∀ p < d.nodes.length, ρ p = p ↔ coordOf d.nodes p i0 = c) ∧
      ∀ p < d.nodes.length, coordOf d.nodes p i0 = c → ∀ j < 2, parity (K := K) i0 anti j ≠ 1 → Free d'.cons 2 p j := by
  have hlen : ∀ el ∈ d.elements, 3 ≤ el.length := by
    intro el hel
    obtain ⟨i, hi, rfl⟩ := List.mem_iff_getElem.1 hel
    have hi' : i < ms.length := by rw [← hms.length_eq]; exact hi
    exact member_length (hms.get (i := i) hi hi')
  have hsize : (wholeOf i0 c anti F d).nodes.length = d.nodes.length + (offAxis i0 c d.nodes).length := doubledRows_length
  refine ⟨wholeOf i0 c anti F d, imageOf i0 c d.nodes, wholeForce i0 c anti d.nodes F, ?_, ?_, ?_, ?_, ?_, ?_, fun p hp => imageOf_self hp, ?_⟩
  · refine ⟨rfl, ?_, ?_, ?_, ?_, ?_, ?_, ?_⟩
    · intro r hr
      simp only [wholeOf, doubledRows, List.mem_append, List.mem_map] at hr
      rcases hr with ⟨p, -, rfl⟩ | ⟨p, -, rfl⟩ <;> rfl
    · intro p hp
      refine ⟨by rw [hsize]; simp only [id]; omega, fun i => ?_⟩
      have := coord_at (nodes := (wholeOf i0 c anti F d).nodes) (doubledRows_old (i0 := i0) (c := c) hp)
      revert i
      rw [Fin.forall_fin_two]
      simp [this.1, this.2]
    · intro p hp
      refine ⟨by rw [hsize]; exact imageOf_lt hp, ?_⟩
      by_cases ha : coordOf d.nodes p i0 = c
      · rw [(imageOf_self hp).2 ha]
        have := coord_at (nodes := (wholeOf i0 c anti F d).nodes) (doubledRows_old (i0 := i0) (c := c) hp)
        refine Fin.forall_fin_two.2 (put_flipped (i0 := i0) (this.1.trans ?_) (this.2.trans ?_))
        · split
          · next h =>
            have ha : coordOf d.nodes p 0 = c := by rw [h] at ha; exact ha
            linear_combination 2 * ha
          · rfl
        · split
          · rfl
          · next h =>
            have ha : coordOf d.nodes p 1 = c := by rw [show i0 = 1 by omega] at ha; exact ha
            linear_combination 2 * ha
      · have := coord_at (nodes := (wholeOf i0 c anti F d).nodes) (doubledRows_new hp ha)
        exact Fin.forall_fin_two.2 (put_flipped (i0 := i0) this.1 this.2)
    · intro q hq
      rw [hsize] at hq
      obtain ⟨p, hp, h | h⟩ := doubledRows_cover hq
      · exact ⟨p, hp, .inl h⟩
      · exact ⟨p, hp, .inr h.1⟩
    · intro p hp q hq h
      unfold imageOf at h
      simp only [id] at h
      rcases h with h | h | h
      · exact h
      · split_ifs at h with h1 h2 h2
        · exact h
        · omega
        · omega
        · exact (List.idxOf_inj (mem_offAxis.2 ⟨hp, h1⟩)).1 (by omega)
      · split_ifs at h with h1
        · exact h
        · omega
    · refine ⟨_, _, List.Perm.refl _, ?_, ?_⟩
      · rw [List.forall₂_map_right_iff, List.forall₂_same]
        exact fun el hel => copyRow_copy (hlen el hel) fun p hp => by rw [hsize]; simp only [id]; omega
      · rw [List.forall₂_map_right_iff, List.forall₂_same]
        exact fun el hel => copyRow_copy (hlen el hel) fun p hp => by rw [hsize]; exact imageOf_lt hp
    · intro p hp j hj
      obtain ⟨h1, h2⟩ := free_whole hwf i0 c anti F hp hj
      rw [h2, id, h1]
  · intro p hp j hj
    rw [free_half hwf hp hj, id, (free_whole hwf i0 c anti F hp hj).1, eq_comm (a := p), imageOf_self hp]
    unfold wholeCode
    by_cases ha : coordOf d.nodes p i0 = c
    · by_cases hj1 : parity (K := K) i0 anti j = 1
      · rw [if_neg (by simp [hj1])]
        simp [hj1]
      · refine iff_of_false (fun h => hax p hp ha j hj hj1 ((free_half hwf hp hj).2 h)) fun h => hj1 (h.2 ha)
    · rw [if_neg (by simp [ha])]
      simp [ha]
  · have hrow : ∀ r ∈ (wholeOf i0 c anti F d).cons, ∃ p < d.nodes.length, r = [wholeCode i0 c anti d p 0, wholeCode i0 c anti d p 1] := by
      intro r hr
      simp only [wholeOf, doubledRows, List.mem_append, List.mem_map] at hr
      rcases hr with ⟨p, hp, rfl⟩ | ⟨p, hp, rfl⟩
      · exact ⟨p, List.mem_range.1 hp, rfl⟩
      · exact ⟨p, (mem_offAxis.1 hp).1, rfl⟩
    refine ⟨?_, ?_, doubledRows_length.trans hsize.symm⟩
    · intro i j x hj hx
      obtain ⟨row, h1, h2⟩ := entry_some.1 hx
      obtain ⟨p, hp, rfl⟩ := hrow _ (List.mem_of_getElem? h1)
      have := List.mem_of_getElem? h2
      simp only [List.mem_cons, List.not_mem_nil, or_false] at this
      rcases this with rfl | rfl <;> exact wholeCode_cases hwf hp (by omega)
    · intro r hr
      obtain ⟨p, -, rfl⟩ := hrow r hr
      rfl
  · refine ⟨?_, ?_⟩
    · intro r hr
      simp only [wholeOf, doubledRows, List.mem_append, List.mem_map] at hr
      rcases hr with ⟨p, -, rfl⟩ | ⟨p, -, rfl⟩ <;> rfl
    · intro el' hel' ty hty
      have : ∃ el ∈ d.elements, ∃ φ mirror, el' = copyRow d.nodes.length φ mirror el := by
        simp only [wholeOf, List.mem_append, List.mem_map] at hel'
        rcases hel' with ⟨el, h, rfl⟩ | ⟨el, h, rfl⟩
        · exact ⟨el, h, _, _, rfl⟩
        · exact ⟨el, h, _, _, rfl⟩
      obtain ⟨el, hel, φ, mirror, rfl⟩ := this
      have hl := hlen el hel
      have h1 : (copyRow d.nodes.length φ mirror el)[1]? = el[1]? := by
        unfold copyRow
        rw [List.getElem?_append_left (by rw [List.length_take]; omega), List.getElem?_take_of_lt (by omega)]
      rw [h1] at hty
      rcases hp.types el hel ty hty with h | ⟨h, h2⟩
      · exact .inl h
      · refine .inr ⟨h, ?_⟩
        rw [copyRow_drop hl, List.length_map, inOrder_length, List.length_map, h2]
  · intro q j hq hj
    rw [hsize] at hq
    rw [hsize]
    rw [← forceAt_range (wholeForce i0 c anti d.nodes F) hq hj]
    refine loads_at ?_ ?_ q hj
    · intro e he
      obtain ⟨q', hq', rfl⟩ := List.mem_map.1 he
      exact List.mem_range.1 hq'
    · rw [List.map_map]
      have : (Prod.fst ∘ fun q => (q, wholeForce i0 c anti d.nodes F q 0, wholeForce i0 c anti d.nodes F q 1)) = id := rfl
      rw [this, List.map_id]
      exact List.nodup_range
  · intro p hp j hj
    constructor
    · intro h
      have ha := (imageOf_self (i0 := i0) (c := c) hp).1 h.symm
      unfold wholeForce
      rw [id, if_pos hp, if_pos ha]
    · intro h
      have ha : coordOf d.nodes p i0 ≠ c := fun ha => h ((imageOf_self hp).2 ha).symm
      unfold wholeForce
      rw [id, if_pos hp, if_neg ha]
      refine ⟨rfl, ?_⟩
      have e : imageOf i0 c d.nodes p = d.nodes.length + (offAxis i0 c d.nodes).idxOf p := if_neg ha
      rw [e, if_neg (by omega), Nat.add_sub_cancel_left, List.getD_eq_getElem?_getD, List.getElem?_idxOf (mem_offAxis.2 ⟨hp, ha⟩)]
      rfl
  · intro p hp ha j hj hj1
    rw [(free_whole hwf i0 c anti F hp hj).1]
    unfold wholeCode
    rw [if_pos ⟨ha, hj1⟩]

end
end SolidsPy
