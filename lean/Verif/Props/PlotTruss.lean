import Verif.Model.Plot
import Verif.Props.Springs
import Verif.Props.Principal

/-!
# C106: how a truss is drawn
-/

namespace SolidsPy
open Spec Plot Uel

section
variable {K : Type}

/-- Row `e` of the element table is a bar number `num` from `a` to `b` of a material whose second value is `A`. -/
structure BarRow (nodes : Table K) (elements : List (List ℤ)) (mats : Table K) (e : ℕ) (num : ℤ) (a b : K × K) (A : K) :
    Prop where
  row : ∃ (ty : ℤ) (mi i j : ℕ) (E ida idb : K) (more ra rb : List K),
    elements[e]? = some [num, ty, mi, i, j] ∧ mats[mi]? = some (E :: A :: more) ∧
    nodes[i]? = some (ida :: a.1 :: a.2 :: ra) ∧ nodes[j]? = some (idb :: b.1 :: b.2 :: rb)

theorem plotMember_eq {nodes : Table K} {elements : List (List ℤ)} {mats : Table K} {e : ℕ} {num : ℤ} {a b : K × K} {A : K}
    (hr : BarRow nodes elements mats e num a b A) {areas : List K} (ha : mats.mapM (fun r => pyGet r 1) = .ok areas)
    (w : K → K) (colors : List (Color K)) : ∃ el, elements[e]? = some el ∧ A ∈ areas ∧
      plotMember nodes colors (areas.map w) el = (pyGet colors num >>= fun c => pure ⟨(a.1, b.1), (a.2, b.2), c, w A⟩) := by
  obtain ⟨ty, mi, i, j, E, ida, idb, more, ra, rb, h1, h2, h3, h4⟩ := hr.row
  obtain ⟨A', hA, hA'⟩ := mapM_getElem? ha h2
  have e1 : pyGet (E :: A :: more) 1 = .ok A := pyGet_one.2 rfl
  rw [e1] at hA'
  obtain rfl := Except.ok.inj hA'
  refine ⟨_, h1, List.mem_of_getElem? hA, ?_⟩
  have g0 : pyGet [num, ty, (mi : ℤ), (i : ℤ), (j : ℤ)] 0 = .ok num := pyGet_zero.2 rfl
  have g2 : pyGet [num, ty, (mi : ℤ), (i : ℤ), (j : ℤ)] 2 = .ok (mi : ℤ) := pyGet_two.2 rfl
  have hw : pyGet (areas.map w) (mi : ℤ) = .ok (w A) := pyGet_nat.2 (by rw [List.getElem?_map, hA]; rfl)
  unfold plotMember
  simp only [List.drop_succ_cons, List.drop_zero]
  rw [g0, ok_bind, pyGet_nat.2 h3, pyGet_nat.2 h4, g2]
  simp only [ok_bind]
  rw [hw, pyGet_one.2 rfl, pyGet_one.2 rfl, pyGet_two.2 rfl, pyGet_two.2 rfl]
  rfl

variable [Field K] [LinearOrder K] [IsStrictOrderedRing K] [FloorRing K]

/-- The widths are a nondecreasing function of the area. -/
theorem widths_fun {areas : List K} (hne : areas ≠ []) {maxVal minVal : K} (hv : minVal ≤ maxVal) :
    ∃ w : K → K, Post.trussWidths areas maxVal minVal = .ok (areas.map w) ∧ ∀ x y, x ≤ y → w x ≤ w y := by
  by_cases hd : ∃ a ∈ areas, ∃ b ∈ areas, 1e-6 < b - a
  · obtain ⟨w, h1, -, h2, -⟩ := C81_widths hv hd
    exact ⟨w, h1, h2⟩
  · refine ⟨fun _ => 3, C81_equal_areas hne ?_ _ _, fun _ _ _ => le_rfl⟩
    intro a ha b hb
    by_contra hc
    exact hd ⟨a, ha, b, hb, not_le.1 hc⟩

/-- C106.  Every member is drawn from node to node, as wide as its area says, in the colour of the stress stored under its
**number**; the colour increases with the stress, zero stress in the middle, and the width does not decrease with the area.  Numbers
without a stress stop the drawing. -/
theorem C106_members {nodes mats : Table K} {elements : List (List ℤ)} {s : List K} {maxVal minVal : K}
    (hv : minVal ≤ maxVal) (hm : ∀ r ∈ mats, 2 ≤ r.length) (hs : ∃ x ∈ s, x ≠ 0)
    {num : ℕ → ℕ} {a b : ℕ → K × K} {A : ℕ → K} (h0 : elements ≠ [])
    (hr : ∀ e < elements.length, BarRow nodes elements mats e (num e) (a e) (b e) (A e)) :
    ∃ f w : K → K, (∀ x y, x < y → f x < f y) ∧ f 0 = 1 / 2 ∧ (∀ x ∈ s, 0 ≤ f x ∧ f x ≤ 1) ∧ (∀ x y, x ≤ y → w x ≤ w y) ∧
      ((∀ e < elements.length, num e < s.length) →
        ∃ segs, plotTruss nodes elements mats (some s) maxVal minVal = .ok segs ∧ segs.length = elements.length ∧
          ∀ e < elements.length, ∃ x, s[num e]? = some x ∧
            segs[e]? = some ⟨((a e).1, (b e).1), ((a e).2, (b e).2), .scaled (f x), w (A e)⟩) ∧
      ((∃ e < elements.length, s.length ≤ num e) →
        ∀ segs, plotTruss nodes elements mats (some s) maxVal minVal ≠ .ok segs) := by
  obtain ⟨f, f1, f2, f3, f4, -⟩ := C81_stresses hs elements.length
  have hmats : ∃ areas, mats.mapM (fun r => pyGet r 1) = .ok areas := by
    refine mapM_exists.2 fun r hr => ?_
    have := hm r hr
    exact ⟨r[1], pyGet_one.2 (List.getElem?_eq_getElem (by omega))⟩
  obtain ⟨areas, ha⟩ := hmats
  have hne : areas ≠ [] := by
    obtain ⟨el, -, hA, -⟩ := plotMember_eq (hr 0 (List.length_pos_iff.2 h0)) ha id []
    exact List.ne_nil_of_mem hA
  obtain ⟨w, w1, w2⟩ := widths_fun hne hv
  have hcol : trussColors elements.length (some s) = .ok ((s.map f).map .scaled) := by
    unfold trussColors
    dsimp only
    rw [f1, ok_bind]
    rfl
  have hplot : plotTruss nodes elements mats (some s) maxVal minVal =
      elements.mapM (plotMember nodes ((s.map f).map .scaled) (areas.map w)) := by
    unfold plotTruss
    rw [ha, ok_bind, hcol, ok_bind, w1, ok_bind]
  refine ⟨f, w, f3, f4, f2, w2, ?_, ?_⟩
  · intro hnum
    have hone : ∀ e < elements.length, ∃ el x, elements[e]? = some el ∧ s[num e]? = some x ∧
        plotMember nodes ((s.map f).map .scaled) (areas.map w) el =
          .ok ⟨((a e).1, (b e).1), ((a e).2, (b e).2), .scaled (f x), w (A e)⟩ := by
      intro e he
      obtain ⟨el, h1, -, h2⟩ := plotMember_eq (hr e he) ha w ((s.map f).map .scaled)
      have hl := hnum e he
      have hx := List.getElem?_eq_getElem hl
      refine ⟨el, _, h1, hx, ?_⟩
      have hc : pyGet ((s.map f).map Color.scaled) (num e : ℤ) = .ok (.scaled (f s[num e])) :=
        pyGet_nat.2 (by rw [List.getElem?_map, List.getElem?_map, hx]; rfl)
      rw [h2, hc]
      rfl
    obtain ⟨segs, hsegs⟩ : ∃ segs, elements.mapM (plotMember nodes ((s.map f).map .scaled) (areas.map w)) = .ok segs := by
      refine mapM_exists.2 fun el hel => ?_
      obtain ⟨e, he⟩ := List.getElem?_of_mem hel
      obtain ⟨el', x, h1, -, h3⟩ := hone e (List.getElem?_eq_some_iff.1 he).1
      obtain rfl := Option.some.inj (he.symm.trans h1)
      exact ⟨_, h3⟩
    refine ⟨segs, hplot.trans hsegs, (mapM_ok.1 hsegs).length_eq.symm, ?_⟩
    intro e he
    obtain ⟨el, x, h1, h2, h3⟩ := hone e he
    obtain ⟨sg, h4, h5⟩ := mapM_getElem? hsegs h1
    rw [h3] at h5
    obtain rfl := Except.ok.inj h5
    exact ⟨x, h2, h4⟩
  · rintro ⟨e, he, hbig⟩ segs hsegs
    rw [hplot] at hsegs
    obtain ⟨el, h1, -, h2⟩ := plotMember_eq (hr e he) ha w ((s.map f).map .scaled)
    obtain ⟨sg, -, h5⟩ := mapM_getElem? hsegs h1
    rw [h2] at h5
    obtain ⟨c, h6, -⟩ := bind_ok.1 h5
    have := (List.getElem?_eq_some_iff.1 (pyGet_nat.1 h6)).1
    rw [List.length_map, List.length_map] at this
    omega

/-- C106.  Members numbered from one, as many stresses as members: nothing is drawn. -/
theorem C106_numbered_from_one {nodes mats : Table K} {elements : List (List ℤ)} {s : List K} {maxVal minVal : K}
    (hv : minVal ≤ maxVal) (hm : ∀ r ∈ mats, 2 ≤ r.length) (hs : ∃ x ∈ s, x ≠ 0) (hlen : s.length = elements.length)
    {a b : ℕ → K × K} {A : ℕ → K} (h0 : elements ≠ [])
    (hr : ∀ e < elements.length, BarRow nodes elements mats e ((e + 1 : ℕ) : ℤ) (a e) (b e) (A e)) :
    ∀ segs, plotTruss nodes elements mats (some s) maxVal minVal ≠ .ok segs := by
  obtain ⟨f, w, -, -, -, -, -, h⟩ := C106_members (num := fun e => e + 1) hv hm hs h0 hr
  have := List.length_pos_iff.2 h0
  exact h ⟨elements.length - 1, by omega, by omega⟩

/-- C106.  The picture of a solved truss: a member is drawn on the upper side of the colour scale exactly when Young's modulus times its
elongation is positive, that is, when it is in tension. -/
theorem C106_tension {sq : K → K} (hq : SqrtFn sq) {nodes mats disp : Table K} {elements : List (List ℤ)} {s : List K}
    {maxVal minVal : K} {segs : List (Segment K)} (hst : Post.stressTruss sq nodes elements mats disp = .ok s)
    (hp : plotTruss nodes elements mats (some s) maxVal minVal = .ok segs) (hv : minVal ≤ maxVal)
    (hm : ∀ r ∈ mats, 2 ≤ r.length) (hs : ∃ x ∈ s, x ≠ 0) {a b : ℕ → K × K} {A' : ℕ → K}
    (hr : ∀ e < elements.length, BarRow nodes elements mats e (e : ℤ) (a e) (b e) (A' e))
    {e : ℕ} {X : Matrix (Fin 2) (Fin 2) K} {E A L : K} {u} (hb : BarMember nodes elements mats disp e X E A u)
    (hL : IsLength X L) : ∃ c w, segs[e]? = some ⟨((a e).1, (b e).1), ((a e).2, (b e).2), .scaled c, w⟩ ∧
      (1 / 2 < c ↔ 0 < E * elongation X L u) ∧ (c < 1 / 2 ↔ E * elongation X L u < 0) := by
  have hσ := C53_stress hq hst hb hL
  have hlen : s.length = elements.length := (mapM_ok.1 hst).length_eq.symm
  have he : e < elements.length := hlen ▸ (List.getElem?_eq_some_iff.1 hσ).1
  have h0 : elements ≠ [] := by
    rintro rfl
    simp at he
  obtain ⟨f, w, f3, f4, -, -, h, -⟩ := C106_members (num := fun e => e) hv hm hs h0 hr
  obtain ⟨segs', h1, -, h2⟩ := h fun e he => by omega
  rw [hp] at h1
  obtain rfl := Except.ok.inj h1
  obtain ⟨x, hx, h3⟩ := h2 e he
  rw [hσ, Option.some.injEq] at hx
  subst hx
  have hmono : ∀ x y, f x < f y ↔ x < y := by
    intro x y
    refine ⟨fun h => ?_, f3 x y⟩
    by_contra hc
    rcases (not_lt.1 hc).lt_or_eq with h' | h'
    · exact lt_asymm h (f3 y x h')
    · rw [h'] at h
      exact lt_irrefl _ h
  refine ⟨_, _, h3, ?_, ?_⟩
  · rw [← f4, hmono, div_pos_iff_of_pos_right hL.1]
  · rw [← f4, hmono, div_neg_iff]
    have := hL.1
    constructor
    · rintro (⟨-, h⟩ | ⟨h, -⟩)
      · exact absurd h (not_lt.2 this.le)
      · exact h
    · intro h
      exact Or.inr ⟨h, this⟩

/-- C106.  Without stresses every member is drawn in the second colour of the table, the number being an integer. -/
theorem C106_plain {nodes mats : Table K} {elements : List (List ℤ)} {maxVal minVal : K}
    (hv : minVal ≤ maxVal) (hm : ∀ r ∈ mats, 2 ≤ r.length) {num : ℕ → ℕ} {a b : ℕ → K × K} {A : ℕ → K} (h0 : elements ≠ [])
    (hr : ∀ e < elements.length, BarRow nodes elements mats e (num e) (a e) (b e) (A e))
    (hnum : ∀ e < elements.length, num e < elements.length) :
    ∃ w : K → K, (∀ x y, x ≤ y → w x ≤ w y) ∧ ∃ segs, plotTruss nodes elements mats none maxVal minVal = .ok segs ∧
      segs.length = elements.length ∧
      ∀ e < elements.length, segs[e]? = some ⟨((a e).1, (b e).1), ((a e).2, (b e).2), .entry 1, w (A e)⟩ := by
  obtain ⟨areas, ha⟩ : ∃ areas, mats.mapM (fun r => pyGet r 1) = .ok areas := by
    refine mapM_exists.2 fun r hr => ?_
    have := hm r hr
    exact ⟨r[1], pyGet_one.2 (List.getElem?_eq_getElem (by omega))⟩
  have hne : areas ≠ [] := by
    obtain ⟨el, -, hA, -⟩ := plotMember_eq (hr 0 (List.length_pos_iff.2 h0)) ha id []
    exact List.ne_nil_of_mem hA
  obtain ⟨w, w1, w2⟩ := widths_fun hne hv
  have hplot : plotTruss nodes elements mats none maxVal minVal =
      elements.mapM (plotMember nodes (List.replicate elements.length (.entry 1)) (areas.map w)) := by
    unfold plotTruss trussColors
    rw [ha, ok_bind, ok_bind, w1, ok_bind]
  have hone : ∀ e < elements.length, ∃ el, elements[e]? = some el ∧
      plotMember nodes (List.replicate elements.length (.entry 1)) (areas.map w) el =
        .ok ⟨((a e).1, (b e).1), ((a e).2, (b e).2), .entry 1, w (A e)⟩ := by
    intro e he
    obtain ⟨el, h1, -, h2⟩ := plotMember_eq (hr e he) ha w (List.replicate elements.length (.entry 1))
    refine ⟨el, h1, ?_⟩
    have hl := hnum e he
    have hc : pyGet (List.replicate elements.length (Color.entry (K := K) 1)) (num e : ℤ) = .ok (.entry 1) :=
      pyGet_nat.2 (by rw [List.getElem?_replicate, if_pos hl])
    rw [h2, hc]
    rfl
  obtain ⟨segs, hsegs⟩ : ∃ segs,
      elements.mapM (plotMember nodes (List.replicate elements.length (.entry 1)) (areas.map w)) = .ok segs := by
    refine mapM_exists.2 fun el hel => ?_
    obtain ⟨e, he⟩ := List.getElem?_of_mem hel
    obtain ⟨el', h1, h3⟩ := hone e (List.getElem?_eq_some_iff.1 he).1
    obtain rfl := Option.some.inj (he.symm.trans h1)
    exact ⟨_, h3⟩
  refine ⟨w, w2, segs, hplot.trans hsegs, (mapM_ok.1 hsegs).length_eq.symm, ?_⟩
  intro e he
  obtain ⟨el, h1, h3⟩ := hone e he
  obtain ⟨sg, h4, h5⟩ := mapM_getElem? hsegs h1
  rw [h3] at h5
  obtain rfl := Except.ok.inj h5
  exact h4

/-- C106.  Stresses that are all zero, as those of an unloaded truss, stop the drawing. -/
theorem C106_unstressed {nodes mats : Table K} {elements : List (List ℤ)} {s : List K} (hne : s ≠ []) (hs : ∀ x ∈ s, x = 0)
    (maxVal minVal : K) : ∀ segs, plotTruss nodes elements mats (some s) maxVal minVal ≠ .ok segs := by
  intro segs h
  unfold plotTruss at h
  obtain ⟨areas, -, h⟩ := bind_ok.1 h
  obtain ⟨colors, hc, -⟩ := bind_ok.1 h
  unfold trussColors at hc
  dsimp only at hc
  obtain ⟨c, hc, -⟩ := bind_ok.1 hc
  exact C81_unstressed hne hs _ c hc

end

/-! ## A truss of two bars -/

def twoNodes : Table ℚ := [[0, 0, 0], [1, 2, 0], [2, 1, 1]]
def twoMats : Table ℚ := [[10, 1], [10, 3]]
def twoBars (n0 n1 : ℤ) : List (List ℤ) := [[n0, 6, 0, 0, 2], [n1, 6, 1, 1, 2]]

theorem twoBars_row (n : ℕ → ℤ) : ∀ e < (twoBars (n 0) (n 1)).length, BarRow twoNodes (twoBars (n 0) (n 1)) twoMats e (n e)
    (if e = 0 then (0, 0) else (2, 0)) (1, 1) (if e = 0 then 1 else 3) := by
  intro e he
  obtain rfl | rfl : e = 0 ∨ e = 1 := by
    have : e < 2 := he
    omega
  · exact ⟨6, 0, 0, 2, 10, 0, 2, [], [], [], rfl, rfl, rfl, rfl⟩
  · exact ⟨6, 1, 1, 2, 10, 1, 2, [], [], [], rfl, rfl, rfl, rfl⟩

/-- Numbered by row: the first bar, in compression, gets the lowest colour. -/
example : plotTruss twoNodes (twoBars 0 1) twoMats (some [-8, 4]) =
    .ok [⟨(0, 1), (0, 1), .scaled 0, 1 / 2⟩, ⟨(2, 1), (0, 1), .scaled (3 / 4), 4⟩] := by decide +kernel

/-- Numbered in the other order: the colours of the two bars are exchanged, and nothing else. -/
example : plotTruss twoNodes (twoBars 1 0) twoMats (some [-8, 4]) =
    .ok [⟨(0, 1), (0, 1), .scaled (3 / 4), 1 / 2⟩, ⟨(2, 1), (0, 1), .scaled 0, 4⟩] := by decide +kernel

/-- Numbered from one: an `IndexError`, after drawing the first bar in the colour of the second. -/
example : plotTruss twoNodes (twoBars 1 2) twoMats (some [-8, 4]) = .error .indexError := by decide +kernel

example : ∃ f w : ℚ → ℚ, f 0 = 1 / 2 ∧ (∀ x y, x < y → f x < f y) ∧ (∀ x y, x ≤ y → w x ≤ w y) ∧
    ∃ segs, plotTruss twoNodes (twoBars 0 1) twoMats (some [-8, 4]) = .ok segs ∧
      segs[0]? = some ⟨(0, 1), (0, 1), .scaled (f (-8)), w 1⟩ := by
  obtain ⟨f, w, h1, h2, -, h3, h4, -⟩ := C106_members (s := [-8, 4]) (maxVal := 4) (minVal := 1 / 2) (num := id)
    (by norm_num) (by decide) ⟨-8, by decide, by norm_num⟩ (by decide) (twoBars_row fun e => (e : ℤ))
  obtain ⟨segs, h5, -, h6⟩ := h4 (by decide)
  obtain ⟨x, hx, h7⟩ := h6 0 (by decide)
  obtain rfl : x = -8 := (Option.some.inj hx).symm
  exact ⟨f, w, h2, h1, h3, segs, h5, h7⟩

example : ∀ segs, plotTruss twoNodes (twoBars 1 2) twoMats (some [-8, 4]) ≠ .ok segs :=
  C106_numbered_from_one (by norm_num) (by decide) ⟨-8, by decide, by norm_num⟩ rfl (by decide)
    (twoBars_row fun e => ((e + 1 : ℕ) : ℤ))

example : ∃ segs, plotTruss twoNodes (twoBars 1 0) twoMats none = .ok segs ∧ segs.length = 2 := by
  obtain ⟨w, -, segs, h, hl, -⟩ := C106_plain (maxVal := 4) (minVal := 1 / 2) (num := fun e => 1 - e) (by norm_num) (by decide)
    (by decide) (twoBars_row fun e => ((1 - e : ℕ) : ℤ)) (by decide)
  exact ⟨segs, h, hl⟩

example : ∀ segs, plotTruss twoNodes (twoBars 0 1) twoMats (some [0, 0]) ≠ .ok segs :=
  C106_unstressed (by simp) (by simp) _ _

/-- The bar of length five, its free end moved by one along the first axis, is drawn in a colour of tension. -/
example : ∃ s segs c w, Post.stressTruss Real.sqrt [[0, 0, 0], [1, 3, 4]] [[0, 6, 0, 0, 1]] [[10, 2]] [[0, 0], [1, 0]] = .ok s ∧
    plotTruss [[0, 0, 0], [1, 3, 4]] [[0, 6, 0, 0, 1]] [[10, 2]] (some s) = .ok segs ∧
    segs[0]? = some ⟨(0, 3), (0, 4), .scaled c, w⟩ ∧ (1 / 2 : ℝ) < c := by
  have hm : ∀ e < 1, BarMember [[0, 0, 0], [1, 3, 4]] [[0, 6, 0, 0, 1]] [[10, 2]] [[0, 0], [1, 0]] e bar345
      10 2 (fun p => if p = (1, 0) then 1 else 0) := by
    intro e he
    obtain rfl : e = 0 := by omega
    refine ⟨_, 0, ![0, 1], ![0, 1], fun _ => [], [], rfl, rfl, rfl, rfl, rfl, ?_⟩
    intro a
    fin_cases a <;> simp [bar345]
  obtain ⟨σ, hσ⟩ := (C53_returns_iff sqrtFn_real (elements := [[0, 6, 0, 0, 1]])
    (X := fun _ => bar345) (E := fun _ => 10) (A := fun _ => 2)
    (u := fun _ p => if p = (1, 0) then 1 else 0) hm).2 fun e _ =>
    ⟨fun h => by simpa [bar345] using congrFun h 0, by norm_num⟩
  have h1 := C53_stress sqrtFn_real hσ (hm 0 (by norm_num)) bar345_length
  have hl : σ.length = 1 := (mapM_ok.1 hσ).length_eq.symm
  have he : (10 : ℝ) * elongation bar345 5 (fun p => if p = (1, 0) then 1 else 0) = 6 := by
    simp [elongation, bar345]
    norm_num
  rw [he] at h1
  have hr : ∀ e < [[(0 : ℤ), 6, 0, 0, 1]].length, BarRow [[(0 : ℝ), 0, 0], [1, 3, 4]] [[0, 6, 0, 0, 1]] [[10, 2]] e
      ((e : ℕ) : ℤ) (0, 0) (3, 4) 2 := by
    intro e he
    obtain rfl : e = 0 := by simpa using he
    exact ⟨6, 0, 0, 1, 10, 0, 1, [], [], [], rfl, rfl, rfl, rfl⟩
  have hs : ∃ x ∈ σ, x ≠ 0 := ⟨_, List.mem_of_getElem? h1, by norm_num⟩
  obtain ⟨f, w, -, -, -, -, h4, -⟩ := C106_members (s := σ) (maxVal := 4) (minVal := 1 / 2) (num := fun e => e) (by norm_num)
    (by simp) hs (by simp) hr
  obtain ⟨segs, h5, -, -⟩ := h4 (by
    intro e he
    rw [hl]
    exact he)
  obtain ⟨c, w, h6, h7, -⟩ := C106_tension sqrtFn_real hσ h5 (by norm_num) (by simp) hs hr (hm 0 (by norm_num)) bar345_length
  exact ⟨σ, segs, c, w, hσ, h5, h6, h7.2 (by rw [he]; norm_num)⟩

end SolidsPy
