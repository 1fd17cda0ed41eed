import Verif.Props.Template
import Verif.Props.Run
import Verif.Props.Supports
import Verif.Props.Invariance
import Verif.Props.Balance
import Verif.Props.Placement

/-! # C134: the tutorial from the mesh to the displacements -/

set_option linter.unusedSectionVars false

namespace SolidsPy
open Spec Files Pre Matrix

/-- The two triangles have a side in common. -/
def Spec.SideBySide (tri : List (List ℤ)) (a b : List ℤ) : Prop :=
  a ∈ tri ∧ b ∈ tri ∧ ∃ p q, p ≠ q ∧ p ∈ a ∧ q ∈ a ∧ p ∈ b ∧ q ∈ b

section
variable {K : Type} [Field K] [LinearOrder K] [IsStrictOrderedRing K] [FloorRing K]

/-- A drawing fit for analysis: every triangle is large enough against the precision of the file, the triangles form
one piece that uses every point, two points of the lines tagged 300 differ in height, some line is tagged 400, some
line is tagged 500, and some point is free. -/
structure Spec.Drawing (points : Table K) (tri lines : List (List ℤ)) (phys : List ℤ) : Prop where
  large : ∀ c ∈ tri, ∃ (i j k : ℕ) (p q r : List K) (x1 y1 x2 y2 x3 y3 : K), c = [(i : ℤ), (j : ℤ), (k : ℤ)] ∧
    points[i]? = some p ∧ points[j]? = some q ∧ points[k]? = some r ∧
    p.take 2 = [x1, y1] ∧ q.take 2 = [x2, y2] ∧ r.take 2 = [x3, y3] ∧
    (|x2 - x1| + |y2 - y1| + |x3 - x1| + |y3 - y1|) / 10000 + 3 / 10 ^ 8 < twiceArea x1 y1 x2 y2 x3 y3
  used : ∀ p < points.length, ∃ c ∈ tri, (p : ℤ) ∈ c
  onePiece : ∀ a ∈ tri, ∀ b ∈ tri, Relation.ReflTransGen (SideBySide tri) a b
  held : ∃ (i j : ℕ) (p q : List K) (y1 y2 : K), OnLine lines phys 300 points.length i ∧
    OnLine lines phys 300 points.length j ∧ points[i]? = some p ∧ points[j]? = some q ∧ p[1]? = some y1 ∧
    q[1]? = some y2 ∧ 1 / 10000 < y2 - y1
  stands : ∃ i, OnLine lines phys 400 points.length i
  free : ∃ i < points.length, ¬ OnLine lines phys 300 points.length i ∨ ¬ OnLine lines phys 400 points.length i
  loaded : ∃ z, LineNode lines phys 500 z

variable {sq : K → K} {sp de : Sol.Solver K} {s : List ℤ → List ℤ} {points : Table K}
  {cells : String → Option (List (List ℤ))} {data : String → Option (List ℤ)} {tri lines : List (List ℤ)}
  {tags phys : List ℤ} {fs fs' : Fs}

/-- A triangle with twice its area above the tolerance is accepted. -/
theorem tri_member_exists {mats nodes : Table K} {id : ℤ} {a b c q : ℕ} {ra rb rc : K} {xa ya xb yb xc yc E nu : K}
    (hm : mats[q]? = some [E, nu])
    (ha : nodes[a]? = some [ra, xa, ya]) (hb : nodes[b]? = some [rb, xb, yb]) (hc : nodes[c]? = some [rc, xc, yc])
    (hnu : 1 - nu ^ 2 ≠ 0) (har : 1e-8 < twiceArea xa ya xb yb xc yc) :
    ∃ m, IsMember (Routine sq) mats nodes [id, 3, q, a, b, c] m ∧ m.nodes = [a, b, c] := by
  obtain ⟨k, m, A, B, hAB, -, -⟩ := (C48_accepts_iff (!![xa, ya; xb, yb; xc, yc] : Matrix (Fin 3) (Fin 2) K) E nu []).2
    ⟨hnu, by simpa [area2, twiceArea] using har⟩
  have e : matRows (!![xa, ya; xb, yb; xc, yc] : Matrix (Fin 3) (Fin 2) K) =
      [[ra, xa, ya], [rb, xb, yb], [rc, xc, yc]].map (List.drop 1) := by simp [matRows, List.ofFn_succ]
  rw [e] at hAB
  exact ⟨⟨[a, b, c], cell A⟩, ⟨3, q, _, _, Uel.elastTri3, A, B, rfl, rfl,
    ⟨q, ⟨(List.getElem?_eq_some_iff.1 hm).1, .inl rfl⟩, hm⟩,
    .cons ⟨(List.getElem?_eq_some_iff.1 ha).1, .inl rfl⟩ (.cons ⟨(List.getElem?_eq_some_iff.1 hb).1, .inl rfl⟩
      (.cons ⟨(List.getElem?_eq_some_iff.1 hc).1, .inl rfl⟩ .nil)),
    .cons ha (.cons hb (.cons hc .nil)), rfl, hAB, rfl⟩, rfl⟩

theorem coord_at {nodes : Table K} {p : ℕ} {r x y : K} (h : nodes[p]? = some [r, x, y]) :
    coordOf nodes p 0 = x ∧ coordOf nodes p 1 = y := by
  simp [coordOf, fieldOf, entry, h]

/-- Different corners of a triangle that is not flat are at different places. -/
theorem corners_apart {nodes : Table K} {a b c : ℕ} {ra rb rc : K} {xa ya xb yb xc yc : K}
    (ha : nodes[a]? = some [ra, xa, ya]) (hb : nodes[b]? = some [rb, xb, yb]) (hc : nodes[c]? = some [rc, xc, yc])
    (har : twiceArea xa ya xb yb xc yc ≠ 0) {p q : ℕ} (hp : p ∈ [a, b, c]) (hq : q ∈ [a, b, c]) (hpq : p ≠ q) :
    Apart nodes p q := by
  obtain ⟨a0, a1⟩ := coord_at ha
  obtain ⟨b0, b1⟩ := coord_at hb
  obtain ⟨c0, c1⟩ := coord_at hc
  by_contra hne
  unfold Apart at hne
  push Not at hne
  apply har
  unfold twiceArea
  simp only [List.mem_cons, List.not_mem_nil, or_false] at hp hq
  rcases hp with rfl | rfl | rfl <;> rcases hq with rfl | rfl | rfl <;>
    first
    | exact absurd rfl hpq
    | (simp only [a0, a1, b0, b1, c0, c1] at hne
       obtain ⟨h1, h2⟩ := hne
       subst h1 h2
       ring)

/-- A mesh of triangles, each with twice its area above the tolerance, in one piece. -/
theorem tri_solid {d : Gui.Data K} (hn : ∀ r ∈ d.nodes, r.length = 3)
    (hel : ∀ el ∈ d.elements, ∃ (e : ℤ) (q i j k : ℕ) (ri rj rk x1 y1 x2 y2 x3 y3 E nu : K),
      el = [e, 3, (q : ℤ), (i : ℤ), (j : ℤ), (k : ℤ)] ∧ d.mats[q]? = some [E, nu] ∧ 0 < E ∧ -1 < nu ∧ nu < 1 ∧
      d.nodes[i]? = some [ri, x1, y1] ∧ d.nodes[j]? = some [rj, x2, y2] ∧ d.nodes[k]? = some [rk, x3, y3] ∧
      1e-8 < twiceArea x1 y1 x2 y2 x3 y3)
    (hused : ∀ p < d.nodes.length, ∃ el ∈ d.elements, (p : ℤ) ∈ el.drop 3)
    (hone : ∀ a ∈ d.elements, ∀ b ∈ d.elements, Relation.ReflTransGen
      (fun a b => a ∈ d.elements ∧ b ∈ d.elements ∧ ∃ p q, p ≠ q ∧ p ∈ a.drop 3 ∧ q ∈ a.drop 3 ∧ p ∈ b.drop 3 ∧
        q ∈ b.drop 3) a b) : ∃ ms, SolidMesh sq d ms := by
  have hex : ∀ el ∈ d.elements, ∃ m : Member K, IsMember (Routine sq) d.mats d.nodes el m ∧
      (∀ z : ℤ, z ∈ el.drop 3 → ∃ p : ℕ, z = p ∧ p ∈ m.nodes) ∧
      ∀ p ∈ m.nodes, ∀ q ∈ m.nodes, p ≠ q → Apart d.nodes p q := by
    intro el h
    obtain ⟨e, q, i, j, k, ri, rj, rk, x1, y1, x2, y2, x3, y3, E, nu, rfl, hm, hE, h1, h2, hi, hj, hk, har⟩ := hel el h
    obtain ⟨m, hmem, hnd⟩ := tri_member_exists (sq := sq) (id := e) hm hi hj hk (by nlinarith) har
    refine ⟨m, hmem, ?_, ?_⟩
    · rw [hnd]
      simp only [List.drop_succ_cons, List.drop_zero, List.mem_cons, List.not_mem_nil, or_false]
      rintro z (rfl | rfl | rfl)
      · exact ⟨i, rfl, by simp⟩
      · exact ⟨j, rfl, by simp⟩
      · exact ⟨k, rfl, by simp⟩
    · rw [hnd]
      intro p hp q hq hpq
      refine corners_apart hi hj hk (ne_of_gt (lt_trans ?_ har)) hp hq hpq
      norm_num
  classical
  have : Inhabited (Member K) := ⟨⟨[], fun _ _ => 0⟩⟩
  choose! f hf1 hf2 hf3 using hex
  refine ⟨d.elements.map f, hn, ?_, ?_, ?_, ?_, ?_⟩
  · unfold Members
    rw [List.forall₂_map_right_iff, List.forall₂_same]
    exact hf1
  · intro el h ty hty
    obtain ⟨e, q, i, j, k, ri, rj, rk, x1, y1, x2, y2, x3, y3, E, nu, rfl, -⟩ := hel el h
    simp only [List.getElem?_cons_succ, List.getElem?_cons_zero, Option.some.injEq] at hty
    exact .inr (.inl hty.symm)
  · intro el h mi q' params hmi hres hpar
    obtain ⟨e, q, i, j, k, ri, rj, rk, x1, y1, x2, y2, x3, y3, E, nu, rfl, hm, hE, h1, h2, -⟩ := hel el h
    simp only [List.getElem?_cons_succ, List.getElem?_cons_zero, Option.some.injEq] at hmi
    subst hmi
    have hlt := (List.getElem?_eq_some_iff.1 hm).1
    have : q' = q := by
      unfold Resolves at hres
      omega
    rw [this, hm, Option.some.injEq] at hpar
    exact ⟨E, nu, [], hpar.symm, hE, h1, h2, by simp⟩
  · intro p hp
    obtain ⟨el, h, hpe⟩ := hused p hp
    obtain ⟨p', e, hp'⟩ := hf2 el h p hpe
    refine ⟨f el, List.mem_map_of_mem h, ?_⟩
    rwa [show p = p' by exact_mod_cast e]
  · intro m hm m' hm'
    obtain ⟨a, ha, rfl⟩ := List.mem_map.1 hm
    obtain ⟨b, hb, rfl⟩ := List.mem_map.1 hm'
    refine Relation.ReflTransGen.lift f ?_ _ _ (hone a ha b hb)
    rintro a b ⟨ha, hb, p, q, hpq, p1, q1, p2, q2⟩
    refine ⟨List.mem_map_of_mem hb, ?_⟩
    obtain ⟨p', rfl, hp1⟩ := hf2 a ha p p1
    obtain ⟨q', rfl, hq1⟩ := hf2 a ha q q1
    obtain ⟨p'', e1, hp2⟩ := hf2 b hb _ p2
    obtain ⟨q'', e2, hq2⟩ := hf2 b hb _ q2
    have e1 : p' = p'' := by exact_mod_cast e1
    have e2 : q' = q'' := by exact_mod_cast e2
    rw [← e1] at hp2
    rw [← e2] at hq2
    exact ⟨p', q', hp1, hq1, hp2, hq2, hf3 a ha p' hp1 q' hq1 (by exact_mod_cast hpq)⟩

variable {nodes mats loads : Table K} {els : List (List ℤ)}

/-- Rows of the model that `solids_GUI` builds from the files. -/
theorem drawing_rows (hs : Enumerates s) (hm : TriangleMesh points cells data tri tags lines phys)
    (h : Template.script s points cells data fs = .ok fs') (hr : readin fs' [] = .ok (nodes, mats, els, loads))
    {i : ℕ} {p : List K} (hp : points[i]? = some p) : ∃ x y x' y' cx cy : K, p.take 2 = [x, y] ∧ p[1]? = some y ∧
      |x - x'| ≤ 1 / 20000 ∧ |y - y'| ≤ 1 / 20000 ∧
      (splitData nodes mats els loads).nodes[i]? = some [(i : K), x', y'] ∧
      (splitData nodes mats els loads).cons[i]? = some [cx, cy] ∧ (cx = 0 ∨ cx = -1) ∧ (cy = 0 ∨ cy = -1) ∧
      (cx = -1 ↔ OnLine lines phys 300 points.length i) ∧ (cy = -1 ↔ OnLine lines phys 400 points.length i) := by
  obtain ⟨-, hn⟩ := C130_nodes hs hm h hr
  obtain ⟨x, y, x', y', cx, cy, a0, a1, e, f, g, -, -, c1, c2, c3, c4⟩ := hn i p hp
  have tk : p.take 2 = [x, y] := by
    match p, a0, a1 with
    | a :: b :: l, h0, h1 =>
      simp only [List.getElem?_cons_zero, Option.some.injEq, List.getElem?_cons_succ] at h0 h1
      simp [h0, h1]
  have f := f.2
  have g := g.2
  norm_num at f g
  refine ⟨x, y, x', y', cx, cy, tk, a1, f, g, ?_, ?_, ?_, ?_, ?_, ?_⟩
  · simp [splitData, e]
  · simp [splitData, e]
  · by_cases o : OnLine lines phys 300 points.length i
    · exact .inr (c1 o)
    · exact .inl (c2 o)
  · by_cases o : OnLine lines phys 400 points.length i
    · exact .inr (c3 o)
    · exact .inl (c4 o)
  · by_cases o : OnLine lines phys 300 points.length i
    · simp [c1 o, o]
    · simp [c2 o, o]
  · by_cases o : OnLine lines phys 400 points.length i
    · simp [c3 o, o]
    · simp [c4 o, o]

theorem drawing_size (hs : Enumerates s) (hm : TriangleMesh points cells data tri tags lines phys)
    (h : Template.script s points cells data fs = .ok fs') (hr : readin fs' [] = .ok (nodes, mats, els, loads)) :
    (splitData nodes mats els loads).nodes.length = points.length ∧
      (splitData nodes mats els loads).cons.length = points.length := by
  have := (C130_nodes hs hm h hr).1
  simp [splitData, this]

theorem drawing_wf (hs : Enumerates s) (hm : TriangleMesh points cells data tri tags lines phys)
    (h : Template.script s points cells data fs = .ok fs') (hr : readin fs' [] = .ok (nodes, mats, els, loads)) :
    WellFormed (splitData nodes mats els loads) := by
  obtain ⟨l1, l2⟩ := drawing_size hs hm h hr
  have rows : ∀ (i : ℕ) r, (splitData nodes mats els loads).cons[i]? = some r → ∃ cx cy : K, r = [cx, cy] ∧
      (cx = 0 ∨ cx = -1) ∧ (cy = 0 ∨ cy = -1) := by
    intro i r hi
    have hlt := (List.getElem?_eq_some_iff.1 hi).1
    rw [l2] at hlt
    obtain ⟨x, y, x', y', cx, cy, -, -, -, -, -, e, hx, hy, -⟩ :=
      drawing_rows hs hm h hr (List.getElem?_eq_getElem hlt)
    rw [e, Option.some.injEq] at hi
    exact ⟨cx, cy, hi.symm, hx, hy⟩
  refine ⟨?_, ?_, by rw [l1, l2]⟩
  · intro i j x hj he
    obtain ⟨r, hi, hx⟩ := Option.bind_eq_some_iff.1 he
    obtain ⟨cx, cy, rfl, h1, h2⟩ := rows i r hi
    have : j = 0 ∨ j = 1 := by omega
    rcases this with rfl | rfl
    · simp only [List.getElem?_cons_zero, Option.some.injEq] at hx
      exact hx ▸ h1
    · simp only [List.getElem?_cons_succ, List.getElem?_cons_zero, Option.some.injEq] at hx
      exact hx ▸ h2
  · intro r hr'
    obtain ⟨i, hi⟩ := List.mem_iff_getElem?.1 hr'
    obtain ⟨cx, cy, rfl, -⟩ := rows i r hi
    rfl

/-- Horizontally free except on the lines tagged 300, vertically except on those tagged 400. -/
theorem drawing_free (hs : Enumerates s) (hm : TriangleMesh points cells data tri tags lines phys)
    (h : Template.script s points cells data fs = .ok fs') (hr : readin fs' [] = .ok (nodes, mats, els, loads))
    {i : ℕ} (hi : i < points.length) :
    (Free (splitData nodes mats els loads).cons 2 i 0 ↔ ¬ OnLine lines phys 300 points.length i) ∧
    (Free (splitData nodes mats els loads).cons 2 i 1 ↔ ¬ OnLine lines phys 400 points.length i) := by
  obtain ⟨x, y, x', y', cx, cy, -, -, -, -, -, e, hx, hy, ox, oy⟩ :=
    drawing_rows hs hm h hr (List.getElem?_eq_getElem hi)
  rw [← ox, ← oy]
  unfold Free
  simp only [entry, e, Option.bind_some, List.getElem?_cons_zero, List.getElem?_cons_succ, Option.some.injEq]
  constructor
  · constructor
    · rintro ⟨-, x, rfl, h1, -⟩ h2
      rw [h2] at h1
      exact lt_irrefl _ h1
    · intro hne
      have := hx.resolve_right hne
      exact ⟨by omega, _, rfl, by rw [this]; norm_num, by rw [this]; norm_num⟩
  · constructor
    · rintro ⟨-, x, rfl, h1, -⟩ h2
      rw [h2] at h1
      exact lt_irrefl _ h1
    · intro hne
      have := hy.resolve_right hne
      exact ⟨by omega, _, rfl, by rw [this]; norm_num, by rw [this]; norm_num⟩

theorem onLine_lt {tag : ℤ} {n i : ℕ} (h : OnLine lines phys tag n i) : i < n := by
  obtain ⟨_, _, _, _, z, _, h, _⟩ := h
  exact h

theorem drawing_supported (hs : Enumerates s) (hm : TriangleMesh points cells data tri tags lines phys)
    (hd : Drawing points tri lines phys)
    (h : Template.script s points cells data fs = .ok fs') (hr : readin fs' [] = .ok (nodes, mats, els, loads)) :
    Supported (splitData nodes mats els loads).cons (splitData nodes mats els loads).nodes := by
  obtain ⟨i, j, p, q, y1, y2, o1, o2, hp, hq, hy1, hy2, hne⟩ := hd.held
  obtain ⟨k, o3⟩ := hd.stands
  obtain ⟨l1, l2⟩ := drawing_size hs hm h hr
  obtain ⟨_, y1', _, v1, _, _, -, e1, -, b1, n1, -⟩ := drawing_rows hs hm h hr hp
  obtain ⟨_, y2', _, v2, _, _, -, e2, -, b2, n2, -⟩ := drawing_rows hs hm h hr hq
  rw [hy1, Option.some.injEq] at e1
  rw [hy2, Option.some.injEq] at e2
  subst e1 e2
  intro g ha r c hr' hc
  have a1 := ha i 0 (by rw [l2]; exact onLine_lt o1) (by omega) (by
    rw [(drawing_free hs hm h hr (onLine_lt o1)).1]; simpa using o1)
  have a2 := ha j 0 (by rw [l2]; exact onLine_lt o2) (by omega) (by
    rw [(drawing_free hs hm h hr (onLine_lt o2)).1]; simpa using o2)
  have a3 := ha k 1 (by rw [l2]; exact onLine_lt o3) (by omega) (by
    rw [(drawing_free hs hm h hr (onLine_lt o3)).2]; simpa using o3)
  simp only [Motion.move, if_true, one_ne_zero, if_false, (coord_at n1).2, (coord_at n2).2] at a1 a2 a3
  rw [abs_le] at b1 b2
  have hv : v2 - v1 ≠ 0 := by
    have : 0 < v2 - v1 := by linarith [b1.1, b1.2, b2.1, b2.2]
    exact this.ne'
  have hw : g.spin = 0 := (mul_eq_zero.1 (by linear_combination a1 - a2 : g.spin * (v2 - v1) = 0)).resolve_right hv
  simp only [hw, zero_mul, sub_zero, add_zero] at a1 a3
  unfold Motion.move
  simp [hw, a1, a3]

theorem drawing_mesh (hs : Enumerates s) (hm : TriangleMesh points cells data tri tags lines phys)
    (hd : Drawing points tri lines phys)
    (h : Template.script s points cells data fs = .ok fs') (hr : readin fs' [] = .ok (nodes, mats, els, loads)) :
    ∃ ms, SolidMesh sq (splitData nodes mats els loads) ms := by
  obtain ⟨l1, l2⟩ := drawing_size hs hm h hr
  obtain ⟨ne, hel⟩ := C130_elements hm h hr
  have hmat := C130_materials h hr
  subst hmat
  have back : ∀ el ∈ els, ∃ (i q : ℕ) (c : List ℤ), (q = 0 ∨ q = 1) ∧ c ∈ tri ∧ el = (i : ℤ) :: 3 :: (q : ℤ) :: c := by
    intro el hmem
    obtain ⟨i, hi⟩ := List.mem_iff_getElem?.1 hmem
    have hlt := (List.getElem?_eq_some_iff.1 hi).1
    rw [ne] at hlt
    obtain ⟨h1, h2⟩ := hel i _ _ (List.getElem?_eq_getElem hlt)
      (List.getElem?_eq_getElem (show i < tags.length by rw [hm.tags_len]; exact hlt))
    by_cases ht : tags[i]'(by rw [hm.tags_len]; exact hlt) = 100
    · have := h1 ht
      rw [hi, Option.some.injEq] at this
      exact ⟨i, 0, _, .inl rfl, List.getElem_mem hlt, this⟩
    · have := h2 ht
      rw [hi, Option.some.injEq] at this
      exact ⟨i, 1, _, .inr rfl, List.getElem_mem hlt, this⟩
  have fwd : ∀ c ∈ tri, ∃ el ∈ els, el.drop 3 = c := by
    intro c hc
    obtain ⟨i, hi⟩ := List.mem_iff_getElem?.1 hc
    have hlt := (List.getElem?_eq_some_iff.1 hi).1
    obtain ⟨h1, h2⟩ := hel i _ _ hi
      (List.getElem?_eq_getElem (show i < tags.length by rw [hm.tags_len]; exact hlt))
    by_cases ht : tags[i]'(by rw [hm.tags_len]; exact hlt) = 100
    · exact ⟨_, List.mem_iff_getElem?.2 ⟨i, h1 ht⟩, rfl⟩
    · exact ⟨_, List.mem_iff_getElem?.2 ⟨i, h2 ht⟩, rfl⟩
  refine tri_solid ?_ ?_ ?_ ?_
  · intro r hr'
    obtain ⟨i, hi⟩ := List.mem_iff_getElem?.1 hr'
    have hlt := (List.getElem?_eq_some_iff.1 hi).1
    rw [l1] at hlt
    obtain ⟨x, y, x', y', cx, cy, -, -, -, -, e, -⟩ := drawing_rows hs hm h hr (List.getElem?_eq_getElem hlt)
    rw [e, Option.some.injEq] at hi
    rw [← hi]
    rfl
  · intro el hmem
    obtain ⟨e, q, c, hq, hc, rfl⟩ := back el hmem
    obtain ⟨i, j, k, p1, p2, p3, x1, y1, x2, y2, x3, y3, rfl, g1, g2, g3, t1, t2, t3, hbig⟩ := hd.large c hc
    obtain ⟨_, _, u1, v1, _, _, s1, -, bx1, by1, n1, -⟩ := drawing_rows hs hm h hr g1
    obtain ⟨_, _, u2, v2, _, _, s2, -, bx2, by2, n2, -⟩ := drawing_rows hs hm h hr g2
    obtain ⟨_, _, u3, v3, _, _, s3, -, bx3, by3, n3, -⟩ := drawing_rows hs hm h hr g3
    rw [t1] at s1
    rw [t2] at s2
    rw [t3] at s3
    simp only [List.cons.injEq, and_true] at s1 s2 s3
    obtain ⟨rfl, rfl⟩ := s1
    obtain ⟨rfl, rfl⟩ := s2
    obtain ⟨rfl, rfl⟩ := s3
    have har : (1e-8 : K) < twiceArea u1 v1 u2 v2 u3 v3 := by
      have := area_moves bx1 by1 bx2 by2 bx3 by3
      rw [abs_le] at this
      have h2 := this.2
      norm_num at h2 hbig ⊢
      linarith
    rcases hq with rfl | rfl
    · exact ⟨e, 0, i, j, k, _, _, _, _, _, _, _, _, _, 1, 3 / 10, rfl, rfl, by norm_num, by norm_num, by norm_num,
        n1, n2, n3, har⟩
    · exact ⟨e, 1, i, j, k, _, _, _, _, _, _, _, _, _, 5, 3 / 10, rfl, rfl, by norm_num, by norm_num, by norm_num,
        n1, n2, n3, har⟩
  · intro p hp
    rw [l1] at hp
    obtain ⟨c, hc, hpc⟩ := hd.used p hp
    obtain ⟨el, hel', e⟩ := fwd c hc
    exact ⟨el, hel', by rw [e]; exact hpc⟩
  · intro a ha b hb
    choose! g hg1 hg2 using fwd
    have two : ∀ c ∈ tri, ∃ p q : ℤ, p ≠ q ∧ p ∈ c ∧ q ∈ c := by
      intro c hc
      obtain ⟨i, j, k, p1, p2, p3, x1, y1, x2, y2, x3, y3, rfl, g1, g2, g3, t1, t2, t3, hbig⟩ := hd.large c hc
      refine ⟨i, j, fun e => ?_, by simp, by simp⟩
      have e : i = j := by exact_mod_cast e
      rw [e, g2, Option.some.injEq] at g1
      rw [← g1, t2, List.cons.injEq, List.cons.injEq] at t1
      obtain ⟨rfl, rfl, -⟩ := t1
      have z : twiceArea x2 y2 x2 y2 x3 y3 = 0 := by unfold twiceArea; ring
      rw [z] at hbig
      have : (0 : K) ≤ (|x2 - x2| + |y2 - y2| + |x3 - x2| + |y3 - y2|) / 10000 := by positivity
      norm_num at hbig this
      linarith
    have ca : a.drop 3 ∈ tri := by
      obtain ⟨_, _, c, -, hc, rfl⟩ := back a ha
      exact hc
    have cb : b.drop 3 ∈ tri := by
      obtain ⟨_, _, c, -, hc, rfl⟩ := back b hb
      exact hc
    refine Relation.ReflTransGen.head (b := g (a.drop 3)) ?_ (Relation.ReflTransGen.tail (b := g (b.drop 3))
      (Relation.ReflTransGen.lift g ?_ _ _ (hd.onePiece _ ca _ cb)) ?_)
    · obtain ⟨p, q, hpq, hp, hq⟩ := two _ ca
      exact ⟨ha, hg1 _ ca, p, q, hpq, hp, hq, by rwa [hg2 _ ca], by rwa [hg2 _ ca]⟩
    · rintro a' b' ⟨h1, h2, p, q, hpq, k1, k2, k3, k4⟩
      exact ⟨hg1 _ h1, hg1 _ h2, p, q, hpq, by rwa [hg2 _ h1], by rwa [hg2 _ h1], by rwa [hg2 _ h2], by rwa [hg2 _ h2]⟩
    · obtain ⟨p, q, hpq, hp, hq⟩ := two _ cb
      exact ⟨hg1 _ cb, hb, p, q, hpq, by rwa [hg2 _ cb], by rwa [hg2 _ cb], hp, hq⟩

theorem drawing_loads (hs : Enumerates s) (hm : TriangleMesh points cells data tri tags lines phys)
    (h : Template.script s points cells data fs = .ok fs') (hr : readin fs' [] = .ok (nodes, mats, els, loads)) :
    ∀ L ∈ loads, 3 ≤ L.length ∧ ∃ p, Names points.length L p := by
  obtain ⟨ids, r, -, hids, rfl, -⟩ := C130_loads hs hm h hr
  intro L hL
  obtain ⟨z, hz, rfl⟩ := List.mem_map.1 hL
  obtain ⟨l, line, h1, -, h3⟩ := (hids z).1 hz
  obtain ⟨h4, h5⟩ := hm.nodes line (List.mem_iff_getElem?.2 ⟨l, h1⟩) z h3
  obtain ⟨p, rfl⟩ := Int.eq_ofNat_of_zero_le h4
  exact ⟨by simp, p, (names_nat (by exact_mod_cast h5) (by simp)).2 rfl⟩

/-- C134.  From a drawing fit for analysis the script writes four files from which `solids_GUI` computes
displacements without the equilibrium warning. -/
theorem C134_runs (hq : SqrtFn sq) (hsp : SolverOk sp) (hs : Enumerates s)
    (hm : TriangleMesh points cells data tri tags lines phys) (hd : Drawing points tri lines phys) :
    ∃ fs' res, Template.script s points cells data fs = .ok fs' ∧
      Gui.solidsGUIFiles sq sp de fs' [] false = .ok res ∧ res.warned = false := by
  obtain ⟨fs', h, ⟨nodes, mats, els, loads⟩, hr⟩ := C130_success (fs := fs) hs hm hd.loaded
  obtain ⟨ms, hms⟩ := drawing_mesh (sq := sq) hs hm hd h hr
  obtain ⟨l1, l2⟩ := drawing_size hs hm h hr
  obtain ⟨i, hi, hfr⟩ := hd.free
  obtain ⟨f0, f1⟩ := drawing_free hs hm h hr hi
  obtain ⟨res, h1, h2⟩ := C95_solids_auto (de := de) hq hms (drawing_wf hs hm h hr) hsp (drawing_supported hs hm hd h hr)
    (by
      rcases hfr with hfr | hfr
      · exact ⟨i, 0, f0.2 hfr⟩
      · exact ⟨i, 1, f1.2 hfr⟩) (by rw [l1]; exact drawing_loads hs hm h hr)
  exact ⟨fs', res, h, by rw [C105_same_as_memory (C105_readin.1 hr)]; exact h1, h2⟩

theorem sum_over_ids {n : ℕ} (r : K) : ∀ {ids : List ℤ}, ids.Nodup → (∀ z ∈ ids, 0 ≤ z ∧ z < n) →
    ∑ p ∈ Finset.range n, (if (p : ℤ) ∈ ids then r else 0) = ids.length * r := by
  intro ids hnd hb
  induction ids with
  | nil => simp
  | cons z ids ih =>
    obtain ⟨hz, hnd'⟩ := List.nodup_cons.1 hnd
    obtain ⟨h0, h1⟩ := hb z (by simp)
    obtain ⟨p, rfl⟩ := Int.eq_ofNat_of_zero_le h0
    have hp : p < n := by exact_mod_cast h1
    have e : ∀ i : ℕ, (if (i : ℤ) ∈ (p : ℤ) :: ids then r else 0) =
        (if i = p then r else 0) + if (i : ℤ) ∈ ids then r else 0 := by
      intro i
      by_cases hi : i = p
      · subst hi
        simp [hz]
      · have : ¬ (i : ℤ) = p := by exact_mod_cast hi
        simp [hi, this]
    rw [Finset.sum_congr rfl fun i _ => e i, Finset.sum_add_distrib, ih hnd' fun z hz => hb z (by simp [hz])]
    simp [hp]
    ring

/-- C134.  The reactions: horizontal ones only on the lines tagged 300, in balance among themselves; vertical ones only
on the lines tagged 400, adding up to 2 within half a millionth per loaded node, and to exactly 2 when the number of
loaded nodes divides two million. -/
theorem C134_reactions (hq : SqrtFn sq) (hsp : SolverOk sp) (hs : Enumerates s)
    (hm : TriangleMesh points cells data tri tags lines phys) (hd : Drawing points tri lines phys)
    (h : Template.script s points cells data fs = .ok fs') {plot : Bool} {res : Gui.Result K}
    (hg : Gui.solidsGUIFiles sq sp de fs' [] plot = .ok res) :
    ∃ (nodes mats loads : Table K) (els : List (List ℤ)) (ms : List (Member K)),
      readin fs' [] = .ok (nodes, mats, els, loads) ∧ Members sq (splitData nodes mats els loads) ms ∧
      res.disp.length = points.length ∧ (∃ F, LoadField (splitData nodes mats els loads) F) ∧
      ∀ F R : ℕ → ℕ → K, LoadField (splitData nodes mats els loads) F →
        (∀ p j, R p j = internal 2 ms (fieldOf res.disp) p j - F p j) →
        (∀ p < points.length, R p 0 ≠ 0 → OnLine lines phys 300 points.length p) ∧
        (∀ p < points.length, R p 1 ≠ 0 → OnLine lines phys 400 points.length p) ∧
        resultant points.length R 0 = 0 ∧
        |resultant points.length R 1 - 2| ≤ (loads.length : K) / 2000000 ∧
        (resultant points.length R 1 = 2 ↔ loads.length ∣ 2000000) := by
  obtain ⟨⟨nodes, mats, els, loads⟩, hr, -⟩ := bind_ok.1 hg
  rw [C105_same_as_memory (C105_readin.1 hr)] at hg
  obtain ⟨ms, hms⟩ := drawing_mesh (sq := sq) hs hm hd h hr
  obtain ⟨l1, l2⟩ := drawing_size hs hm h hr
  have hwf := drawing_wf hs hm h hr
  have hst := (C95_stable_iff hq hms hwf).2 (drawing_supported hs hm hd h hr)
  obtain ⟨⟨hl, -⟩, he⟩ := C18_nodal_equilibrium hwf hsp hms.members hst hg
  refine ⟨nodes, mats, loads, els, ms, hr, hms.members, hl.trans (by rw [l1]), ?_, fun F R hF hR => ?_⟩
  · classical
    have : ∀ p j, ∃ x, j < 2 → IsLoad (splitData nodes mats els loads).nodes.length loads p j x := by
      intro p j
      by_cases hj : j < 2
      · obtain ⟨x, hx⟩ := isLoad_exists (n := (splitData nodes mats els loads).nodes.length) (loads := loads) (p := p) hj
          (by
            obtain ⟨ids, r, -, -, rfl, -⟩ := C130_loads hs hm h hr
            intro L hL
            obtain ⟨z, -, rfl⟩ := List.mem_map.1 hL
            rfl)
        exact ⟨x, fun _ => hx⟩
      · exact ⟨0, fun h => absurd h hj⟩
    choose F hF using this
    exact ⟨F, fun p j _ hj => hF p j hj⟩
  obtain ⟨r1, r2, -⟩ := C91_reactions hq hms.plane hwf hsp hms.members hst hg hF hR
  rw [l1] at r2
  obtain ⟨t0, t1, t2⟩ := C130_total hs hm h hr
  obtain ⟨ids, r, hnd, hids, rfl, -⟩ := C130_loads hs hm h hr
  have hb : ∀ z ∈ ids, 0 ≤ z ∧ z < points.length := by
    intro z hz
    obtain ⟨l, line, h1, -, h3⟩ := (hids z).1 hz
    exact hm.nodes line (List.mem_iff_getElem?.2 ⟨l, h1⟩) z h3
  have hFv : ∀ p < points.length, F p 0 = 0 ∧ F p 1 = if (p : ℤ) ∈ ids then r else 0 := by
    intro p hp
    have hnm : ∀ z ∈ ids, (Names points.length [(z : K), 0, r] p ↔ z = p) := by
      intro z hz
      obtain ⟨h0, h1⟩ := hb z hz
      obtain ⟨k, rfl⟩ := Int.eq_ofNat_of_zero_le h0
      rw [names_nat (p := k) (by exact_mod_cast h1) (by simp)]
      constructor
      · rintro rfl; rfl
      · intro e; exact_mod_cast e.symm
    have value : ∀ j < 2, ∀ x, ([(0 : K), r])[j]? = some x → F p j = if (p : ℤ) ∈ ids then x else 0 := by
      intro j hj x hx
      have := hF p j (by rw [l1]; exact hp) hj
      rw [l1] at this
      rcases this with ⟨hno, e⟩ | ⟨pre, L, post, e1, e2, -, e3⟩
      · rw [e, if_neg]
        intro hmem
        exact hno _ (List.mem_map.2 ⟨_, hmem, rfl⟩) ((hnm _ hmem).2 rfl)
      · have hL : L ∈ ids.map fun z : ℤ => [(z : K), 0, r] := by
          have : L ∈ (splitData nodes mats els (ids.map fun z : ℤ => [(z : K), 0, r])).loads := by
            rw [e1]
            simp
          exact this
        obtain ⟨z, hz, rfl⟩ := List.mem_map.1 hL
        have := (hnm z hz).1 e2
        subst this
        rw [if_pos hz]
        rw [List.getElem?_cons_succ, hx, Option.some.injEq] at e3
        exact e3.symm
    refine ⟨?_, value 1 (by omega) r rfl⟩
    rw [value 0 (by omega) 0 rfl]
    simp
  have hs0 : resultant points.length F 0 = 0 :=
    Finset.sum_eq_zero fun p hp => (hFv p (Finset.mem_range.1 hp)).1
  have hs1 : resultant points.length F 1 = ids.length * r := by
    rw [← sum_over_ids r hnd hb]
    exact Finset.sum_congr rfl fun p hp => (hFv p (Finset.mem_range.1 hp)).2
  have hsum : ((ids.map fun z : ℤ => [(z : K), 0, r]).map fun r => r.getD 2 0).sum = ids.length * r := by
    rw [List.map_map]
    simp [Function.comp_def]
  rw [hsum] at t1 t2
  have e0 := r2 0 (by omega)
  have e1 := r2 1 (by omega)
  rw [hs0, add_zero] at e0
  rw [hs1] at e1
  refine ⟨?_, ?_, e0, ?_, ?_⟩
  · intro p hp hne
    by_contra ho
    exact hne (r1 p 0 ((drawing_free hs hm h hr hp).1.2 ho))
  · intro p hp hne
    by_contra ho
    exact hne (r1 p 1 ((drawing_free hs hm h hr hp).2.2 ho))
  · have : resultant points.length R 1 - 2 = -((ids.length : K) * r - -2) := by linear_combination e1
    rw [this, abs_neg]
    exact t1
  · rw [← t2]
    constructor
    · intro e
      linear_combination e1 - e
    · intro e
      linear_combination e1 - e

end

/-! ## Case -/

/-- Case for C134: the square of C130 is fit for analysis. -/
theorem template_drawing : Drawing (templatePoints.map (List.map ((↑) : ℚ → ℝ))) [[0, 1, 3], [1, 2, 3], [0, 3, 4]]
    [[0, 1], [2, 3], [3, 4], [4, 0]] [400, 500, 500, 300] where
  large := by
    intro c hc
    simp only [List.mem_cons, List.not_mem_nil, or_false] at hc
    rcases hc with rfl | rfl | rfl
    · refine ⟨0, 1, 3, _, _, _, _, _, _, _, _, _, rfl, rfl, rfl, rfl, rfl, rfl, rfl, ?_⟩
      norm_num [twiceArea, abs_of_pos]
    · refine ⟨1, 2, 3, _, _, _, _, _, _, _, _, _, rfl, rfl, rfl, rfl, rfl, rfl, rfl, ?_⟩
      norm_num [twiceArea, abs_of_pos]
    · refine ⟨0, 3, 4, _, _, _, _, _, _, _, _, _, rfl, rfl, rfl, rfl, rfl, rfl, rfl, ?_⟩
      norm_num [twiceArea, abs_of_pos]
  used := by
    intro p hp
    simp only [templatePoints, List.map_cons, List.map_nil, List.length_cons, List.length_nil] at hp
    interval_cases p
    · exact ⟨[0, 1, 3], by simp, by simp⟩
    · exact ⟨[0, 1, 3], by simp, by simp⟩
    · exact ⟨[1, 2, 3], by simp, by simp⟩
    · exact ⟨[0, 1, 3], by simp, by simp⟩
    · exact ⟨[0, 3, 4], by simp, by simp⟩
  onePiece := by
    have near : ∀ a ∈ [[0, 1, 3], [1, 2, 3], [0, 3, (4 : ℤ)]],
        SideBySide [[0, 1, 3], [1, 2, 3], [0, 3, 4]] a [0, 1, 3] ∧
        SideBySide [[0, 1, 3], [1, 2, 3], [0, 3, 4]] [0, 1, 3] a := by
      intro a ha
      simp only [List.mem_cons, List.not_mem_nil, or_false] at ha
      rcases ha with rfl | rfl | rfl
      · exact ⟨⟨by simp, by simp, 0, 1, by simp⟩, ⟨by simp, by simp, 0, 1, by simp⟩⟩
      · exact ⟨⟨by simp, by simp, 1, 3, by simp⟩, ⟨by simp, by simp, 1, 3, by simp⟩⟩
      · exact ⟨⟨by simp, by simp, 0, 3, by simp⟩, ⟨by simp, by simp, 0, 3, by simp⟩⟩
    intro a ha b hb
    exact (Relation.ReflTransGen.single (near a ha).1).tail (near b hb).2
  held := ⟨0, 4, _, _, _, _, ⟨3, _, rfl, rfl, 0, by simp, by simp [templatePoints, Resolves]⟩,
    ⟨3, _, rfl, rfl, 4, by simp, by simp [templatePoints, Resolves]⟩, rfl, rfl, rfl, rfl, by norm_num⟩
  stands := ⟨0, 0, _, rfl, rfl, 0, by simp, by simp [templatePoints, Resolves]⟩
  free := ⟨2, by simp [templatePoints], .inl (by
    rintro ⟨l, line, h1, h2, z, hz, -, hr⟩
    rcases l with _ | _ | _ | _ | l <;> simp at h1 h2
    subst h1
    simp [templatePoints] at hz hr
    omega)⟩
  loaded := ⟨2, 1, _, rfl, rfl, by simp⟩

/-- Case for C134: the files of the square of C130 are solved. -/
example (fs : Fs) : ∃ fs' res, Template.script List.dedup (templatePoints.map (List.map ((↑) : ℚ → ℝ))) templateCells
    templateData fs = .ok fs' ∧ Gui.solidsGUIFiles Real.sqrt cramerR cramerR fs' [] false = .ok res ∧
    res.warned = false :=
  C134_runs sqrtFn_real cramerR_ok (fun l => ⟨List.nodup_dedup l, fun v => List.mem_dedup⟩)
    (tri := [[0, 1, 3], [1, 2, 3], [0, 3, 4]]) (tags := [100, 200, 100]) (lines := [[0, 1], [2, 3], [3, 4], [4, 0]])
    (phys := [400, 500, 500, 300])
    ⟨rfl, rfl, rfl, rfl, by decide, rfl, rfl, by simp [templatePoints], by simp [templatePoints]⟩ template_drawing

end SolidsPy
