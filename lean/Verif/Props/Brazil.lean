import Verif.Model.Brazil
import Verif.Props.TemplateRun
import Verif.Props.Doubling

/-! # C140: the tutorial on the Brazilian test, from the mesh of a quarter to the whole disc -/

set_option linter.unusedSectionVars false

namespace SolidsPy
open Spec Files Pre Matrix

section
variable {K : Type} [Field K] [LinearOrder K] [IsStrictOrderedRing K] [FloorRing K]
variable {sq : K → K} {sp de : Sol.Solver K} {points : Table K}
  {cells : String → Option (List (List ℤ))} {data : String → Option (List ℤ)} {tri lines vs : List (List ℤ)}
  {tags phys : List ℤ} {fs fs' : Fs}

/-- The column of materials. -/
def onesColumn (n : ℕ) (tags : List ℤ) : Py (List ℤ) :=
  if tags.count 4 = n ∨ tags.count 4 = 1 then .ok (List.replicate n 1) else .error .valueError

theorem ones_column {n : ℕ} {tags : List ℤ} :
    Template.column n ((tags.filter fun m => m = 4).map fun _ => 1) = onesColumn n tags := by
  unfold onesColumn
  have e : (tags.filter fun m => m = 4).map (fun _ => (1 : ℤ)) = List.replicate (tags.count 4) 1 := by
    rw [List.map_const', List.count_eq_length_filter]
    congr 2
  unfold Template.column
  rw [e, List.length_replicate]
  by_cases h : tags.count 4 = n
  · rw [if_pos h, if_pos (.inl h), h]
  · rw [if_neg h]
    by_cases h1 : tags.count 4 = 1
    · rw [h1, if_pos (.inr rfl)]
      rfl
    · rw [if_neg (by simp [h, h1])]
      rcases hk : tags.count 4 with _ | _ | k
      · rfl
      · exact absurd hk h1
      · rfl

/-- The table of nodes before it is written. -/
theorem brazil_nodes (hm : TriangleMesh points cells data tri tags lines phys) : ∃ t0 t1 t2, nodeWriter points = .ok t0 ∧
    setCol t0 (tagged lines phys 1).flatten 3 (-1) = .ok t1 ∧ setCol t1 (tagged lines phys 2).flatten 4 (-1) = .ok t2 := by
  obtain ⟨t, h1, hl, -⟩ := C69_nodes hm.plane
  have hz : ∀ (t : Table K) (tag : ℤ), t.length = points.length → (∀ r ∈ t, r.length = 5) →
      ∀ z ∈ (tagged lines phys tag).flatten, ∃ (i : ℕ) (row : List K),
      Resolves t.length z i ∧ t[i]? = some row ∧ row.length = 5 := by
    intro t tag ht hw z hz
    obtain ⟨l, line, h3, -, h5⟩ := mem_flat.1 hz
    obtain ⟨h6, h7⟩ := hm.nodes line (List.mem_of_getElem? h3) z h5
    have h8 : z.toNat < t.length := by omega
    exact ⟨z.toNat, t[z.toNat], ⟨h8, by omega⟩, List.getElem?_eq_getElem h8, hw _ (List.getElem_mem _)⟩
  have hw := nodeWriter_width h1
  obtain ⟨t1, h2⟩ := setCol_exists (v := (-1 : K)) (col := 3) fun z hz' => by
    obtain ⟨i, row, a, b, c⟩ := hz t 1 hl hw z hz'
    exact ⟨i, row, a, b, by omega⟩
  obtain ⟨t2, h3⟩ := setCol_exists (v := (-1 : K)) (col := 4) fun z hz' => by
    obtain ⟨i, row, a, b, c⟩ := hz t1 2 ((setCol_ok h2).1.trans hl) (setCol_width h2 hw) z hz'
    exact ⟨i, row, a, b, by omega⟩
  exact ⟨t, t1, t2, h1, h2, h3⟩

/-- The table of elements. -/
def brazilEls (tri : List (List ℤ)) : List (List ℤ) :=
  (tri.zip (List.replicate tri.length (1 : ℤ))).zipIdx.map fun x => [(x.2 : ℤ), 3, x.1.2] ++ x.1.1

theorem brazilEls_get (tri : List (List ℤ)) (i : ℕ) : (brazilEls tri)[i]? = tri[i]?.map fun c => (i : ℤ) :: 3 :: 1 :: c := by
  unfold brazilEls
  rw [List.getElem?_map, List.getElem?_zipIdx, Nat.zero_add]
  by_cases hi : i < tri.length
  · have hz : (tri.zip (List.replicate tri.length (1 : ℤ)))[i]? = some (tri[i], 1) := by
      rw [List.getElem?_zip_eq_some]
      exact ⟨List.getElem?_eq_getElem hi, by rw [List.getElem?_replicate, if_pos hi]⟩
    rw [hz, List.getElem?_eq_getElem hi]
    rfl
  · rw [List.getElem?_eq_none (by simpa using hi), List.getElem?_eq_none (by omega)]
    rfl

/-- What the script does. -/
theorem brazil_script (hm : TriangleMesh points cells data tri tags lines phys) (hv : cells "vertex" = some vs) {t0 t1 t2 : Table K}
    (e0 : nodeWriter points = .ok t0) (e1 : setCol t0 (tagged lines phys 1).flatten 3 (-1) = .ok t1)
    (e2 : setCol t1 (tagged lines phys 2).flatten 4 (-1) = .ok t2) :
    Brazil.script points cells data fs = (do
      let z ← Brazil.loadNode vs
      let col ← onesColumn tri.length tags
      let els := (tri.zip col).zipIdx.map fun (x : (List ℤ × ℤ) × ℕ) => [(x.2 : ℤ), 3, x.1.2] ++ x.1.1
      let fs := write fs "eles.txt".toList (savetxt fmtD els)
      let fs := write fs "nodes.txt".toList (Template.savetxtCols [Template.fmtDF, Template.fixed 4, Template.fixed 4, Template.fmtDF,
        Template.fmtDF] t2)
      let fs := write fs "loads.txt".toList (Template.savetxtCols [Template.fmtDF, Template.fixed 6, Template.fixed 6]
        [[(z : K), 0, -1000000000]])
      pure (write fs "mater.txt".toList (savetxt (Template.fixed 6) (Brazil.materArray (K := K))))) := by
  unfold Brazil.script
  have h3 : tri.mapM Template.threeCols = .ok tri := by
    rw [mapM_ok, List.forall₂_same]
    intro c hc
    match c, hm.three c hc with
    | [a, b, d], _ => rfl
  have g1 : dictGet cells "triangle" = .ok tri := by unfold dictGet; rw [hm.hasTri]
  have g2 : dictGet data "triangle" = .ok tags := by unfold dictGet; rw [hm.hasTags]
  have g3 : dictGet cells "line" = .ok lines := by unfold dictGet; rw [hm.hasLines]
  have g4 : dictGet data "line" = .ok phys := by unfold dictGet; rw [hm.hasPhys]
  have g5 : dictGet cells "vertex" = .ok vs := by unfold dictGet; rw [hv]
  simp only [g1, g2, g3, g4, g5, h3, e0, ok_bind, taggedNodes_exists hm.hasLines hm.hasPhys hm.phys_len, e1, e2, ones_column]

/-- C140.  The script runs exactly when there is a single loaded point and the tag of the surface is 4 for all triangles or for
exactly one. -/
theorem C140_runs_iff (hm : TriangleMesh points cells data tri tags lines phys) (hv : cells "vertex" = some vs) :
    (∃ fs', Brazil.script points cells data fs = .ok fs') ↔
      (∃ z, vs = [[z]]) ∧ ((∀ t ∈ tags, t = 4) ∨ tags.count 4 = 1) := by
  obtain ⟨t0, t1, t2, e0, e1, e2⟩ := brazil_nodes hm
  rw [brazil_script hm hv e0 e1 e2]
  have hc : (∀ t ∈ tags, t = 4) ↔ tags.count 4 = tri.length := by
    rw [← hm.tags_len, List.count_eq_length]
    exact forall₂_congr fun t _ => eq_comm
  rw [hc]
  have hn : ∀ vs : List (List ℤ), (∃ z, Brazil.loadNode vs = .ok z) ↔ ∃ z, vs = [[z]] := by
    intro vs
    constructor
    · rintro ⟨z, h⟩
      unfold Brazil.loadNode at h
      split at h
      · exact ⟨_, rfl⟩
      · cases h
    · rintro ⟨z, rfl⟩
      exact ⟨z, rfl⟩
  rw [← hn]
  constructor
  · rintro ⟨fs', h⟩
    obtain ⟨z, h1, h⟩ := bind_ok.1 h
    obtain ⟨col, h2, -⟩ := bind_ok.1 h
    refine ⟨⟨z, h1⟩, ?_⟩
    by_contra hc
    unfold onesColumn at h2
    rw [if_neg hc] at h2
    cases h2
  · rintro ⟨⟨z, h1⟩, h2⟩
    have h3 : onesColumn tri.length tags = .ok (List.replicate tri.length 1) := if_pos h2
    rw [h1, ok_bind, h3]
    exact ⟨_, rfl⟩

theorem brazil_writes (fs : Fs) (a b c d : Text) :
    let fs' := write (write (write (write fs "eles.txt".toList a) "nodes.txt".toList c) "loads.txt".toList b)
      "mater.txt".toList d
    fs' "nodes.txt".toList = some c ∧ fs' "mater.txt".toList = some d ∧ fs' "eles.txt".toList = some a ∧
      fs' "loads.txt".toList = some b := by
  have key : ∀ n1 n2 n3 n4 : Text, n1 ≠ n2 → n1 ≠ n3 → n1 ≠ n4 → n2 ≠ n3 → n2 ≠ n4 → n3 ≠ n4 →
      write (write (write (write fs n1 a) n3 c) n2 b) n4 d n3 = some c ∧
      write (write (write (write fs n1 a) n3 c) n2 b) n4 d n4 = some d ∧
      write (write (write (write fs n1 a) n3 c) n2 b) n4 d n1 = some a ∧
      write (write (write (write fs n1 a) n3 c) n2 b) n4 d n2 = some b := by
    intro n1 n2 n3 n4 h12 h13 h14 h23 h24 h34
    unfold write
    simp [h12, h13, h14, h23.symm, h24, h34]
  exact key _ _ _ _ (by decide) (by decide) (by decide) (by decide) (by decide) (by decide)

theorem brazil_reads (hm : TriangleMesh points cells data tri tags lines phys) (hv : cells "vertex" = some vs) {t0 t1 t2 : Table K}
    (e0 : nodeWriter points = .ok t0) (e1 : setCol t0 (tagged lines phys 1).flatten 3 (-1) = .ok t1)
    (e2 : setCol t1 (tagged lines phys 2).flatten 4 (-1) = .ok t2) (h : Brazil.script points cells data fs = .ok fs') :
    ∃ z, vs = [[z]] ∧ readin fs' [] = .ok (nodeBack t2, [[(70000000000 : K), 7 / 20], [70000000000, 7 / 20]], brazilEls tri,
      [[(z : K), 0, -1000000000]]) := by
  rw [brazil_script hm hv e0 e1 e2] at h
  obtain ⟨z, h1, h⟩ := bind_ok.1 h
  obtain ⟨col, h2, h⟩ := bind_ok.1 h
  obtain rfl := pure_ok.1 h
  have hz : vs = [[z]] := by
    unfold Brazil.loadNode at h1
    split at h1
    · cases h1; rfl
    · cases h1
  obtain rfl : col = List.replicate tri.length 1 := by
    unfold onesColumn at h2
    split at h2
    · cases h2; rfl
    · cases h2
  refine ⟨z, hz, ?_⟩
  have w1 : ∀ r ∈ brazilEls tri, r.length = 6 := by
    intro r hr
    obtain ⟨i, hi⟩ := List.mem_iff_getElem?.1 hr
    rw [brazilEls_get, Option.map_eq_some_iff] at hi
    obtain ⟨c, hc, rfl⟩ := hi
    have := hm.three c (List.mem_of_getElem? hc)
    simp [this]
  have w2 : ∀ r ∈ t2, r.length = 5 := setCol_width e2 (setCol_width e1 (nodeWriter_width e0))
  have r1 : loadtxt floatTok (Template.savetxtCols [Template.fmtDF, Template.fixed 4, Template.fixed 4, Template.fmtDF,
      Template.fmtDF] t2) = .ok (nodeBack t2) :=
    cols_read (.cons fmtDF_numeral (.cons (fixed_numeral 4) (.cons (fixed_numeral 4) (.cons fmtDF_numeral
      (.cons fmtDF_numeral .nil))))) (by simp) w2
  have r2 : loadtxt floatTok (Template.savetxtCols [Template.fmtDF, Template.fixed 6, Template.fixed 6] [[(z : K), 0, -1000000000]]) =
      .ok [[(z : K), 0, -1000000000]] := by
    have := cols_read (K := K) (t := [[(z : K), 0, -1000000000]])
      (.cons fmtDF_numeral (.cons (fixed_numeral 6) (.cons (fixed_numeral 6) .nil))) (by simp) (by simp)
    refine this.trans ?_
    have a1 : roundTo 6 (0 : K) = 0 := (roundTo_exact 6 _).2 ⟨0, by norm_num⟩
    have a2 : roundTo 6 (-1000000000 : K) = -1000000000 := (roundTo_exact 6 _).2 ⟨-1000000000000000, by norm_num⟩
    simp [a1, a2, truncTo_int]
  have r3 : loadtxt floatTok (savetxt (Template.fixed 6) (Brazil.materArray (K := K))) =
      .ok [[(70000000000 : K), 7 / 20], [70000000000, 7 / 20]] := by
    have := cols_read (K := K) (t := Brazil.materArray) (.cons (fixed_numeral 6) (.cons (fixed_numeral 6) .nil))
      (by simp) (by simp [Brazil.materArray])
    refine Eq.trans ?_ (this.trans ?_)
    · rfl
    · have a1 : roundTo 6 (70000000000 : K) = 70000000000 := (roundTo_exact 6 _).2 ⟨70000000000000000, by norm_num⟩
      have a2 : roundTo 6 (35 / 100 : K) = 7 / 20 := by
        rw [(roundTo_exact 6 _).2 ⟨350000, by norm_num⟩]
        norm_num
      simp [Brazil.materArray, a1, a2]
  obtain ⟨q1, q2, q3, q4⟩ := brazil_writes fs (savetxt fmtD (brazilEls tri))
    (Template.savetxtCols [Template.fmtDF, Template.fixed 6, Template.fixed 6] [[(z : K), 0, -1000000000]])
    (Template.savetxtCols [Template.fmtDF, Template.fixed 4, Template.fixed 4, Template.fmtDF, Template.fmtDF] t2)
    (savetxt (Template.fixed 6) (Brazil.materArray (K := K)))
  exact four_reads q1 q2 q3 q4 r1 r3 (C103_elements (by norm_num) w1) r2

variable {nodes mats loads : Table K} {els : List (List ℤ)}

/-- C140.  The files, once written, can be read. -/
theorem C140_readable (hm : TriangleMesh points cells data tri tags lines phys) (hv : cells "vertex" = some vs)
    (h : Brazil.script points cells data fs = .ok fs') : ∃ T, readin (K := K) fs' [] = .ok T := by
  obtain ⟨t0, t1, t2, e0, e1, e2⟩ := brazil_nodes hm
  obtain ⟨z, -, hr⟩ := brazil_reads hm hv e0 e1 e2 h
  exact ⟨_, hr⟩

/-- C140.  The nodes read: number, coordinates of the point to the nearest 1/10000, and -1 in the third column exactly on the
lines tagged 1, in the fourth exactly on those tagged 2. -/
theorem C140_nodes (hm : TriangleMesh points cells data tri tags lines phys) (hv : cells "vertex" = some vs)
    (h : Brazil.script points cells data fs = .ok fs') (hr : readin fs' [] = .ok (nodes, mats, els, loads)) :
    nodes.length = points.length ∧ ∀ (i : ℕ) (p : List K), points[i]? = some p → ∃ x y x' y' cx cy,
      p[0]? = some x ∧ p[1]? = some y ∧ nodes[i]? = some [(i : K), x', y', cx, cy] ∧
      NearestPart 10000 x x' ∧ NearestPart 10000 y y' ∧ ((∃ z : ℤ, x = z / 10000) → x' = x) ∧
      ((∃ z : ℤ, y = z / 10000) → y' = y) ∧
      (OnLine lines phys 1 points.length i → cx = -1) ∧ (¬ OnLine lines phys 1 points.length i → cx = 0) ∧
      (OnLine lines phys 2 points.length i → cy = -1) ∧ (¬ OnLine lines phys 2 points.length i → cy = 0) := by
  obtain ⟨t, t1, nds, a1, h2, h3⟩ := brazil_nodes hm
  obtain ⟨z, -, h4⟩ := brazil_reads hm hv a1 h2 h3 h
  rw [h4, Except.ok.injEq, Prod.mk.injEq] at hr
  obtain ⟨rfl, -⟩ := hr
  obtain ⟨t', a1', a2, a3⟩ := C69_nodes hm.plane
  rw [a1, Except.ok.injEq] at a1'
  subst a1'
  have hon : ∀ (tag : ℤ) (i : ℕ), OnLine lines phys tag points.length i ↔ ∃ z ∈ (tagged lines phys tag).flatten, Resolves points.length z i := by
    intro tag i
    constructor
    · rintro ⟨l, line, h1, h2, z, h3, h4⟩
      exact ⟨z, mem_flat.2 ⟨l, line, h1, h2, h3⟩, h4⟩
    · rintro ⟨z, h1, h2⟩
      obtain ⟨l, line, h3, h4, h5⟩ := mem_flat.1 h1
      exact ⟨l, line, h3, h4, z, h5, h2⟩
  obtain ⟨l1, e1⟩ := setCol_ok h2
  obtain ⟨l2, e2⟩ := setCol_ok h3
  rw [l1, a2] at e2
  rw [a2] at e1
  refine ⟨by rw [nodeBack, List.length_map, l2, l1, a2], fun i p hi => ?_⟩
  obtain ⟨x, y, hx, hy, hi⟩ := a3 i p hi
  have e1 := e1 i _ hi
  rw [← hon] at e1
  have hback : ∀ a b : K, nds[i]? = some [(i : K), x, y, a, b] → (nodeBack nds)[i]? =
      some [(i : K), roundTo 4 x, roundTo 4 y, truncTo a, truncTo b] := by
    intro a b hab
    have : truncTo ((i : ℕ) : K) = i := by exact_mod_cast truncTo_int (K := K) (i : ℤ)
    rw [nodeBack, List.getElem?_map, hab]
    simp [this]
  have key : ∃ a b : ℤ, nds[i]? = some [(i : K), x, y, (a : K), (b : K)] ∧
      (OnLine lines phys 1 points.length i → (a : K) = -1) ∧ (¬ OnLine lines phys 1 points.length i → (a : K) = 0) ∧
      (OnLine lines phys 2 points.length i → (b : K) = -1) ∧ (¬ OnLine lines phys 2 points.length i → (b : K) = 0) := by
    by_cases o3 : OnLine lines phys 1 points.length i
    · have e2 := e2 i _ (e1.1 o3).2
      rw [← hon] at e2
      by_cases o4 : OnLine lines phys 2 points.length i
      · exact ⟨-1, -1, by simpa using (e2.1 o4).2, by simp, fun h => absurd o3 h, by simp, fun h => absurd o4 h⟩
      · exact ⟨-1, 0, by simpa using e2.2 o4, by simp, fun h => absurd o3 h, fun h => absurd h o4, by simp⟩
    · have e2 := e2 i _ (e1.2 o3)
      rw [← hon] at e2
      by_cases o4 : OnLine lines phys 2 points.length i
      · exact ⟨0, -1, by simpa using (e2.1 o4).2, fun h => absurd h o3, by simp, by simp, fun h => absurd o4 h⟩
      · exact ⟨0, 0, by simpa using e2.2 o4, fun h => absurd h o3, by simp, fun h => absurd h o4, by simp⟩
  obtain ⟨a, b, k0, k1, k2, k3, k4⟩ := key
  have k0 := hback _ _ k0
  rw [truncTo_int, truncTo_int] at k0
  have near : ∀ x : K, NearestPart 10000 x (roundTo 4 x) := fun x => by
    have := roundTo_near 4 x
    norm_num at this
    exact this
  have exact4 : ∀ x : K, (∃ z : ℤ, x = z / 10000) → roundTo 4 x = x := fun x hx => (roundTo_exact 4 x).2 (by
    norm_num
    exact hx)
  exact ⟨x, y, _, _, _, _, hx, hy, k0, near x, near y, exact4 x, exact4 y, k1, k2, k3, k4⟩

/-- C140.  The elements read: number, type 3, and always the second of the two profiles, which are equal; the load read: -10^9
at the loaded point. -/
theorem C140_tables (hm : TriangleMesh points cells data tri tags lines phys) (hv : cells "vertex" = some vs)
    (h : Brazil.script points cells data fs = .ok fs') (hr : readin fs' [] = .ok (nodes, mats, els, loads)) :
    (els.length = tri.length ∧ ∀ (i : ℕ) (c : List ℤ), tri[i]? = some c → els[i]? = some ((i : ℤ) :: 3 :: 1 :: c)) ∧
    mats = [[70 * 10 ^ 9, 35 / 100], [70 * 10 ^ 9, 35 / 100]] ∧ ∃ z, vs = [[z]] ∧ loads = [[(z : K), 0, -10 * 10 ^ 8]] := by
  obtain ⟨t0, t1, t2, e0, e1, e2⟩ := brazil_nodes hm
  obtain ⟨z, hz, h4⟩ := brazil_reads hm hv e0 e1 e2 h
  rw [h4, Except.ok.injEq, Prod.mk.injEq, Prod.mk.injEq, Prod.mk.injEq] at hr
  obtain ⟨-, rfl, rfl, rfl⟩ := hr
  refine ⟨⟨by simp [brazilEls], fun i c hc => by rw [brazilEls_get, hc]; rfl⟩, by norm_num, z, hz, by norm_num⟩

/-- C140.  No other file changes. -/
theorem C140_others (h : Brazil.script points cells data fs = .ok fs') {name : Text}
    (hn : name ∉ ["nodes.txt", "mater.txt", "eles.txt", "loads.txt"].map String.toList) : fs' name = fs name := by
  unfold Brazil.script at h
  obtain ⟨_, -, h⟩ := bind_ok.1 h
  obtain ⟨_, -, h⟩ := bind_ok.1 h
  obtain ⟨_, -, h⟩ := bind_ok.1 h
  obtain ⟨_, -, h⟩ := bind_ok.1 h
  obtain ⟨_, -, h⟩ := bind_ok.1 h
  obtain ⟨_, -, h⟩ := bind_ok.1 h
  obtain ⟨_, -, h⟩ := bind_ok.1 h
  obtain ⟨_, -, h⟩ := bind_ok.1 h
  obtain ⟨_, -, h⟩ := bind_ok.1 h
  obtain ⟨_, -, h⟩ := bind_ok.1 h
  obtain ⟨_, -, h⟩ := bind_ok.1 h
  obtain ⟨_, -, h⟩ := bind_ok.1 h
  obtain ⟨_, -, h⟩ := bind_ok.1 h
  obtain rfl := pure_ok.1 h
  simp only [List.map_cons, List.map_nil, List.mem_cons, List.not_mem_nil, or_false, not_or] at hn
  obtain ⟨h1, h2, h3, h4⟩ := hn
  simp only [write]
  rw [if_neg h2, if_neg h4, if_neg h1, if_neg h3]

/-- A quarter of a disc fit for analysis: every triangle is large enough against the precision of the file, the triangles form one
piece that uses every point, the points of the lines tagged 1 are those on the second axis and the points of the lines tagged 2
those on the first, no other point is as near to an axis as 1/10000, the centre is a point, and the loaded point is on the second
axis above it. -/
structure Spec.QuarterDisc (points : Table K) (tri lines : List (List ℤ)) (phys : List ℤ) (z : ℤ) : Prop where
  large : ∀ c ∈ tri, ∃ (i j k : ℕ) (p q r : List K) (x1 y1 x2 y2 x3 y3 : K), c = [(i : ℤ), (j : ℤ), (k : ℤ)] ∧
    points[i]? = some p ∧ points[j]? = some q ∧ points[k]? = some r ∧
    p.take 2 = [x1, y1] ∧ q.take 2 = [x2, y2] ∧ r.take 2 = [x3, y3] ∧
    (|x2 - x1| + |y2 - y1| + |x3 - x1| + |y3 - y1|) / 10000 + 3 / 10 ^ 8 < twiceArea x1 y1 x2 y2 x3 y3
  used : ∀ p < points.length, ∃ c ∈ tri, (p : ℤ) ∈ c
  onePiece : ∀ a ∈ tri, ∀ b ∈ tri, Relation.ReflTransGen (SideBySide tri) a b
  left : ∀ (i : ℕ) (p : List K) (x : K), points[i]? = some p → p[0]? = some x →
    (OnLine lines phys 1 points.length i ↔ x = 0) ∧ (x = 0 ∨ 1 / 10000 < x)
  lower : ∀ (i : ℕ) (p : List K) (y : K), points[i]? = some p → p[1]? = some y →
    (OnLine lines phys 2 points.length i ↔ y = 0) ∧ (y = 0 ∨ 1 / 10000 < y)
  centre : ∃ (i : ℕ) (p : List K), points[i]? = some p ∧ p.take 2 = [0, 0]
  top : ∃ (i : ℕ) (p : List K) (y : K), z = i ∧ points[i]? = some p ∧ p.take 2 = [0, y] ∧ y ≠ 0

theorem take_two {p : List K} {x y : K} (h : p.take 2 = [x, y]) : p[0]? = some x ∧ p[1]? = some y := by
  match p, h with
  | a :: b :: l, h =>
    simp only [List.take_succ_cons, List.take_zero, List.cons.injEq, and_true] at h
    simp [h]

variable {z : ℤ}

/-- Rows of the model that `solids_GUI` builds from the files. -/
theorem disc_rows (hm : TriangleMesh points cells data tri tags lines phys) (hv : cells "vertex" = some [[z]])
    (hd : QuarterDisc points tri lines phys z)
    (h : Brazil.script points cells data fs = .ok fs') (hr : readin fs' [] = .ok (nodes, mats, els, loads))
    {i : ℕ} {p : List K} (hp : points[i]? = some p) : ∃ x y x' y' cx cy : K, p.take 2 = [x, y] ∧
      |x - x'| ≤ 1 / 20000 ∧ |y - y'| ≤ 1 / 20000 ∧ (x' = 0 ↔ x = 0) ∧ (y' = 0 ↔ y = 0) ∧ (0 ≤ y → 0 ≤ y') ∧
      (splitData nodes mats els loads).nodes[i]? = some [(i : K), x', y'] ∧
      (splitData nodes mats els loads).cons[i]? = some [cx, cy] ∧ (cx = 0 ∨ cx = -1) ∧ (cy = 0 ∨ cy = -1) ∧
      (cx = -1 ↔ x = 0) ∧ (cy = -1 ↔ y = 0) := by
  obtain ⟨-, hn⟩ := C140_nodes hm hv h hr
  obtain ⟨x, y, x', y', cx, cy, a0, a1, e, f, g, f', g', c1, c2, c3, c4⟩ := hn i p hp
  have tk : p.take 2 = [x, y] := by
    match p, a0, a1 with
    | a :: b :: l, h0, h1 =>
      simp only [List.getElem?_cons_zero, Option.some.injEq, List.getElem?_cons_succ] at h0 h1
      simp [h0, h1]
  obtain ⟨l1, l2⟩ := hd.left i p x hp a0
  obtain ⟨m1, m2⟩ := hd.lower i p y hp a1
  rw [l1] at c1 c2
  rw [m1] at c3 c4
  have f := f.2
  have g := g.2
  norm_num at f g
  have hx : x' = 0 ↔ x = 0 := by
    constructor
    · intro h0
      rcases l2 with h1 | h1
      · exact h1
      · rw [h0, sub_zero, abs_le] at f
        linarith [f.2]
    · intro h0
      rw [f' ⟨0, by rw [h0]; simp⟩, h0]
  have hy : y' = 0 ↔ y = 0 := by
    constructor
    · intro h0
      rcases m2 with h1 | h1
      · exact h1
      · rw [h0, sub_zero, abs_le] at g
        linarith [g.2]
    · intro h0
      rw [g' ⟨0, by rw [h0]; simp⟩, h0]
  refine ⟨x, y, x', y', cx, cy, tk, f, g, hx, hy, ?_, ?_, ?_, ?_, ?_, ?_, ?_⟩
  · intro _
    rcases m2 with h1 | h1
    · rw [hy.2 h1]
    · rw [abs_le] at g
      linarith [g.2]
  · simp [splitData, e]
  · simp [splitData, e]
  · by_cases o : x = 0
    · exact .inr (c1 o)
    · exact .inl (c2 o)
  · by_cases o : y = 0
    · exact .inr (c3 o)
    · exact .inl (c4 o)
  · by_cases o : x = 0
    · simp [c1 o, o]
    · simp [c2 o, o]
  · by_cases o : y = 0
    · simp [c3 o, o]
    · simp [c4 o, o]

theorem disc_size (hm : TriangleMesh points cells data tri tags lines phys) (hv : cells "vertex" = some vs)
    (h : Brazil.script points cells data fs = .ok fs') (hr : readin fs' [] = .ok (nodes, mats, els, loads)) :
    (splitData nodes mats els loads).nodes.length = points.length ∧
      (splitData nodes mats els loads).cons.length = points.length := by
  have := (C140_nodes hm hv h hr).1
  simp [splitData, this]

theorem disc_fits (hm : TriangleMesh points cells data tri tags lines phys) (hv : cells "vertex" = some [[z]])
    (hd : QuarterDisc points tri lines phys z)
    (h : Brazil.script points cells data fs = .ok fs') (hr : readin fs' [] = .ok (nodes, mats, els, loads)) :
    WellFormed (splitData nodes mats els loads) := by
  obtain ⟨l1, l2⟩ := disc_size hm hv h hr
  have rows : ∀ (i : ℕ) r, (splitData nodes mats els loads).cons[i]? = some r → ∃ cx cy : K, r = [cx, cy] ∧
      (cx = 0 ∨ cx = -1) ∧ (cy = 0 ∨ cy = -1) := by
    intro i r hi
    have hlt := (List.getElem?_eq_some_iff.1 hi).1
    rw [l2] at hlt
    obtain ⟨x, y, x', y', cx, cy, -, -, -, -, -, -, -, e, hx, hy, -⟩ :=
      disc_rows hm hv hd h hr (List.getElem?_eq_getElem hlt)
    rw [e, Option.some.injEq] at hi
    exact ⟨cx, cy, hi.symm, hx, hy⟩
  refine ⟨?_, ?_, by rw [l1, l2]⟩
  · intro i j x hj he
    obtain ⟨r, hi, hx⟩ := Option.bind_eq_some_iff.1 he
    obtain ⟨cx, cy, rfl, h1, h2⟩ := rows i r hi
    have : j = 0 ∨ j = 1 := by omega
    rcases this with rfl | rfl
    · simp only [List.getElem?_cons_zero, Option.some.injEq] at hx
      exact hx ▸ h1
    · simp only [List.getElem?_cons_succ, List.getElem?_cons_zero, Option.some.injEq] at hx
      exact hx ▸ h2
  · intro r hr'
    obtain ⟨i, hi⟩ := List.mem_iff_getElem?.1 hr'
    obtain ⟨cx, cy, rfl, -⟩ := rows i r hi
    rfl

/-- Horizontally free except on the second axis, vertically except on the first. -/
theorem disc_free (hm : TriangleMesh points cells data tri tags lines phys) (hv : cells "vertex" = some [[z]])
    (hd : QuarterDisc points tri lines phys z)
    (h : Brazil.script points cells data fs = .ok fs') (hr : readin fs' [] = .ok (nodes, mats, els, loads))
    {i : ℕ} (hi : i < points.length) :
    (Free (splitData nodes mats els loads).cons 2 i 0 ↔ coordOf (splitData nodes mats els loads).nodes i 0 ≠ 0) ∧
    (Free (splitData nodes mats els loads).cons 2 i 1 ↔ coordOf (splitData nodes mats els loads).nodes i 1 ≠ 0) := by
  obtain ⟨x, y, x', y', cx, cy, -, -, -, zx, zy, -, en, e, hx, hy, ox, oy⟩ :=
    disc_rows hm hv hd h hr (List.getElem?_eq_getElem hi)
  rw [(coord_at en).1, (coord_at en).2, Ne, zx, ← ox, Ne, zy, ← oy, free_row e hx hy (by omega), free_row e hx hy (by omega), if_pos rfl,
    if_neg one_ne_zero]
  constructor
  · rcases hx with rfl | rfl <;> norm_num
  · rcases hy with rfl | rfl <;> norm_num

theorem disc_stands (hm : TriangleMesh points cells data tri tags lines phys) (hv : cells "vertex" = some [[z]])
    (hd : QuarterDisc points tri lines phys z)
    (h : Brazil.script points cells data fs = .ok fs') (hr : readin fs' [] = .ok (nodes, mats, els, loads)) :
    Supported (splitData nodes mats els loads).cons (splitData nodes mats els loads).nodes := by
  obtain ⟨i, p, hp, tp⟩ := hd.centre
  obtain ⟨j, q, y, -, hq, tq, hy⟩ := hd.top
  obtain ⟨l1, l2⟩ := disc_size hm hv h hr
  have hi := (List.getElem?_eq_some_iff.1 hp).1
  have hj := (List.getElem?_eq_some_iff.1 hq).1
  obtain ⟨_, _, u1, v1, _, _, t1, -, -, zu1, zv1, -, n1, -⟩ := disc_rows hm hv hd h hr hp
  obtain ⟨_, _, u2, v2, _, _, t2, -, -, zu2, zv2, -, n2, -⟩ := disc_rows hm hv hd h hr hq
  rw [tp] at t1
  rw [tq] at t2
  simp only [List.cons.injEq, and_true] at t1 t2
  obtain ⟨rfl, rfl⟩ := t1
  obtain ⟨rfl, rfl⟩ := t2
  have c1 := coord_at n1
  have c2 := coord_at n2
  intro g ha r c hr' hc
  have a1 := ha i 0 (by rw [l2]; exact hi) (by omega) (by
    rw [(disc_free hm hv hd h hr hi).1, c1.1]; simpa using zu1)
  have a2 := ha j 0 (by rw [l2]; exact hj) (by omega) (by
    rw [(disc_free hm hv hd h hr hj).1, c2.1]; simpa using zu2)
  have a3 := ha i 1 (by rw [l2]; exact hi) (by omega) (by
    rw [(disc_free hm hv hd h hr hi).2, c1.2]; simpa using zv1)
  have hv1 : v1 = 0 := zv1.2 rfl
  have hu1 : u1 = 0 := zu1.2 rfl
  have hv2 : v2 ≠ 0 := fun e => hy (zv2.1 e)
  simp only [Motion.move, if_true, one_ne_zero, if_false, c1.2, c2.2, c1.1, hv1, hu1, mul_zero, sub_zero, add_zero] at a1 a2 a3
  rw [a1, zero_sub, neg_eq_zero] at a2
  have hw : g.spin = 0 := (mul_eq_zero.1 a2).resolve_right hv2
  unfold Motion.move
  simp [hw, a1, a3]

theorem disc_solid (hm : TriangleMesh points cells data tri tags lines phys) (hv : cells "vertex" = some [[z]])
    (hd : QuarterDisc points tri lines phys z)
    (h : Brazil.script points cells data fs = .ok fs') (hr : readin fs' [] = .ok (nodes, mats, els, loads)) :
    ∃ ms, SolidMesh sq (splitData nodes mats els loads) ms := by
  obtain ⟨l1, l2⟩ := disc_size hm hv h hr
  obtain ⟨⟨ne, hel⟩, hmat, -⟩ := C140_tables hm hv h hr
  subst hmat
  have back : ∀ el ∈ els, ∃ (i : ℕ) (c : List ℤ), c ∈ tri ∧ el = (i : ℤ) :: 3 :: ((1 : ℕ) : ℤ) :: c := by
    intro el hmem
    obtain ⟨i, hi⟩ := List.mem_iff_getElem?.1 hmem
    have hlt := (List.getElem?_eq_some_iff.1 hi).1
    rw [ne] at hlt
    have := hel i _ (List.getElem?_eq_getElem hlt)
    rw [hi, Option.some.injEq] at this
    exact ⟨i, _, List.getElem_mem hlt, this⟩
  have fwd : ∀ c ∈ tri, ∃ el ∈ els, el.drop 3 = c := by
    intro c hc
    obtain ⟨i, hi⟩ := List.mem_iff_getElem?.1 hc
    exact ⟨_, List.mem_iff_getElem?.2 ⟨i, hel i _ hi⟩, rfl⟩
  refine tri_solid ?_ ?_ ?_ ?_
  · intro r hr'
    obtain ⟨i, hi⟩ := List.mem_iff_getElem?.1 hr'
    have hlt := (List.getElem?_eq_some_iff.1 hi).1
    rw [l1] at hlt
    obtain ⟨x, y, x', y', cx, cy, -, -, -, -, -, -, e, -⟩ := disc_rows hm hv hd h hr (List.getElem?_eq_getElem hlt)
    rw [e, Option.some.injEq] at hi
    rw [← hi]
    rfl
  · intro el hmem
    obtain ⟨e, c, hc, rfl⟩ := back el hmem
    obtain ⟨i, j, k, p1, p2, p3, x1, y1, x2, y2, x3, y3, rfl, g1, g2, g3, t1, t2, t3, hbig⟩ := hd.large c hc
    obtain ⟨_, _, u1, v1, _, _, s1, bx1, by1, -, -, -, n1, -⟩ := disc_rows hm hv hd h hr g1
    obtain ⟨_, _, u2, v2, _, _, s2, bx2, by2, -, -, -, n2, -⟩ := disc_rows hm hv hd h hr g2
    obtain ⟨_, _, u3, v3, _, _, s3, bx3, by3, -, -, -, n3, -⟩ := disc_rows hm hv hd h hr g3
    rw [t1] at s1
    rw [t2] at s2
    rw [t3] at s3
    simp only [List.cons.injEq, and_true] at s1 s2 s3
    obtain ⟨rfl, rfl⟩ := s1
    obtain ⟨rfl, rfl⟩ := s2
    obtain ⟨rfl, rfl⟩ := s3
    have har : (1e-8 : K) < twiceArea u1 v1 u2 v2 u3 v3 := by
      have := area_moves bx1 by1 bx2 by2 bx3 by3
      rw [abs_le] at this
      have h2 := this.2
      norm_num at h2 hbig ⊢
      linarith
    exact ⟨e, 1, i, j, k, _, _, _, _, _, _, _, _, _, 70 * 10 ^ 9, 35 / 100, rfl, rfl, by norm_num, by norm_num, by norm_num,
      n1, n2, n3, har⟩
  · intro p hp
    rw [l1] at hp
    obtain ⟨c, hc, hpc⟩ := hd.used p hp
    obtain ⟨el, hel', e⟩ := fwd c hc
    exact ⟨el, hel', by rw [e]; exact hpc⟩
  · intro a ha b hb
    choose! g hg1 hg2 using fwd
    have two : ∀ c ∈ tri, ∃ p q : ℤ, p ≠ q ∧ p ∈ c ∧ q ∈ c := by
      intro c hc
      obtain ⟨i, j, k, p1, p2, p3, x1, y1, x2, y2, x3, y3, rfl, g1, g2, g3, t1, t2, t3, hbig⟩ := hd.large c hc
      refine ⟨i, j, fun e => ?_, by simp, by simp⟩
      have e : i = j := by exact_mod_cast e
      rw [e, g2, Option.some.injEq] at g1
      rw [← g1, t2, List.cons.injEq, List.cons.injEq] at t1
      obtain ⟨rfl, rfl, -⟩ := t1
      have z : twiceArea x2 y2 x2 y2 x3 y3 = 0 := by unfold twiceArea; ring
      rw [z] at hbig
      have : (0 : K) ≤ (|x2 - x2| + |y2 - y2| + |x3 - x2| + |y3 - y2|) / 10000 := by positivity
      norm_num at hbig this
      linarith
    have ca : a.drop 3 ∈ tri := by
      obtain ⟨_, c, hc, rfl⟩ := back a ha
      exact hc
    have cb : b.drop 3 ∈ tri := by
      obtain ⟨_, c, hc, rfl⟩ := back b hb
      exact hc
    refine Relation.ReflTransGen.head (b := g (a.drop 3)) ?_ (Relation.ReflTransGen.tail (b := g (b.drop 3))
      (Relation.ReflTransGen.lift g ?_ _ _ (hd.onePiece _ ca _ cb)) ?_)
    · obtain ⟨p, q, hpq, hp, hq⟩ := two _ ca
      exact ⟨ha, hg1 _ ca, p, q, hpq, hp, hq, by rwa [hg2 _ ca], by rwa [hg2 _ ca]⟩
    · rintro a' b' ⟨h1, h2, p, q, hpq, k1, k2, k3, k4⟩
      exact ⟨hg1 _ h1, hg1 _ h2, p, q, hpq, by rwa [hg2 _ h1], by rwa [hg2 _ h1], by rwa [hg2 _ h2], by rwa [hg2 _ h2]⟩
    · obtain ⟨p, q, hpq, hp, hq⟩ := two _ cb
      exact ⟨hg1 _ cb, hb, p, q, hpq, by rwa [hg2 _ cb], by rwa [hg2 _ cb], hp, hq⟩

/-- C140.  From a quarter of a disc fit for analysis the script writes four files from which `solids_GUI` computes displacements
without the equilibrium warning. -/
theorem C140_solved (hq : SqrtFn sq) (hsp : SolverOk sp)
    (hm : TriangleMesh points cells data tri tags lines phys) (hv : cells "vertex" = some [[z]]) (ht : ∀ t ∈ tags, t = 4)
    (hd : QuarterDisc points tri lines phys z) :
    ∃ fs' res, Brazil.script points cells data fs = .ok fs' ∧
      Gui.solidsGUIFiles sq sp de fs' [] false = .ok res ∧ res.warned = false := by
  obtain ⟨fs', h⟩ := (C140_runs_iff (fs := fs) hm hv).2 ⟨⟨z, rfl⟩, .inl ht⟩
  obtain ⟨⟨nodes, mats, els, loads⟩, hr⟩ := C140_readable hm hv h
  obtain ⟨ms, hms⟩ := disc_solid (sq := sq) hm hv hd h hr
  obtain ⟨l1, l2⟩ := disc_size hm hv h hr
  obtain ⟨i, p, y, hz, hp, tp, hy⟩ := hd.top
  have hi := (List.getElem?_eq_some_iff.1 hp).1
  obtain ⟨_, _, u1, v1, _, _, t1, -, -, -, zv, -, n1, -⟩ := disc_rows hm hv hd h hr hp
  rw [tp] at t1
  simp only [List.cons.injEq, and_true] at t1
  obtain ⟨rfl, rfl⟩ := t1
  obtain ⟨-, -, z', hz', rfl⟩ := C140_tables hm hv h hr
  simp only [List.cons.injEq, and_true] at hz'
  subst hz'
  obtain ⟨res, h1, h2⟩ := C95_solids_auto (de := de) hq hms (disc_fits hm hv hd h hr) hsp (disc_stands hm hv hd h hr)
    ⟨i, 1, (disc_free hm hv hd h hr hi).2.2 (by rw [(coord_at n1).2, Ne, zv]; exact hy)⟩ (by
      intro L hL
      obtain rfl : L = [(z : K), 0, -10 * 10 ^ 8] := by simpa [splitData] using hL
      exact ⟨by simp, i, (names_nat (by rw [l1]; exact hi) (by simp [hz])).2 rfl⟩)
  exact ⟨fs', res, h, by rw [C105_same_as_memory (C105_readin.1 hr)]; exact h1, h2⟩

/-! ## From the quarter to the whole -/

variable {d d' : Gui.Data K} {ms : List (Member K)}

theorem Spec.Doubled.coord {i0 : Fin 2} {c : K} {ρ : ℕ → ℕ} (h : Doubled i0 c id ρ d d') {p : ℕ} (hp : p < d.nodes.length) (i : Fin 2) :
    coordOf d'.nodes p i = coordOf d.nodes p i ∧
    coordOf d'.nodes (ρ p) i = if i = i0 then 2 * c - coordOf d.nodes p i else coordOf d.nodes p i := by
  have h1 := (h.kept p hp).2 i
  have h2 := (h.mirrored p hp).2 i
  refine ⟨?_, ?_⟩
  · rw [show p = id p from rfl, h1]
    revert i
    rw [Fin.forall_fin_two]
    simp
  · rw [h2]
    clear h1 h2 h
    revert i i0
    simp only [Fin.forall_fin_two]
    simp [flipped]
    constructor <;> ring

/-- A force at one node of the line, along the line, is doubled. -/
theorem halfLoaded_line {i0 : Fin 2} {c P : K} {ρ : ℕ → ℕ} {F' : ℕ → ℕ → K} {i : ℕ} (h : Doubled i0 c id ρ d d')
    (hi : i < d.nodes.length) (hρ : ρ i = i) (hpar : parity (K := K) i0 false 1 = 1)
    (hl : HalfLoaded i0 false id ρ d.nodes.length (forceAt [(i, 0, P)]) F') :
    ∀ q < d'.nodes.length, ∀ j < 2, F' q j = forceAt [(i, 0, 2 * P)] q j := by
  intro q hq j hj
  obtain ⟨p, hp, hqp⟩ := h.cover q hq
  obtain ⟨l1, l2⟩ := hl p hp j hj
  by_cases hip : p = i
  · subst hip
    have : q = p := by rcases hqp with h | h <;> simpa [hρ] using h
    subst this
    have := l1 hρ.symm
    rw [id] at this
    rw [this]
    rcases (by omega : j = 0 ∨ j = 1) with rfl | rfl
    · simp [forceAt]
    · simp [forceAt, hpar]; ring
  · have hqi : i ≠ q := by
      rintro rfl
      rcases hqp with e | e
      · exact hip e.symm
      · exact hip (h.once i hi p hp (.inr (.inr e))).symm
    have z : forceAt [(i, 0, P)] p j = 0 := by simp [forceAt, Ne.symm hip]
    rw [z] at l1 l2
    have z' : forceAt [(i, 0, 2 * P)] q j = 0 := by simp [forceAt, hqi]
    rw [z']
    by_cases e : id p = ρ p
    · have := l1 e
      rcases hqp with rfl | rfl
      · simpa using this
      · rw [← e]; simpa using this
    · obtain ⟨m1, m2⟩ := l2 e
      rcases hqp with rfl | rfl
      · exact m1
      · rw [m2, mul_zero]

/-- A force at one node off the line is repeated at its image. -/
theorem halfLoaded_off {i0 : Fin 2} {c P : K} {ρ : ℕ → ℕ} {F F' : ℕ → ℕ → K} {i : ℕ} (h : Doubled i0 c id ρ d d')
    (hi : i < d.nodes.length) (hρ : ρ i ≠ i) (hpar : parity (K := K) i0 false 1 = -1)
    (hF : ∀ q < d.nodes.length, ∀ j < 2, F q j = forceAt [(i, 0, P)] q j)
    (hl : HalfLoaded i0 false id ρ d.nodes.length F F') :
    ∀ q < d'.nodes.length, ∀ j < 2, F' q j = forceAt [(i, 0, P), (ρ i, 0, -P)] q j := by
  intro q hq j hj
  obtain ⟨p, hp, hqp⟩ := h.cover q hq
  obtain ⟨l1, l2⟩ := hl p hp j hj
  rw [hF p hp j hj] at l1 l2
  by_cases hip : p = i
  · subst hip
    obtain ⟨m1, m2⟩ := l2 (Ne.symm hρ)
    rcases hqp with rfl | rfl
    · rw [id] at m1
      rw [m1]; simp [forceAt]
    · rw [m2]
      rcases (by omega : j = 0 ∨ j = 1) with rfl | rfl
      · simp [forceAt, Ne.symm hρ]
      · simp [forceAt, Ne.symm hρ, hpar]
  · have hqi : i ≠ q := by
      rintro rfl
      rcases hqp with e | e
      · exact hip e.symm
      · exact hip (h.once i hi p hp (.inr (.inr e))).symm
    have hqi' : ρ i ≠ q := by
      rintro rfl
      rcases hqp with e | e
      · exact hip (h.once p hp i hi (.inr (.inr e.symm)))
      · exact hip (h.once i hi p hp (.inr (.inl e))).symm
    have z : forceAt [(i, 0, P)] p j = 0 := by simp [forceAt, Ne.symm hip]
    rw [z] at l1 l2
    have z' : forceAt [(i, 0, P), (ρ i, 0, -P)] q j = 0 := by simp [forceAt, hqi, hqi']
    rw [z']
    by_cases e : id p = ρ p
    · have := l1 e
      rcases hqp with rfl | rfl
      · simpa using this
      · rw [← e]; simpa using this
    · obtain ⟨m1, m2⟩ := l2 e
      rcases hqp with rfl | rfl
      · exact m1
      · rw [m2, mul_zero]

/-- What the analysis of a quarter says about a whole: `dw` consists of `d` and its images across both axes, `right` giving the place of the
image of a node of `d` across the second axis and `below` that of the image of a node of the upper half across the first; the whole has no
supports, and the force on node `i` of the quarter acts twice as large on it and the other way on its image. -/
structure Spec.WholeOf (d dw : Gui.Data K) (i : ℕ) (P : K) (ρ1 ρ2 : ℕ → ℕ) : Prop where
  twice : ∃ dh, Doubled 0 0 id ρ1 d dh ∧ Doubled 1 0 id ρ2 dh dw
  unsupported : ∀ p < dw.nodes.length, ∀ j < 2, Free dw.cons 2 p j
  forces : LoadField dw (forceAt [(i, 0, 2 * P), (ρ2 i, 0, -(2 * P))])
  apart : ρ2 i ≠ i

theorem quarter_whole (hs : SqrtFn sq) (hp : PlaneModel d) (hwf : WellFormed d) (hsp : SolverOk sp) (hms : Members sq d ms)
    (hst : Stable d.cons 2 ms) {i : ℕ} {P : K} (hi : i < d.nodes.length) (hx : coordOf d.nodes i 0 = 0) (hy : coordOf d.nodes i 1 ≠ 0)
    (hfree : ∀ p < d.nodes.length, (Free d.cons 2 p 0 ↔ coordOf d.nodes p 0 ≠ 0) ∧ (Free d.cons 2 p 1 ↔ coordOf d.nodes p 1 ≠ 0))
    (hF : LoadField d (forceAt [(i, 0, P)])) {plot : Bool} {res : Gui.Result K} (hr : Gui.solidsAuto sq sp de d plot = .ok res) :
    ∃ dw ρ1 ρ2 mw, WholeOf d dw i P ρ1 ρ2 ∧ Members sq dw mw ∧
      (∃ U, Equilibrium dw.cons 2 dw.loads mw U ∧ ∀ p < d.nodes.length,
        (∀ j < 2, entry res.disp p j = some (U p j)) ∧
        U (ρ1 p) 0 = - U p 0 ∧ U (ρ1 p) 1 = U p 1 ∧ U (ρ2 p) 0 = U p 0 ∧ U (ρ2 p) 1 = - U p 1 ∧
        U (ρ2 (ρ1 p)) 0 = - U p 0 ∧ U (ρ2 (ρ1 p)) 1 = - U p 1) ∧
      ∀ U, Equilibrium dw.cons 2 dw.loads mw U → ∀ p < d.nodes.length,
        entry res.disp p 0 = some ((U p 0 - U (ρ1 p) 0 + U (ρ2 p) 0 - U (ρ2 (ρ1 p)) 0) / 4) ∧
        entry res.disp p 1 = some ((U p 1 + U (ρ1 p) 1 - U (ρ2 p) 1 - U (ρ2 (ρ1 p)) 1) / 4) := by
  have p00 : parity (K := K) 0 false 0 = -1 := by simp [parity]
  have p01 : parity (K := K) 0 false 1 = 1 := by simp [parity]
  have p10 : parity (K := K) 1 false 0 = 1 := by simp [parity]
  have p11 : parity (K := K) 1 false 1 = -1 := by simp [parity]
  obtain ⟨dh, ρ1, F1, D1, H1, W1, M1, L1, G1, A1, B1⟩ := C139_exists hp hms hwf 0 0 false (forceAt [(i, 0, P)]) (by
    intro p hpn hc j hj hpar hf
    rcases (by omega : j = 0 ∨ j = 1) with rfl | rfl
    · exact ((hfree p hpn).1.1 hf) hc
    · exact hpar p01)
  obtain ⟨m1, hm1⟩ := C139_accepted hs D1 hp hms
  have f1 : ∀ q < dh.nodes.length, Free dh.cons 2 q 0 ∧ (Free dh.cons 2 q 1 ↔ coordOf dh.nodes q 1 ≠ 0) := by
    have old : ∀ p < d.nodes.length, Free dh.cons 2 p 0 ∧ (Free dh.cons 2 p 1 ↔ coordOf d.nodes p 1 ≠ 0) := by
      intro p hpn
      constructor
      · by_cases hc : coordOf d.nodes p 0 = 0
        · exact B1 p hpn hc 0 (by omega) (by rw [p00]; norm_num)
        · exact ((H1 p hpn 0 (by omega)).1 ((hfree p hpn).1.2 hc)).1
      · rw [← (hfree p hpn).2, H1 p hpn 1 (by omega)]
        exact ⟨fun h => ⟨h, fun _ => p01⟩, fun h => h.1⟩
    intro q hq
    obtain ⟨p, hpn, hqp⟩ := D1.cover q hq
    rcases hqp with e | rfl
    · obtain rfl : q = p := e
      have : coordOf dh.nodes q 1 = coordOf d.nodes q 1 := (D1.coord hpn 1).1
      have o := old q hpn
      exact ⟨o.1, by rw [o.2, this]⟩
    · have : coordOf dh.nodes (ρ1 p) 1 = coordOf d.nodes p 1 := (D1.coord hpn 1).2
      have o := old p hpn
      refine ⟨(D1.supports p hpn 0 (by omega)).2 o.1, (D1.supports p hpn 1 (by omega)).trans ?_⟩
      rw [this]
      exact o.2
  obtain ⟨dw, ρ2, F2, D2, H2, W2, M2, L2, G2, A2, B2⟩ := C139_exists M1 hm1 W1 1 0 false F1 (by
    intro p hpn hc j hj hpar hf
    rcases (by omega : j = 0 ∨ j = 1) with rfl | rfl
    · exact hpar p10
    · exact ((f1 p hpn).2.1 hf) hc)
  obtain ⟨m2, hm2⟩ := C139_accepted hs D2 M1 hm1
  have hi1 : i < dh.nodes.length := (D1.kept i hi).1
  have hk : ∀ p < d.nodes.length, p < dh.nodes.length ∧ ρ1 p < dh.nodes.length := fun p hpn => ⟨(D1.kept p hpn).1, (D1.mirrored p hpn).1⟩
  have r1 : ρ1 i = i := (A1 i hi).2 hx
  have r2 : ρ2 i ≠ i := fun e => hy (by
    have := (A2 i hi1).1 e
    have h2 := (D1.coord hi 1).1
    exact h2.symm.trans this)
  have g1 := halfLoaded_line D1 hi r1 p01 G1
  have g2 := halfLoaded_off D2 hi1 r2 p11 g1 G2
  have f2 : ∀ q < dw.nodes.length, ∀ j < 2, Free dw.cons 2 q j := by
    have old : ∀ p < dh.nodes.length, ∀ j < 2, Free dw.cons 2 p j := by
      intro p hpn j hj
      rcases (by omega : j = 0 ∨ j = 1) with rfl | rfl
      · exact ((H2 p hpn 0 hj).1 (f1 p hpn).1).1
      · by_cases hc : coordOf dh.nodes p 1 = 0
        · exact B2 p hpn hc 1 hj (by rw [p11]; norm_num)
        · exact ((H2 p hpn 1 hj).1 ((f1 p hpn).2.2 hc)).1
    intro q hq j hj
    obtain ⟨p, hpn, hqp⟩ := D2.cover q hq
    rcases hqp with e | rfl
    · obtain rfl : q = p := e
      exact old q hpn j hj
    · exact (D2.supports p hpn j hj).2 (old p hpn j hj)
  obtain ⟨⟨U1, u1, q1⟩, w1⟩ := C139_half_suffices hs D1 hp H1 hwf W1 hsp hms hm1 hst hF L1 G1 hr
  obtain ⟨U2, u2⟩ := unfolded_exists D2 H2 W1 q1.1
  have q2 := C139_unfolds hs D2 M1 H2 W1 W2 hm1 hm2 L1 L2 G2 u2 q1
  have key : ∀ U, Equilibrium dw.cons 2 dw.loads m2 U → ∀ p < d.nodes.length,
        entry res.disp p 0 = some ((U p 0 - U (ρ1 p) 0 + U (ρ2 p) 0 - U (ρ2 (ρ1 p)) 0) / 4) ∧
        entry res.disp p 1 = some ((U p 1 + U (ρ1 p) 1 - U (ρ2 p) 1 - U (ρ2 (ρ1 p)) 1) / 4) := by
    intro U hU p hpn
    have h := w1 _ (C139_folds hs D2 M1 H2 W1 W2 hm1 hm2 L1 L2 G2 hU) p hpn
    constructor
    · rw [h 0 (by omega), p00, p10]
      simp only [id]
      congr 1
      ring
    · rw [h 1 (by omega), p01, p11]
      simp only [id]
      congr 1
      ring
  refine ⟨dw, ρ1, ρ2, m2, ⟨⟨dh, D1, D2⟩, f2, ?_, r2⟩, hm2, ⟨U2, q2, fun p hpn => ?_⟩, key⟩
  · intro q j hq hj
    rw [← g2 q hq j hj]
    exact L2 q j hq hj
  · have a := u1 p hpn
    have b := u2 p (hk p hpn).1
    have c := u2 (ρ1 p) (hk p hpn).2
    have a0 := a 0 (by omega)
    have a1 := a 1 (by omega)
    have b0 := b 0 (by omega)
    have b1 := b 1 (by omega)
    have c0 := c 0 (by omega)
    have c1 := c 1 (by omega)
    simp only [id, p00, p01, p10, p11, one_mul, neg_one_mul] at a0 a1 b0 b1 c0 c1
    have k := key U2 q2 p hpn
    have e0 : U2 (ρ1 p) 0 = - U2 p 0 := by rw [c0.1, a0.2, b0.1, a0.1]
    have e1 : U2 (ρ1 p) 1 = U2 p 1 := by rw [c1.1, a1.2, b1.1, a1.1]
    have e2 : U2 (ρ2 p) 0 = U2 p 0 := by rw [b0.2, b0.1]
    have e3 : U2 (ρ2 p) 1 = - U2 p 1 := by rw [b1.2, b1.1]
    have e4 : U2 (ρ2 (ρ1 p)) 0 = - U2 p 0 := by rw [c0.2, ← c0.1, e0]
    have e5 : U2 (ρ2 (ρ1 p)) 1 = - U2 p 1 := by rw [c1.2, ← c1.1, e1]
    refine ⟨?_, e0, e1, e2, e3, e4, e5⟩
    intro j hj
    rcases (by omega : j = 0 ∨ j = 1) with rfl | rfl
    · rw [k.1, e0, e2, e4]; congr 1; ring
    · rw [k.2, e1, e3, e5]; congr 1; ring

/-- The force of the tutorial. -/
theorem disc_force (hm : TriangleMesh points cells data tri tags lines phys) (hv : cells "vertex" = some [[z]])
    (h : Brazil.script points cells data fs = .ok fs') (hr : readin fs' [] = .ok (nodes, mats, els, loads)) {i : ℕ} (hi : i < points.length)
    (hz : z = i) : LoadField (splitData nodes mats els loads) (forceAt [(i, 0, -10 ^ 9)]) := by
  obtain ⟨l1, -⟩ := disc_size hm hv h hr
  obtain ⟨-, -, z', hz', rfl⟩ := C140_tables hm hv h hr
  simp only [List.cons.injEq, and_true] at hz'
  subst hz'
  subst hz
  have e : (splitData nodes mats els [[((i : ℤ) : K), 0, -10 * 10 ^ 8]]).loads = loadRows [(i, 0, -10 ^ 9)] := by
    simp only [splitData, loadRows, List.map_cons, List.map_nil, Int.cast_natCast]
    norm_num
  intro p j _ hj
  rw [e]
  refine loads_at (fun e he => ?_) (by simp) p hj
  rw [List.mem_singleton] at he
  rw [he]
  exact lt_of_lt_of_eq hi l1.symm

/-- C140.  The displacements from the files are those of a whole disc, without supports, made of the quarter and its images across both
axes, pressed at the loaded point and its image with twice the force: unfolded they balance these forces, and they are the symmetric
part of every field of displacements that does. -/
theorem C140_whole (hq : SqrtFn sq) (hsp : SolverOk sp)
    (hm : TriangleMesh points cells data tri tags lines phys) (hv : cells "vertex" = some [[z]])
    (hd : QuarterDisc points tri lines phys z)
    (h : Brazil.script points cells data fs = .ok fs') (hr : readin fs' [] = .ok (nodes, mats, els, loads)) {res : Gui.Result K}
    (hg : Gui.solidsGUIFiles sq sp de fs' [] false = .ok res) :
    ∃ (dw : Gui.Data K) (i : ℕ) (ρ1 ρ2 : ℕ → ℕ) (mw : List (Member K)), z = i ∧
      WholeOf (splitData nodes mats els loads) dw i (-10 ^ 9) ρ1 ρ2 ∧ Members sq dw mw ∧
      (∃ U, Equilibrium dw.cons 2 dw.loads mw U ∧ ∀ p < points.length,
        (∀ j < 2, entry res.disp p j = some (U p j)) ∧
        U (ρ1 p) 0 = - U p 0 ∧ U (ρ1 p) 1 = U p 1 ∧ U (ρ2 p) 0 = U p 0 ∧ U (ρ2 p) 1 = - U p 1 ∧
        U (ρ2 (ρ1 p)) 0 = - U p 0 ∧ U (ρ2 (ρ1 p)) 1 = - U p 1) ∧
      ∀ U, Equilibrium dw.cons 2 dw.loads mw U → ∀ p < points.length,
        entry res.disp p 0 = some ((U p 0 - U (ρ1 p) 0 + U (ρ2 p) 0 - U (ρ2 (ρ1 p)) 0) / 4) ∧
        entry res.disp p 1 = some ((U p 1 + U (ρ1 p) 1 - U (ρ2 p) 1 - U (ρ2 (ρ1 p)) 1) / 4) := by
  obtain ⟨ms, hms⟩ := disc_solid (sq := sq) hm hv hd h hr
  obtain ⟨l1, l2⟩ := disc_size hm hv h hr
  have hwf := disc_fits hm hv hd h hr
  obtain ⟨i, p, y, hz, hp, tp, hy⟩ := hd.top
  have hi := (List.getElem?_eq_some_iff.1 hp).1
  obtain ⟨_, _, u1, v1, _, _, t1, -, -, zu, zv, -, n1, -⟩ := disc_rows hm hv hd h hr hp
  rw [tp] at t1
  simp only [List.cons.injEq, and_true] at t1
  obtain ⟨rfl, rfl⟩ := t1
  rw [C105_same_as_memory (C105_readin.1 hr)] at hg
  obtain ⟨dw, ρ1, ρ2, mw, a, b, c, e⟩ := quarter_whole hq hms.plane hwf hsp hms.members
    ((C95_stable_iff hq hms hwf).2 (disc_stands hm hv hd h hr)) (by rw [l1]; exact hi)
    (by rw [(coord_at n1).1, zu]) (by rw [(coord_at n1).2, Ne, zv]; exact hy)
    (fun p hpn => disc_free hm hv hd h hr (by rw [← l1]; exact hpn)) (disc_force hm hv h hr hi hz) hg
  rw [l1] at c e
  exact ⟨dw, i, ρ1, ρ2, mw, hz, a, b, c, e⟩

/-- C140.  The vertical reactions on the lower edge carry the force of 10^9 and there are none elsewhere; the horizontal ones act on the
left edge only, and have no resultant. -/
theorem C140_reactions (hq : SqrtFn sq) (hsp : SolverOk sp)
    (hm : TriangleMesh points cells data tri tags lines phys) (hv : cells "vertex" = some [[z]])
    (hd : QuarterDisc points tri lines phys z)
    (h : Brazil.script points cells data fs = .ok fs') (hr : readin fs' [] = .ok (nodes, mats, els, loads)) {res : Gui.Result K}
    (hg : Gui.solidsGUIFiles sq sp de fs' [] false = .ok res) {ms : List (Member K)} (hms : Members sq (splitData nodes mats els loads) ms)
    {F R : ℕ → ℕ → K} (hF : LoadField (splitData nodes mats els loads) F)
    (hR : ∀ p j, R p j = internal 2 ms (fieldOf res.disp) p j - F p j) :
    (∑ p ∈ Finset.range points.length, R p 1 = 10 ^ 9) ∧ (∑ p ∈ Finset.range points.length, R p 0 = 0) ∧
    ∀ p < points.length, (¬ OnLine lines phys 1 points.length p → R p 0 = 0) ∧ (¬ OnLine lines phys 2 points.length p → R p 1 = 0) := by
  obtain ⟨ms', hms'⟩ := disc_solid (sq := sq) hm hv hd h hr
  obtain ⟨l1, l2⟩ := disc_size hm hv h hr
  have hwf := disc_fits hm hv hd h hr
  obtain rfl := members_unique hms hms'.members
  obtain ⟨i, p, y, hz, hp, tp, hy⟩ := hd.top
  have hi := (List.getElem?_eq_some_iff.1 hp).1
  rw [C105_same_as_memory (C105_readin.1 hr)] at hg
  obtain ⟨r1, r2, -⟩ := C91_reactions hq hms'.plane hwf hsp hms ((C95_stable_iff hq hms' hwf).2 (disc_stands hm hv hd h hr)) hg hF hR
  have hF0 := disc_force hm hv h hr hi hz
  rw [l1] at r2
  have hFv : ∀ q < points.length, ∀ j < 2, F q j = forceAt [(i, 0, -10 ^ 9)] q j := fun q hq' j hj =>
    isLoad_unique (hF q j (by rw [l1]; exact hq') hj) (hF0 q j (by rw [l1]; exact hq') hj)
  have tot : ∀ j < 2, ∑ q ∈ Finset.range points.length, F q j = if j = 0 then 0 else -10 ^ 9 := by
    intro j hj
    rw [Finset.sum_eq_single_of_mem i (Finset.mem_range.2 hi), hFv i hi j hj]
    · simp [forceAt]
    · intro q hq' hne
      rw [hFv q (Finset.mem_range.1 hq') j hj]
      simp [forceAt, hne.symm]
  refine ⟨?_, ?_, ?_⟩
  · have := r2 1 (by omega)
    unfold resultant at this
    rw [tot 1 (by omega), if_neg one_ne_zero] at this
    linarith
  · have := r2 0 (by omega)
    unfold resultant at this
    rw [tot 0 (by omega), if_pos rfl] at this
    linarith
  · intro q hq'
    obtain ⟨x, y', x', y'', cx, cy, tk, -, -, zx, zy, -, en, -⟩ := disc_rows hm hv hd h hr (List.getElem?_eq_getElem hq')
    obtain ⟨k0, k1⟩ := take_two tk
    have o1 := (hd.left q _ x (List.getElem?_eq_getElem hq') k0).1
    have o2 := (hd.lower q _ y' (List.getElem?_eq_getElem hq') k1).1
    constructor
    · intro ho
      refine r1 q 0 ((disc_free hm hv hd h hr hq').1.2 ?_)
      rw [(coord_at en).1, Ne, zx, ← o1]
      exact ho
    · intro ho
      refine r1 q 1 ((disc_free hm hv hd h hr hq').2.2 ?_)
      rw [(coord_at en).2, Ne, zy, ← o2]
      exact ho

end
/-! ## Case -/

/-- Two triangles of a quarter. -/
noncomputable def quarterPoints : Table ℝ := [[0, 0, 0], [2, 0, 0], [0, 2, 0], [3 / 2, 3 / 2, 0]]

def quarterCells : String → Option (List (List ℤ)) := fun s =>
  if s = "triangle" then some [[0, 1, 3], [0, 3, 2]] else if s = "line" then some [[0, 1], [2, 0]] else
    if s = "vertex" then some [[2]] else none

def quarterData : String → Option (List ℤ) := fun s =>
  if s = "triangle" then some [4, 4] else if s = "line" then some [2, 1] else none

theorem onLine_quarter {i : ℕ} (hi : i < 4) : (OnLine [[0, 1], [2, 0]] [2, 1] 1 4 i ↔ i = 0 ∨ i = 2) ∧
    (OnLine [[0, 1], [2, 0]] [2, 1] 2 4 i ↔ i = 0 ∨ i = 1) := by
  constructor
  · constructor
    · rintro ⟨l, line, h1, h2, w, hw, -, hr⟩
      rcases l with _ | _ | l <;> simp at h1 h2
      subst h1
      simp at hw
      omega
    · rintro (rfl | rfl)
      · exact ⟨1, _, rfl, rfl, 0, by simp, by simp [Resolves]⟩
      · exact ⟨1, _, rfl, rfl, 2, by simp, by simp [Resolves]⟩
  · constructor
    · rintro ⟨l, line, h1, h2, w, hw, -, hr⟩
      rcases l with _ | _ | l <;> simp at h1 h2
      subst h1
      simp at hw
      omega
    · rintro (rfl | rfl)
      · exact ⟨0, _, rfl, rfl, 0, by simp, by simp [Resolves]⟩
      · exact ⟨0, _, rfl, rfl, 1, by simp, by simp [Resolves]⟩

theorem quarter_mesh : TriangleMesh quarterPoints quarterCells quarterData [[0, 1, 3], [0, 3, 2]] [4, 4] [[0, 1], [2, 0]] [2, 1] :=
  ⟨rfl, rfl, rfl, rfl, by decide, rfl, rfl, by simp [quarterPoints], by simp [quarterPoints]⟩

theorem quarter_fit : QuarterDisc quarterPoints [[0, 1, 3], [0, 3, 2]] [[0, 1], [2, 0]] [2, 1] 2 where
  large := by
    intro c hc
    simp only [List.mem_cons, List.not_mem_nil, or_false] at hc
    rcases hc with rfl | rfl
    · refine ⟨0, 1, 3, _, _, _, _, _, _, _, _, _, rfl, rfl, rfl, rfl, rfl, rfl, rfl, ?_⟩
      norm_num [twiceArea, abs_of_pos]
    · refine ⟨0, 3, 2, _, _, _, _, _, _, _, _, _, rfl, rfl, rfl, rfl, rfl, rfl, rfl, ?_⟩
      norm_num [twiceArea, abs_of_pos]
  used := by
    intro p hp
    simp only [quarterPoints, List.length_cons, List.length_nil] at hp
    interval_cases p
    · exact ⟨[0, 1, 3], by simp, by simp⟩
    · exact ⟨[0, 1, 3], by simp, by simp⟩
    · exact ⟨[0, 3, 2], by simp, by simp⟩
    · exact ⟨[0, 1, 3], by simp, by simp⟩
  onePiece := by
    intro a ha b hb
    have : SideBySide [[0, 1, 3], [0, 3, 2]] a b := by
      simp only [List.mem_cons, List.not_mem_nil, or_false] at ha hb
      rcases ha with rfl | rfl <;> rcases hb with rfl | rfl <;> exact ⟨by simp, by simp, 0, 3, by simp⟩
    exact .single this
  left := by
    intro i p x hp hx
    have hi : i < 4 := (List.getElem?_eq_some_iff.1 hp).1
    rw [show quarterPoints.length = 4 from rfl, (onLine_quarter hi).1]
    interval_cases i <;> simp [quarterPoints] at hp <;> subst hp <;> simp at hx <;> subst hx <;> norm_num
  lower := by
    intro i p x hp hx
    have hi : i < 4 := (List.getElem?_eq_some_iff.1 hp).1
    rw [show quarterPoints.length = 4 from rfl, (onLine_quarter hi).2]
    interval_cases i <;> simp [quarterPoints] at hp <;> subst hp <;> simp at hx <;> subst hx <;> norm_num
  centre := ⟨0, _, rfl, rfl⟩
  top := ⟨2, _, 2, rfl, rfl, rfl, by norm_num⟩

/-- Case for C140: two triangles are solved, and tell how four times as many, floating, are squeezed. -/
example (fs : Fs) : ∃ fs' res dw mw U, ∃ image : ℕ, Brazil.script quarterPoints quarterCells quarterData fs = .ok fs' ∧
    Gui.solidsGUIFiles Real.sqrt cramerR cramerR fs' [] false = .ok res ∧ res.warned = false ∧ Members Real.sqrt dw mw ∧
    (∀ p < dw.nodes.length, ∀ j < 2, Free dw.cons 2 p j) ∧ Equilibrium dw.cons 2 dw.loads mw U ∧
    entry res.disp 2 1 = some (U 2 1) ∧ U image 1 = - U 2 1 := by
  obtain ⟨fs', res, h1, h2, h3⟩ := C140_solved (de := cramerR) (fs := fs) sqrtFn_real cramerR_ok quarter_mesh rfl (by simp) quarter_fit
  obtain ⟨⟨nodes, mats, els, loads⟩, hr⟩ := C140_readable quarter_mesh rfl h1
  obtain ⟨dw, i, ρ1, ρ2, mw, -, hw, hm, ⟨U, hU, hp⟩, -⟩ := C140_whole sqrtFn_real cramerR_ok quarter_mesh rfl quarter_fit h1 hr h2
  obtain ⟨a, -, -, -, b, -⟩ := hp 2 (by simp [quarterPoints])
  exact ⟨fs', res, dw, mw, U, ρ2 2, h1, h2, h3, hm, hw.unsupported, hU, a 1 (by omega), b⟩

end SolidsPy
