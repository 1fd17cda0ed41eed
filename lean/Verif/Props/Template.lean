import Verif.Model.Template
import Verif.Props.Files
import Verif.Props.LineTables
import Mathlib.Tactic.LinearCombination

/-! # C130: the script that writes the input files from a mesh -/

set_option linter.unusedSectionVars false

namespace SolidsPy
open Spec Files Pre

section
variable {K : Type} [Field K] [LinearOrder K] [IsStrictOrderedRing K] [FloorRing K]

/-! ## Writing with `k` decimals -/

/-- `y` is a nearest multiple of `1/p` to `x`. -/
def Spec.NearestPart (p : ℕ) (x y : K) : Prop := (∃ z : ℤ, y = z / p) ∧ |x - y| ≤ 1 / (2 * p)

/-- The number `'%.kf'` writes. -/
def roundTo (k : ℕ) (x : K) : K := (if x < 0 then -1 else 1) * (roundEven (|x| * 10 ^ k) : K) / 10 ^ k

theorem fracDigits_ok (k m : ℕ) : (Template.fracDigits m k).length = k ∧
    (∀ c ∈ Template.fracDigits m k, IsDigit c) ∧ digitsValue (Template.fracDigits m k) = m % 10 ^ k := by
  induction k generalizing m with
  | zero => exact ⟨rfl, by simp [Template.fracDigits], by simp [Template.fracDigits, digitsValue, Nat.mod_one]⟩
  | succ k ih =>
    obtain ⟨a, b, c⟩ := ih (m / 10)
    obtain ⟨d1, d2⟩ := digitChar (d := m % 10) (by omega)
    unfold Template.fracDigits
    refine ⟨by simp [a], ?_, ?_⟩
    · intro x hx
      rcases List.mem_append.1 hx with hx | hx
      · exact b x hx
      · rw [List.mem_singleton.1 hx]
        exact d1
    · rw [digitsValue_append, c, digitsValue_cons, d2, pow_succ']
      simp only [digitsValue, List.length_singleton, List.length_nil, List.reverse_nil, List.map_nil, Nat.ofDigits_nil]
      rw [Nat.mod_mul]
      ring

theorem fixed_numeral (k : ℕ) (x : K) : Numeral (Template.fixed k x) (roundTo k x) := by
  obtain ⟨h1, h2, h3⟩ := natText_ok (roundEven (|x| * 10 ^ k) / 10 ^ k)
  unfold Template.fixed roundTo
  generalize roundEven (|x| * 10 ^ k) = n at *
  dsimp only
  obtain ⟨f1, f2, f3⟩ := fracDigits_ok k n
  have hv : digitsValue (natText (n / 10 ^ k) ++ Template.fracDigits n k) = n := by
    rw [digitsValue_append, h3, f1, f3, Nat.div_add_mod']
  have hs : ∃ g : ℤ, SignText (if x < 0 then ['-'] else []) g ∧ (g : K) = if x < 0 then -1 else 1 := by
    split_ifs
    · exact ⟨-1, .minus, by simp⟩
    · exact ⟨1, .none, by simp⟩
  obtain ⟨g, hs, hg⟩ := hs
  refine ⟨_, g, natText (n / 10 ^ k), _, _, [], 0, hs, h2, .point f2, ?_, .none, ?_, ?_⟩
  · simp [h1]
  · simp
  · rw [hv, hg, f1, zero_sub, zpow_neg, zpow_natCast]
    ring

theorem roundTo_near (k : ℕ) (x : K) : NearestPart (10 ^ k) x (roundTo k x) := by
  have hp : (0 : K) < 10 ^ k := by positivity
  have h := roundEven_near (x := |x| * 10 ^ k) (by positivity)
  unfold roundTo
  generalize roundEven (|x| * 10 ^ k) = n at *
  constructor
  · refine ⟨(if x < 0 then -1 else 1) * n, ?_⟩
    split_ifs <;> push_cast <;> ring
  · push_cast
    have key : ∀ y : K, |y * 10 ^ k - n| ≤ 1 / 2 → |y - (n : K) / 10 ^ k| ≤ 1 / (2 * 10 ^ k) := by
      intro y hy
      have e : y - (n : K) / 10 ^ k = (y * 10 ^ k - n) / 10 ^ k := by field_simp
      rw [e, abs_div, abs_of_pos hp, div_le_div_iff₀ hp (by positivity)]
      nlinarith
    split_ifs with hx
    · rw [abs_of_neg hx] at h
      have := key _ h
      rw [← abs_neg] at this
      convert this using 2
      ring
    · rw [abs_of_nonneg (not_lt.1 hx)] at h
      convert key _ h using 3
      ring

theorem roundTo_exact (k : ℕ) (x : K) : roundTo k x = x ↔ ∃ z : ℤ, x = z / 10 ^ k := by
  have hp : (0 : K) < 10 ^ k := by positivity
  constructor
  · intro h
    obtain ⟨z, hz⟩ := (roundTo_near k x).1
    exact ⟨z, by rw [← h, hz]; push_cast; rfl⟩
  · rintro ⟨z, rfl⟩
    unfold roundTo
    have : |(z : K) / 10 ^ k| * 10 ^ k = (z.natAbs : K) := by
      rw [abs_div, Nat.cast_natAbs, abs_of_pos hp]
      field_simp
      push_cast
      rfl
    rw [this, roundEven_nat, Nat.cast_natAbs]
    split_ifs with h
    · have : z < 0 := by
        by_contra hz
        have : (0 : K) ≤ z := by exact_mod_cast not_lt.1 hz
        have := div_nonneg this hp.le
        linarith
      rw [abs_of_neg this]
      push_cast
      ring
    · have : 0 ≤ z := by
        by_contra hz
        have : (z : K) < 0 := by exact_mod_cast not_le.1 hz
        exact h (div_neg_of_neg_of_pos this hp)
      rw [abs_of_nonneg this]
      ring

/-- The number `'%d'` writes for a float. -/
def truncTo (x : K) : K := ((if 0 ≤ x then ⌊x⌋ else ⌈x⌉ : ℤ) : K)

theorem fmtDF_numeral (x : K) : Numeral (Template.fmtDF x) (truncTo x) := fmtD_numeral _

theorem truncTo_int (z : ℤ) : truncTo (z : K) = z := by
  unfold truncTo
  split_ifs <;> simp

theorem join_line : ∀ ws : List Text, (∀ w ∈ ws, Field_ w) → LineOf ws ([' '].intercalate ws) := by
  intro ws h
  induction ws with
  | nil => exact .blank (by simp [List.intercalate])
  | cons w ws ih =>
    have hw := h w List.mem_cons_self
    have ih := ih fun v hv => h v (List.mem_cons_of_mem _ hv)
    cases ws with
    | nil =>
      have := LineOf.last (b := []) (by simp) hw
      simpa [List.intercalate] using this
    | cons v ws =>
      have := LineOf.cons (b := []) (by simp) hw (by simp [Blank] : Blank ' ') ih
      simpa [List.intercalate, List.intersperse] using this

theorem cols_layout {α : Type} {fmts : List (α → Text)} (hf : ∀ f ∈ fmts, ∀ x, Field_ (f x)) (hn : fmts ≠ [])
    {t : List (List α)} (ht : ∀ r ∈ t, r.length = fmts.length) :
    Layout (t.map (List.zipWith (fun f x => f x) fmts)) (Template.savetxtCols fmts t) := by
  induction t with
  | nil => exact .lastBlank (.plain (.blank (by simp [Template.savetxtCols])))
  | cons r t ih =>
    have hr := join_line (List.zipWith (fun f x => f x) fmts r) (by
      intro w hw
      obtain ⟨i, hi, rfl⟩ := List.mem_iff_getElem.1 hw
      rw [List.getElem_zipWith]
      exact hf _ (List.getElem_mem _) _)
    have ih := ih fun q hq => ht q (List.mem_cons_of_mem _ hq)
    have hl := ht r List.mem_cons_self
    obtain ⟨f, fmts, rfl⟩ := List.exists_cons_of_ne_nil hn
    match r, hl, hr with
    | x :: r, _, hr =>
      have := Layout.row (RowLine.plain hr) ih
      simpa [Template.savetxtCols] using this

/-- Reading back a table written with one format per column. -/
theorem cols_read {fmts : List (K → Text)} {vals : List (K → K)}
    (h : List.Forall₂ (fun f v => ∀ x, Numeral (f x) (v x)) fmts vals) (hn : fmts ≠ []) {t : Table K}
    (ht : ∀ r ∈ t, r.length = fmts.length) :
    loadtxt floatTok (Template.savetxtCols fmts t) = .ok (t.map (List.zipWith (fun f x => f x) vals)) := by
  have hlen := h.length_eq
  rw [loadtxt_ok]
  refine ⟨⟨_, cols_layout ?_ hn ht, ?_⟩, ?_⟩
  · intro f hf x
    obtain ⟨i, hi, rfl⟩ := List.mem_iff_getElem.1 hf
    exact numeral_field (h.get hi (hlen ▸ hi) x)
  · rw [List.forall₂_map_left_iff, List.forall₂_map_right_iff, List.forall₂_same]
    intro r hr
    replace hr := ht r hr
    clear ht hn
    induction h generalizing r with
    | nil => simp
    | cons a b ih =>
      cases r with
      | nil => simp
      | cons x r => exact .cons (floatTok_ok.2 (a x)) (ih b.length_eq _ (by simpa using hr))
  · have hw : ∀ r ∈ t.map (List.zipWith (fun f x => f x) vals), r.length = vals.length := by
      intro r hr
      obtain ⟨q, hq, rfl⟩ := List.mem_map.1 hr
      rw [List.length_zipWith, ht q hq, hlen, min_self]
    intro r hr
    cases t with
    | nil => simp at hr
    | cons a t => rw [hw r hr]; exact (hw _ (by simp)).symm

/-! ## What the script builds -/

theorem taggedNodes_exists {cells : String → Option (List (List ℤ))} {data : String → Option (List ℤ)}
    {lines : List (List ℤ)} {phys : List ℤ} (hc : cells "line" = some lines) (hd : data "line" = some phys)
    (hl : phys.length = lines.length) (tag : ℤ) :
    taggedNodes cells data tag = .ok (tagged lines phys tag).flatten := by
  unfold taggedNodes dictGet
  rw [hc, hd]
  dsimp only
  rw [ok_bind, ok_bind, tagged_ok (fun i hi => by
    rw [← hl]
    exact (List.getElem?_eq_some_iff.1 hi).1), ok_bind]
  rfl

theorem setCol_width {t t' : Table K} {idx : List ℤ} {col : ℕ} {v : K} {w : ℕ} (h : setCol t idx col v = .ok t')
    (ht : ∀ r ∈ t, r.length = w) : ∀ r ∈ t', r.length = w := by
  obtain ⟨hl, he⟩ := setCol_ok h
  intro r hr
  obtain ⟨i, hi, rfl⟩ := List.mem_iff_getElem.1 hr
  have hi' : i < t.length := by omega
  have hw := ht _ (List.getElem_mem hi')
  by_cases ho : ∃ z ∈ idx, Resolves t.length z i
  · have := ((he i _ (List.getElem?_eq_getElem hi')).1 ho).2
    rw [List.getElem?_eq_getElem hi, Option.some.injEq] at this
    rw [this, List.length_set, hw]
  · have := (he i _ (List.getElem?_eq_getElem hi')).2 ho
    rw [List.getElem?_eq_getElem hi, Option.some.injEq] at this
    rw [this, hw]

theorem mapM_mem {α β : Type} {f : α → Py β} {l : List α} {r : List β} (h : l.mapM f = .ok r) {b : β} (hb : b ∈ r) :
    ∃ a ∈ l, f a = .ok b := by
  replace h := mapM_ok.1 h
  induction h with
  | nil => simp at hb
  | cons h1 _ ih =>
    rcases List.mem_cons.1 hb with rfl | hb
    · exact ⟨_, List.mem_cons_self, h1⟩
    · obtain ⟨a, ha, e⟩ := ih hb
      exact ⟨a, List.mem_cons_of_mem _ ha, e⟩

theorem nodeWriter_width {points t : Table K} (h : nodeWriter points = .ok t) : ∀ r ∈ t, r.length = 5 := by
  unfold nodeWriter at h
  intro r hr
  obtain ⟨pk, -, hf⟩ := mapM_mem h hr
  split at hf
  · rw [← pure_ok.1 hf]
    rfl
  · rw [← pure_ok.1 hf]
    rfl
  · cases hf

/-- The table of nodes after writing and reading. -/
def nodeBack (t : Table K) : Table K :=
  t.map (List.zipWith (fun f x => f x) [truncTo, roundTo 4, roundTo 4, truncTo, truncTo])

/-- The table of loads after writing and reading. -/
def loadBack (t : Table K) : Table K := t.map (List.zipWith (fun f x => f x) [truncTo, roundTo 6, roundTo 6])

theorem threeCols_width {r q : List ℤ} (h : Template.threeCols r = .ok q) : q.length = 3 := by
  unfold Template.threeCols at h
  split at h <;> cases h <;> rfl

theorem elements_width {cells : String → Option (List (List ℤ))} {data : String → Option (List ℤ)}
    {els : List (List ℤ)} (h : Template.elements cells data = .ok els) : ∀ r ∈ els, r.length = 6 := by
  unfold Template.elements at h
  obtain ⟨eles, -, h⟩ := bind_ok.1 h
  obtain ⟨conn, h2, h⟩ := bind_ok.1 h
  obtain ⟨maters, -, h⟩ := bind_ok.1 h
  obtain ⟨col, -, h⟩ := bind_ok.1 h
  obtain rfl := pure_ok.1 h
  intro r hr
  obtain ⟨⟨⟨a, b⟩, i⟩, hx, rfl⟩ := List.mem_map.1 hr
  have ha : a ∈ conn := (List.of_mem_zip (List.fst_mem_of_mem_zipIdx hx)).1
  obtain ⟨q, -, hq⟩ := mapM_mem h2 ha
  simp [threeCols_width hq]

variable {s : List ℤ → List ℤ} {points : Table K} {cells : String → Option (List (List ℤ))}
  {data : String → Option (List ℤ)} {fs fs' : Fs}

theorem four_writes (fs : Fs) (a b c d : Text) :
    let fs' := write (write (write (write fs "eles.txt".toList a) "loads.txt".toList b) "nodes.txt".toList c)
      "mater.txt".toList d
    fs' "nodes.txt".toList = some c ∧ fs' "mater.txt".toList = some d ∧ fs' "eles.txt".toList = some a ∧
      fs' "loads.txt".toList = some b := by
  have key : ∀ n1 n2 n3 n4 : Text, n1 ≠ n2 → n1 ≠ n3 → n1 ≠ n4 → n2 ≠ n3 → n2 ≠ n4 → n3 ≠ n4 →
      write (write (write (write fs n1 a) n2 b) n3 c) n4 d n3 = some c ∧
      write (write (write (write fs n1 a) n2 b) n3 c) n4 d n4 = some d ∧
      write (write (write (write fs n1 a) n2 b) n3 c) n4 d n1 = some a ∧
      write (write (write (write fs n1 a) n2 b) n3 c) n4 d n2 = some b := by
    intro n1 n2 n3 n4 h12 h13 h14 h23 h24 h34
    unfold write
    simp [h12, h13, h14, h23, h24, h34]
  exact key _ _ _ _ (by decide) (by decide) (by decide) (by decide) (by decide) (by decide)

theorem four_reads {fs : Fs} {a b c d : Text} {nodes mats loads : Table K} {els : List (List ℤ)}
    (h1 : fs "nodes.txt".toList = some c) (h2 : fs "mater.txt".toList = some d) (h3 : fs "eles.txt".toList = some a)
    (h4 : fs "loads.txt".toList = some b) (e1 : loadtxt floatTok c = .ok nodes) (e2 : loadtxt floatTok d = .ok mats)
    (e3 : loadtxt intTok a = .ok els) (e4 : loadtxt floatTok b = .ok loads) :
    readin fs [] = .ok (nodes, mats, els, loads) := by
  unfold readin open_
  simp only [List.nil_append, h1, h2, h3, h4, ok_bind, e1, e2, e3, e4]
  rfl

theorem script_reads (h : Template.script s points cells data fs = .ok fs') :
    ∃ els nds ld, Template.elements cells data = .ok els ∧ Template.nodes s points cells data = .ok nds ∧
      Template.cargas s cells data = .ok ld ∧
      readin fs' [] = .ok (nodeBack nds, [[(1 : K), 3 / 10], [5, 3 / 10]], els, loadBack ld) := by
  unfold Template.script at h
  obtain ⟨els, h1, h⟩ := bind_ok.1 h
  obtain ⟨nds, h2, h⟩ := bind_ok.1 h
  obtain ⟨ld, h3, h⟩ := bind_ok.1 h
  obtain rfl := pure_ok.1 h
  refine ⟨els, nds, ld, h1, h2, h3, ?_⟩
  have w1 := elements_width h1
  have w2 : ∀ r ∈ nds, r.length = 5 := by
    unfold Template.nodes at h2
    obtain ⟨t, a, h2⟩ := bind_ok.1 h2
    obtain ⟨lat, -, h2⟩ := bind_ok.1 h2
    obtain ⟨t', b, h2⟩ := bind_ok.1 h2
    obtain ⟨ab, -, h2⟩ := bind_ok.1 h2
    exact setCol_width h2 (setCol_width b (nodeWriter_width a))
  have w3 : ∀ r ∈ ld, r.length = 3 := by
    unfold Template.cargas at h3
    obtain ⟨flat, -, h3⟩ := bind_ok.1 h3
    dsimp only at h3
    split at h3
    · cases h3
    · obtain rfl := pure_ok.1 h3
      intro r hr
      obtain ⟨z, -, rfl⟩ := List.mem_map.1 hr
      rfl
  have e1 : loadtxt floatTok (Template.savetxtCols [Template.fmtDF, Template.fixed 4, Template.fixed 4, Template.fmtDF,
      Template.fmtDF] nds) = .ok (nodeBack nds) :=
    cols_read (.cons fmtDF_numeral (.cons (fixed_numeral 4) (.cons (fixed_numeral 4) (.cons fmtDF_numeral
      (.cons fmtDF_numeral .nil))))) (by simp) w2
  have e2 : loadtxt floatTok (Template.savetxtCols [Template.fmtDF, Template.fixed 6, Template.fixed 6] ld) =
      .ok (loadBack ld) :=
    cols_read (.cons fmtDF_numeral (.cons (fixed_numeral 6) (.cons (fixed_numeral 6) .nil))) (by simp) w3
  have e3 : loadtxt floatTok (savetxt (Template.fixed 6) (Template.materArray (K := K))) =
      .ok [[(1 : K), 3 / 10], [5, 3 / 10]] := by
    have := cols_read (K := K) (t := Template.materArray) (.cons (fixed_numeral 6) (.cons (fixed_numeral 6) .nil))
      (by simp) (by simp [Template.materArray])
    refine Eq.trans ?_ (this.trans ?_)
    · rfl
    · have a1 : roundTo 6 (1 : K) = 1 := (roundTo_exact 6 _).2 ⟨1000000, by norm_num⟩
      have a2 : roundTo 6 (3 / 10 : K) = 3 / 10 := (roundTo_exact 6 _).2 ⟨300000, by norm_num⟩
      have a3 : roundTo 6 (5 : K) = 5 := (roundTo_exact 6 _).2 ⟨5000000, by norm_num⟩
      simp [Template.materArray, a1, a2, a3]
  obtain ⟨q1, q2, q3, q4⟩ := four_writes fs (savetxt fmtD els)
    (Template.savetxtCols [Template.fmtDF, Template.fixed 6, Template.fixed 6] ld)
    (Template.savetxtCols [Template.fmtDF, Template.fixed 4, Template.fixed 4, Template.fmtDF, Template.fmtDF] nds)
    (savetxt (Template.fixed 6) (Template.materArray (K := K)))
  exact four_reads q1 q2 q3 q4 e1 e3 (C103_elements (by norm_num) w1) e2

/-- A mesh of triangles with tagged lines, as `meshio` gives it. -/
structure Spec.TriangleMesh (points : Table K) (cells : String → Option (List (List ℤ)))
    (data : String → Option (List ℤ)) (tri : List (List ℤ)) (tags : List ℤ) (lines : List (List ℤ))
    (phys : List ℤ) : Prop where
  hasTri : cells "triangle" = some tri
  hasTags : data "triangle" = some tags
  hasLines : cells "line" = some lines
  hasPhys : data "line" = some phys
  three : ∀ c ∈ tri, c.length = 3
  tags_len : tags.length = tri.length
  phys_len : phys.length = lines.length
  plane : ∀ p ∈ points, 2 ≤ p.length
  nodes : ∀ line ∈ lines, ∀ z ∈ line, 0 ≤ z ∧ z < points.length

variable {tri : List (List ℤ)} {tags : List ℤ} {lines : List (List ℤ)} {phys : List ℤ}

theorem elements_ok (hm : TriangleMesh points cells data tri tags lines phys) :
    Template.elements cells data =
      .ok ((tri.zip (tags.map Template.profile)).zipIdx.map fun x => [(x.2 : ℤ), 3, x.1.2] ++ x.1.1) := by
  unfold Template.elements dictGet
  rw [hm.hasTri, hm.hasTags]
  dsimp only
  have h3 : tri.mapM Template.threeCols = .ok tri := by
    rw [mapM_ok, List.forall₂_same]
    intro c hc
    match c, hm.three c hc with
    | [a, b, d], _ => rfl
  rw [ok_bind, h3, ok_bind, ok_bind]
  unfold Template.column
  rw [if_pos (by rw [List.length_map, hm.tags_len]), ok_bind]
  rfl

theorem nodes_exists (hs : Enumerates s) (hm : TriangleMesh points cells data tri tags lines phys) :
    ∃ t, Template.nodes s points cells data = .ok t := by
  obtain ⟨t, h1, hl, -⟩ := C69_nodes hm.plane
  unfold Template.nodes
  rw [h1, ok_bind, taggedNodes_exists hm.hasLines hm.hasPhys hm.phys_len, ok_bind,
    taggedNodes_exists hm.hasLines hm.hasPhys hm.phys_len]
  have hz : ∀ (t : Table K) (tag : ℤ), t.length = points.length → (∀ r ∈ t, r.length = 5) →
      ∀ z ∈ s (tagged lines phys tag).flatten, ∃ (i : ℕ) (row : List K),
      Resolves t.length z i ∧ t[i]? = some row ∧ row.length = 5 := by
    intro t tag ht hw z hz
    obtain ⟨l, line, h3, -, h5⟩ := mem_flat.1 (((hs _).2 z).1 hz)
    obtain ⟨h6, h7⟩ := hm.nodes line (List.mem_of_getElem? h3) z h5
    have h8 : z.toNat < t.length := by omega
    exact ⟨z.toNat, t[z.toNat], ⟨h8, by omega⟩, List.getElem?_eq_getElem h8, hw _ (List.getElem_mem _)⟩
  have hw := nodeWriter_width h1
  obtain ⟨t1, h2⟩ := setCol_exists (v := (-1 : K)) (col := 3) fun z hz' => by
    obtain ⟨i, row, a, b, c⟩ := hz t 300 hl hw z hz'
    exact ⟨i, row, a, b, by omega⟩
  obtain ⟨t2, h3⟩ := setCol_exists (v := (-1 : K)) (col := 4) fun z hz' => by
    obtain ⟨i, row, a, b, c⟩ := hz t1 400 ((setCol_ok h2).1.trans hl) (setCol_width h2 hw) z hz'
    exact ⟨i, row, a, b, by omega⟩
  refine ⟨t2, ?_⟩
  rw [h2, ok_bind, ok_bind, h3]

theorem cargas_ok (hm : TriangleMesh points cells data tri tags lines phys) :
    Template.cargas (K := K) s cells data = if s (tagged lines phys 500).flatten = [] then .error .zeroDivision else
      .ok ((s (tagged lines phys 500).flatten).map fun i : ℤ =>
        [(i : K), 0, -2 / ((s (tagged lines phys 500).flatten).length : K)]) := by
  unfold Template.cargas
  rw [taggedNodes_exists hm.hasLines hm.hasPhys hm.phys_len, ok_bind]
  simp only [List.length_eq_zero_iff]
  rfl

/-- C130.  If some line carries the load tag, the script runs and its files can be read. -/
theorem C130_success (hs : Enumerates s) (hm : TriangleMesh points cells data tri tags lines phys)
    (hl : ∃ z, LineNode lines phys 500 z) :
    ∃ fs', Template.script s points cells data fs = .ok fs' ∧ ∃ T, readin (K := K) fs' [] = .ok T := by
  obtain ⟨t, ht⟩ := nodes_exists hs hm
  obtain ⟨z, hz⟩ := hl
  have hne : s (tagged lines phys 500).flatten ≠ [] := by
    intro h0
    have := ((hs _).2 z).2 (mem_flat.2 hz)
    rw [h0] at this
    simp at this
  have : ∃ fs', Template.script s points cells data fs = .ok fs' := by
    unfold Template.script
    rw [elements_ok hm, ok_bind, ht, ok_bind, cargas_ok hm, if_neg hne, ok_bind]
    exact ⟨_, rfl⟩
  obtain ⟨fs', h⟩ := this
  obtain ⟨els, nds, ld, -, -, -, h4⟩ := script_reads h
  exact ⟨fs', h, _, h4⟩

/-- C130.  If no line carries the load tag, it stops with `ZeroDivisionError` before writing anything. -/
theorem C130_no_load (hs : Enumerates s) (hm : TriangleMesh points cells data tri tags lines phys)
    (hl : ¬ ∃ z, LineNode lines phys 500 z) :
    Template.script s points cells data fs = .error .zeroDivision := by
  obtain ⟨t, ht⟩ := nodes_exists hs hm
  have h0 : s (tagged lines phys 500).flatten = [] := by
    rw [List.eq_nil_iff_forall_not_mem]
    intro z hz
    exact hl ⟨z, mem_flat.1 (((hs _).2 z).1 hz)⟩
  unfold Template.script
  rw [elements_ok hm, ok_bind, ht, ok_bind, cargas_ok hm, if_pos h0]
  rfl

variable {nodes mats loads : Table K} {els : List (List ℤ)}

/-- C130.  The nodes read: number, coordinates of the point to the nearest 1/10000, and -1 in the third column exactly
on the lines tagged 300, in the fourth exactly on those tagged 400. -/
theorem C130_nodes (hs : Enumerates s) (hm : TriangleMesh points cells data tri tags lines phys)
    (h : Template.script s points cells data fs = .ok fs') (hr : readin fs' [] = .ok (nodes, mats, els, loads)) :
    nodes.length = points.length ∧ ∀ (i : ℕ) (p : List K), points[i]? = some p → ∃ x y x' y' cx cy,
      p[0]? = some x ∧ p[1]? = some y ∧ nodes[i]? = some [(i : K), x', y', cx, cy] ∧
      NearestPart 10000 x x' ∧ NearestPart 10000 y y' ∧ ((∃ z : ℤ, x = z / 10000) → x' = x) ∧
      ((∃ z : ℤ, y = z / 10000) → y' = y) ∧
      (OnLine lines phys 300 points.length i → cx = -1) ∧ (¬ OnLine lines phys 300 points.length i → cx = 0) ∧
      (OnLine lines phys 400 points.length i → cy = -1) ∧ (¬ OnLine lines phys 400 points.length i → cy = 0) := by
  obtain ⟨els', nds, ld, -, h2, -, h4⟩ := script_reads h
  rw [h4, Except.ok.injEq, Prod.mk.injEq] at hr
  obtain ⟨rfl, -⟩ := hr
  obtain ⟨t, a1, a2, a3⟩ := C69_nodes hm.plane
  unfold Template.nodes at h2
  rw [a1, ok_bind, taggedNodes_exists hm.hasLines hm.hasPhys hm.phys_len, ok_bind,
    taggedNodes_exists hm.hasLines hm.hasPhys hm.phys_len] at h2
  obtain ⟨t1, h2, h3⟩ := bind_ok.1 h2
  rw [ok_bind] at h3
  obtain ⟨l1, e1⟩ := setCol_ok h2
  obtain ⟨l2, e2⟩ := setCol_ok h3
  rw [l1, a2] at e2
  rw [a2] at e1
  refine ⟨by rw [nodeBack, List.length_map, l2, l1, a2], fun i p hi => ?_⟩
  obtain ⟨x, y, hx, hy, hi⟩ := a3 i p hi
  have e1 := e1 i _ hi
  rw [← onLine_iff hs] at e1
  have hback : ∀ a b : K, nds[i]? = some [(i : K), x, y, a, b] → (nodeBack nds)[i]? =
      some [(i : K), roundTo 4 x, roundTo 4 y, truncTo a, truncTo b] := by
    intro a b hab
    have : truncTo ((i : ℕ) : K) = i := by exact_mod_cast truncTo_int (K := K) (i : ℤ)
    rw [nodeBack, List.getElem?_map, hab]
    simp [this]
  have key : ∃ a b : ℤ, nds[i]? = some [(i : K), x, y, (a : K), (b : K)] ∧
      (OnLine lines phys 300 points.length i → (a : K) = -1) ∧ (¬ OnLine lines phys 300 points.length i → (a : K) = 0) ∧
      (OnLine lines phys 400 points.length i → (b : K) = -1) ∧ (¬ OnLine lines phys 400 points.length i → (b : K) = 0) := by
    by_cases o3 : OnLine lines phys 300 points.length i
    · have e2 := e2 i _ (e1.1 o3).2
      rw [← onLine_iff hs] at e2
      by_cases o4 : OnLine lines phys 400 points.length i
      · exact ⟨-1, -1, by simpa using (e2.1 o4).2, by simp, fun h => absurd o3 h, by simp, fun h => absurd o4 h⟩
      · exact ⟨-1, 0, by simpa using e2.2 o4, by simp, fun h => absurd o3 h, fun h => absurd h o4, by simp⟩
    · have e2 := e2 i _ (e1.2 o3)
      rw [← onLine_iff hs] at e2
      by_cases o4 : OnLine lines phys 400 points.length i
      · exact ⟨0, -1, by simpa using (e2.1 o4).2, fun h => absurd h o3, by simp, by simp, fun h => absurd o4 h⟩
      · exact ⟨0, 0, by simpa using e2.2 o4, fun h => absurd h o3, by simp, fun h => absurd h o4, by simp⟩
  obtain ⟨a, b, k0, k1, k2, k3, k4⟩ := key
  have k0 := hback _ _ k0
  rw [truncTo_int, truncTo_int] at k0
  have near : ∀ x : K, NearestPart 10000 x (roundTo 4 x) := fun x => by
    have := roundTo_near 4 x
    norm_num at this
    exact this
  have exact4 : ∀ x : K, (∃ z : ℤ, x = z / 10000) → roundTo 4 x = x := fun x hx => (roundTo_exact 4 x).2 (by
    norm_num
    exact hx)
  exact ⟨x, y, _, _, _, _, hx, hy, k0, near x, near y, exact4 x, exact4 y, k1, k2, k3, k4⟩

/-- C130.  The elements read: number, type 3, profile 0 for the surface tagged 100 and 1 for any other, the nodes. -/
theorem C130_elements (hm : TriangleMesh points cells data tri tags lines phys)
    (h : Template.script s points cells data fs = .ok fs') (hr : readin fs' [] = .ok (nodes, mats, els, loads)) :
    els.length = tri.length ∧ ∀ (i : ℕ) (c : List ℤ) (t : ℤ), tri[i]? = some c → tags[i]? = some t →
      (t = 100 → els[i]? = some ((i : ℤ) :: 3 :: 0 :: c)) ∧ (t ≠ 100 → els[i]? = some ((i : ℤ) :: 3 :: 1 :: c)) := by
  obtain ⟨els', nds, ld, h1, -, -, h4⟩ := script_reads h
  rw [h4, Except.ok.injEq, Prod.mk.injEq, Prod.mk.injEq, Prod.mk.injEq] at hr
  obtain ⟨-, -, rfl, -⟩ := hr
  rw [elements_ok hm, Except.ok.injEq] at h1
  subst h1
  refine ⟨by simp [hm.tags_len], fun i c t hc ht => ?_⟩
  have hz : (tri.zip (tags.map Template.profile))[i]? = some (c, Template.profile t) := by
    rw [List.getElem?_zip_eq_some]
    exact ⟨hc, by rw [List.getElem?_map, ht]; rfl⟩
  have : ((tri.zip (tags.map Template.profile)).zipIdx.map fun x => [(x.2 : ℤ), 3, x.1.2] ++ x.1.1)[i]? =
      some ((i : ℤ) :: 3 :: Template.profile t :: c) := by
    rw [List.getElem?_map, List.getElem?_zipIdx, hz]
    simp
  rw [this]
  exact ⟨fun h => by simp [Template.profile, h], fun h => by simp [Template.profile, h]⟩

/-- C130.  With one tag for all triangles every triangle gets its material; any other number of tags than one or that of the triangles is
an error before anything is written. -/
theorem C130_tags (h1 : cells "triangle" = some tri) (h2 : data "triangle" = some tags) (h3 : ∀ c ∈ tri, c.length = 3)
    (hl : tags.length ≠ tri.length) :
    (∀ t, tags = [t] → ∃ els, Template.elements cells data = .ok els ∧ els.length = tri.length ∧ ∀ (i : ℕ) (c : List ℤ), tri[i]? = some c →
      (t = 100 → els[i]? = some ((i : ℤ) :: 3 :: 0 :: c)) ∧ (t ≠ 100 → els[i]? = some ((i : ℤ) :: 3 :: 1 :: c))) ∧
    (tags.length ≠ 1 → Template.script s points cells data fs = .error .valueError) := by
  have h4 : tri.mapM Template.threeCols = .ok tri := by
    rw [mapM_ok, List.forall₂_same]
    intro c hc
    match c, h3 c hc with
    | [a, b, d], _ => rfl
  constructor
  · rintro t rfl
    have e : Template.elements cells data = .ok ((tri.zip (List.replicate tri.length (Template.profile t))).zipIdx.map
        fun x => [(x.2 : ℤ), 3, x.1.2] ++ x.1.1) := by
      unfold Template.elements dictGet
      rw [h1, h2]
      dsimp only
      rw [ok_bind, h4, ok_bind, ok_bind]
      unfold Template.column
      rw [if_neg (by simpa using hl)]
      rfl
    refine ⟨_, e, by simp, fun i c hc => ?_⟩
    have hi : i < tri.length := (List.getElem?_eq_some_iff.1 hc).1
    have hz : (tri.zip (List.replicate tri.length (Template.profile t)))[i]? = some (c, Template.profile t) := by
      rw [List.getElem?_zip_eq_some]
      exact ⟨hc, by rw [List.getElem?_replicate, if_pos hi]⟩
    have hr : ((tri.zip (List.replicate tri.length (Template.profile t))).zipIdx.map
        fun x => [(x.2 : ℤ), 3, x.1.2] ++ x.1.1)[i]? = some ((i : ℤ) :: 3 :: Template.profile t :: c) := by
      rw [List.getElem?_map, List.getElem?_zipIdx, hz]
      simp
    rw [hr]
    unfold Template.profile
    constructor <;> intro ht <;> simp [ht]
  · intro h5
    have e : Template.elements cells data = .error .valueError := by
      unfold Template.elements dictGet
      rw [h1, h2]
      dsimp only
      rw [ok_bind, h4, ok_bind, ok_bind]
      unfold Template.column
      rw [if_neg (by simpa using hl)]
      match tags, h5 with
      | [], _ => rfl
      | _ :: _ :: _, _ => rfl
    unfold Template.script
    rw [e]
    rfl

/-- Case for C130: two triangles and one tag, or three. -/
example : (Template.elements (fun n => if n = "triangle" then some [[0, 1, 2], [0, 2, 3]] else none)
      (fun n => if n = "triangle" then some [7] else none) = .ok [[0, 3, 1, 0, 1, 2], [1, 3, 1, 0, 2, 3]]) ∧
    Template.script (K := ℚ) id [] (fun n => if n = "triangle" then some [[0, 1, 2], [0, 2, 3]] else none)
      (fun n => if n = "triangle" then some [7, 100, 100] else none) (fun _ => none) = .error .valueError :=
  ⟨by decide +kernel, (C130_tags (tri := [[0, 1, 2], [0, 2, 3]]) (tags := [7, 100, 100]) rfl rfl (by decide) (by decide)).2 (by decide)⟩

/-- C130.  The materials read. -/
theorem C130_materials (h : Template.script s points cells data fs = .ok fs')
    (hr : readin fs' [] = .ok (nodes, mats, els, loads)) : mats = [[1, 3 / 10], [5, 3 / 10]] := by
  obtain ⟨els', nds, ld, -, -, -, h4⟩ := script_reads h
  rw [h4, Except.ok.injEq, Prod.mk.injEq, Prod.mk.injEq] at hr
  exact hr.2.1.symm

theorem loads_back (hs : Enumerates s) (hm : TriangleMesh points cells data tri tags lines phys)
    (h : Template.script s points cells data fs = .ok fs') (hr : readin fs' [] = .ok (nodes, mats, els, loads)) :
    ∃ ids : List ℤ, ids.Nodup ∧ (∀ z, z ∈ ids ↔ LineNode lines phys 500 z) ∧ ids ≠ [] ∧
      loads = ids.map fun z : ℤ => [(z : K), 0, roundTo 6 (-2 / (ids.length : K))] := by
  obtain ⟨els', nds, ld, -, -, h3, h4⟩ := script_reads h
  rw [h4, Except.ok.injEq, Prod.mk.injEq, Prod.mk.injEq, Prod.mk.injEq] at hr
  obtain ⟨-, -, -, rfl⟩ := hr
  rw [cargas_ok hm] at h3
  split_ifs at h3 with h0
  rw [Except.ok.injEq] at h3
  subst h3
  refine ⟨s (tagged lines phys 500).flatten, (hs _).1, fun z => ?_, h0, ?_⟩
  · rw [(hs _).2, mem_flat]
    rfl
  · have z6 : roundTo 6 (0 : K) = 0 := (roundTo_exact 6 _).2 ⟨0, by simp⟩
    simp [loadBack, truncTo_int, z6, Function.comp_def]

/-- C130.  The loads read: one row for each node of the lines tagged 500, with the same vertical share, the number of
millionths nearest to -2 over the number of nodes. -/
theorem C130_loads (hs : Enumerates s) (hm : TriangleMesh points cells data tri tags lines phys)
    (h : Template.script s points cells data fs = .ok fs') (hr : readin fs' [] = .ok (nodes, mats, els, loads)) :
    ∃ (ids : List ℤ) (r : K), ids.Nodup ∧ (∀ z, z ∈ ids ↔ LineNode lines phys 500 z) ∧
      loads = (ids.map fun z : ℤ => [(z : K), 0, r]) ∧ NearestPart 1000000 (-2 / (ids.length : K)) r := by
  obtain ⟨ids, h1, h2, -, h3⟩ := loads_back hs hm h hr
  refine ⟨ids, _, h1, h2, h3, ?_⟩
  have := roundTo_near 6 (-2 / (ids.length : K))
  norm_num at this
  exact this

/-- C130.  The load in the file is -2 in all up to half a millionth per node, and exactly -2 when and only when the
number of loaded nodes divides two million. -/
theorem C130_total (hs : Enumerates s) (hm : TriangleMesh points cells data tri tags lines phys)
    (h : Template.script s points cells data fs = .ok fs') (hr : readin fs' [] = .ok (nodes, mats, els, loads)) :
    (loads.map fun r => r.getD 1 0).sum = 0 ∧
    |(loads.map fun r => r.getD 2 0).sum - -2| ≤ (loads.length : K) / 2000000 ∧
    ((loads.map fun r => r.getD 2 0).sum = -2 ↔ loads.length ∣ 2000000) := by
  obtain ⟨ids, h1, h2, h0, rfl⟩ := loads_back hs hm h hr
  have hn : 0 < ids.length := List.length_pos_iff.2 h0
  have hn' : (0 : K) < ids.length := by exact_mod_cast hn
  have hsum : ((ids.map fun z : ℤ => [(z : K), 0, roundTo 6 (-2 / (ids.length : K))]).map fun r => r.getD 2 0).sum =
      ids.length * roundTo 6 (-2 / (ids.length : K)) := by
    rw [List.map_map]
    simp [Function.comp_def]
  rw [hsum, List.length_map]
  obtain ⟨⟨z, hz⟩, hd⟩ := roundTo_near 6 (-2 / (ids.length : K))
  have hex := roundTo_exact 6 (-2 / (ids.length : K))
  refine ⟨?_, ?_, ?_⟩
  · rw [List.map_map]
    simp [Function.comp_def]
  · have e : (ids.length : K) * roundTo 6 (-2 / (ids.length : K)) - -2 =
        -(ids.length * (-2 / (ids.length : K) - roundTo 6 (-2 / (ids.length : K)))) := by
      field_simp
      ring
    rw [e, abs_neg, abs_mul, abs_of_pos hn']
    calc _ ≤ (ids.length : K) * (1 / (2 * ((10 ^ 6 : ℕ) : K))) := by gcongr
      _ = _ := by norm_num; ring
  · constructor
    · intro he
      have hz' : (ids.length : K) * z = -2000000 := by
        rw [hz] at he
        push_cast at he
        field_simp at he
        linarith
      have hz' : (ids.length : ℤ) * z = -2000000 := by exact_mod_cast hz'
      have : (ids.length : ℤ) ∣ 2000000 := ⟨-z, by linarith⟩
      exact_mod_cast this
    · rintro ⟨m, hm⟩
      have hm' : (2000000 : K) = ids.length * m := by exact_mod_cast hm
      rw [hex.2 ⟨-(m : ℤ), ?_⟩]
      · field_simp
      · push_cast
        rw [div_eq_div_iff hn'.ne' (by norm_num)]
        linear_combination (-1 : K) * hm'

/-- Twice the signed area of a triangle. -/
def Spec.twiceArea (x1 y1 x2 y2 x3 y3 : K) : K := (x2 - x1) * (y3 - y1) - (x3 - x1) * (y2 - y1)

theorem area_moves {x1 y1 x2 y2 x3 y3 x1' y1' x2' y2' x3' y3' d : K} (h1 : |x1 - x1'| ≤ d) (h2 : |y1 - y1'| ≤ d)
    (h3 : |x2 - x2'| ≤ d) (h4 : |y2 - y2'| ≤ d) (h5 : |x3 - x3'| ≤ d) (h6 : |y3 - y3'| ≤ d) :
    |twiceArea x1 y1 x2 y2 x3 y3 - twiceArea x1' y1' x2' y2' x3' y3'| ≤
      2 * d * (|x2 - x1| + |y2 - y1| + |x3 - x1| + |y3 - y1|) + 8 * d ^ 2 := by
  have two : ∀ {a a' b b' : K}, |a - a'| ≤ d → |b - b'| ≤ d → |(a - b) - (a' - b')| ≤ 2 * d := by
    intro a a' b b' ha hb
    rw [abs_le] at *
    constructor <;> linarith [ha.1, ha.2, hb.1, hb.2]
  have prod : ∀ {u u' v v' : K}, |u - u'| ≤ 2 * d → |v - v'| ≤ 2 * d →
      |u * v - u' * v'| ≤ 2 * d * (|u| + |v|) + 4 * d ^ 2 := by
    intro u u' v v' hu hv
    have e : u * v - u' * v' = u * (v - v') + v * (u - u') - (u - u') * (v - v') := by ring
    rw [e]
    have t1 : |u * (v - v')| ≤ |u| * (2 * d) := by rw [abs_mul]; gcongr
    have t2 : |v * (u - u')| ≤ |v| * (2 * d) := by rw [abs_mul]; gcongr
    have t3 : |(u - u') * (v - v')| ≤ 2 * d * (2 * d) := by
      rw [abs_mul]
      exact mul_le_mul hu hv (abs_nonneg _) ((abs_nonneg _).trans hu)
    have := (abs_sub (u * (v - v') + v * (u - u')) ((u - u') * (v - v'))).trans
      (add_le_add_left (abs_add_le (u * (v - v')) (v * (u - u'))) _)
    linarith
  have p1 := prod (two h3 h1) (two h6 h2)
  have p2 := prod (two h5 h1) (two h4 h2)
  have e : twiceArea x1 y1 x2 y2 x3 y3 - twiceArea x1' y1' x2' y2' x3' y3' =
      ((x2 - x1) * (y3 - y1) - (x2' - x1') * (y3' - y1')) - ((x3 - x1) * (y2 - y1) - (x3' - x1') * (y2' - y1')) := by
    unfold twiceArea
    ring
  rw [e]
  have := abs_sub ((x2 - x1) * (y3 - y1) - (x2' - x1') * (y3' - y1'))
    ((x3 - x1) * (y2 - y1) - (x3' - x1') * (y2' - y1'))
  linarith

/-- C130.  A triangle counterclockwise in the mesh is counterclockwise in the files as soon as twice its area exceeds
1/10000 of the size of two of its sides by more than 2 in 10^8. -/
theorem C130_orientation (hs : Enumerates s) (hm : TriangleMesh points cells data tri tags lines phys)
    (h : Template.script s points cells data fs = .ok fs') (hr : readin fs' [] = .ok (nodes, mats, els, loads))
    {i j k : ℕ} {p q r : List K} (hp : points[i]? = some p) (hq : points[j]? = some q) (hk : points[k]? = some r) :
    ∃ x1 y1 x2 y2 x3 y3 x1' y1' x2' y2' x3' y3' : K,
      p.take 2 = [x1, y1] ∧ q.take 2 = [x2, y2] ∧ r.take 2 = [x3, y3] ∧
      (∃ a b, nodes[i]? = some [(i : K), x1', y1', a, b]) ∧ (∃ a b, nodes[j]? = some [(j : K), x2', y2', a, b]) ∧
      (∃ a b, nodes[k]? = some [(k : K), x3', y3', a, b]) ∧
      ((|x2 - x1| + |y2 - y1| + |x3 - x1| + |y3 - y1|) / 10000 + 2 / 10 ^ 8 < twiceArea x1 y1 x2 y2 x3 y3 →
        0 < twiceArea x1' y1' x2' y2' x3' y3') := by
  obtain ⟨-, hn⟩ := C130_nodes hs hm h hr
  have tk : ∀ {p : List K} {x y : K}, p[0]? = some x → p[1]? = some y → p.take 2 = [x, y] := by
    intro p x y h0 h1
    match p, h0, h1 with
    | a :: b :: l, h0, h1 =>
      simp only [List.getElem?_cons_zero, Option.some.injEq, List.getElem?_cons_succ] at h0 h1
      simp [h0, h1]
  obtain ⟨x1, y1, x1', y1', a1, b1, c1, d1, e1, f1, g1, -⟩ := hn i p hp
  obtain ⟨x2, y2, x2', y2', a2, b2, c2, d2, e2, f2, g2, -⟩ := hn j q hq
  obtain ⟨x3, y3, x3', y3', a3, b3, c3, d3, e3, f3, g3, -⟩ := hn k r hk
  refine ⟨x1, y1, x2, y2, x3, y3, x1', y1', x2', y2', x3', y3', tk c1 d1, tk c2 d2, tk c3 d3, ⟨_, _, e1⟩, ⟨_, _, e2⟩,
    ⟨_, _, e3⟩, fun hbig => ?_⟩
  have := area_moves f1.2 g1.2 f2.2 g2.2 f3.2 g3.2
  rw [abs_le] at this
  have h2 := this.2
  push_cast at h2
  norm_num at h2 hbig
  linarith

/-- C130.  No other file changes. -/
theorem C130_others (h : Template.script s points cells data fs = .ok fs') {name : Text}
    (hn : name ∉ ["nodes.txt", "mater.txt", "eles.txt", "loads.txt"].map String.toList) : fs' name = fs name := by
  unfold Template.script at h
  obtain ⟨els, -, h⟩ := bind_ok.1 h
  obtain ⟨nds, -, h⟩ := bind_ok.1 h
  obtain ⟨ld, -, h⟩ := bind_ok.1 h
  obtain rfl := pure_ok.1 h
  simp only [List.map_cons, List.map_nil, List.mem_cons, List.not_mem_nil, or_false, not_or] at hn
  obtain ⟨h1, h2, h3, h4⟩ := hn
  simp only [write]
  rw [if_neg h2, if_neg h1, if_neg h4, if_neg h3]

end

/-! ## Cases -/

/-- Two triangles on a square with a side of 1/3, clamped in x on the left and in y below, loaded above. -/
def templatePoints : Table ℚ := [[0, 0, 0], [1 / 3, 0, 0], [1 / 3, 1 / 3, 0], [1 / 6, 1 / 3, 0], [0, 1 / 3, 0]]

def templateCells : String → Option (List (List ℤ)) := fun k =>
  if k = "triangle" then some [[0, 1, 3], [1, 2, 3], [0, 3, 4]]
  else if k = "line" then some [[0, 1], [2, 3], [3, 4], [4, 0]] else none

def templateData : String → Option (List ℤ) := fun k =>
  if k = "triangle" then some [100, 200, 100] else if k = "line" then some [400, 500, 500, 300] else none

/-- Case for C130: the mesh meets the hypotheses and has a loaded line. -/
example : TriangleMesh templatePoints templateCells templateData [[0, 1, 3], [1, 2, 3], [0, 3, 4]] [100, 200, 100]
    [[0, 1], [2, 3], [3, 4], [4, 0]] [400, 500, 500, 300] ∧
    LineNode [[0, 1], [2, 3], [3, 4], [4, 0]] [400, 500, 500, 300] 500 2 := by
  refine ⟨⟨rfl, rfl, rfl, rfl, by decide, rfl, rfl, by decide +kernel, by decide +kernel⟩, 1, _, rfl, rfl, by decide⟩

/-- Case for C130: what `readin` finds.  The three shares add up to -2.000001, and the coordinates are cut. -/
example : (do
    let fs ← Template.script List.dedup templatePoints templateCells templateData fun _ => none
    readin (K := ℚ) fs []) = .ok
      ([[0, 0, 0, -1, -1], [1, 3333 / 10000, 0, 0, -1], [2, 3333 / 10000, 3333 / 10000, 0, 0],
        [3, 1667 / 10000, 3333 / 10000, 0, 0], [4, 0, 3333 / 10000, -1, 0]],
       [[1, 3 / 10], [5, 3 / 10]],
       [[0, 3, 0, 0, 1, 3], [1, 3, 1, 1, 2, 3], [2, 3, 0, 0, 3, 4]],
       [[2, 0, -666667 / 1000000], [3, 0, -666667 / 1000000], [4, 0, -666667 / 1000000]]) := by
  decide +kernel

/-- Case for C130: with only two loaded nodes the total is exact. -/
example : (2 : ℕ) ∣ 2000000 ∧ ¬ (3 : ℕ) ∣ 2000000 := by decide

/-- Case for C130: the same mesh without the tag 500. -/
example : Template.script (K := ℚ) List.dedup templatePoints templateCells
    (fun k => if k = "triangle" then some [100, 200, 100] else some [400, 400, 400, 300]) (fun _ => none) =
    .error .zeroDivision := by
  refine C130_no_load (fun l => ⟨List.nodup_dedup l, fun v => List.mem_dedup⟩)
    (tri := [[0, 1, 3], [1, 2, 3], [0, 3, 4]]) (tags := [100, 200, 100]) (lines := [[0, 1], [2, 3], [3, 4], [4, 0]])
    (phys := [400, 400, 400, 300])
    ⟨rfl, rfl, rfl, rfl, by decide, rfl, rfl, by decide +kernel, by decide +kernel⟩ ?_
  rintro ⟨z, l, line, -, h, -⟩
  rcases l with _ | _ | _ | _ | l <;> simp at h

/-- Case for C130: points closer than the precision of the file become one. -/
example : (do
    let fs ← Template.script (K := ℚ) List.dedup [[0, 0], [1 / 50000, 0], [0, 1]]
      (fun k => if k = "triangle" then some [[0, 1, 2]] else some [[0, 1]])
      (fun k => if k = "triangle" then some [100] else some [500]) fun _ => none
    readin (K := ℚ) fs []) = .ok ([[0, 0, 0, 0, 0], [1, 0, 0, 0, 0], [2, 0, 1, 0, 0]], [[1, 3 / 10], [5, 3 / 10]],
      [[0, 3, 0, 0, 1, 2]], [[0, 0, -1], [1, 0, -1]]) := by
  decide +kernel

end SolidsPy
