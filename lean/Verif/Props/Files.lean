import Verif.Proofs.Files

/-! # C101 to C104: input and echo files -/

set_option linter.unusedSectionVars false

namespace SolidsPy
open Spec Files

/-! ## C101 -/

/-- C101.  The rows read from a text are those the text lays out: any blanks between and around fields, empty lines,
comments and a missing last newline make no difference; and every text has exactly one reading. -/
theorem C101_layout {rows : List (List Text)} {text : Text} : rowsOf text = rows ↔ Layout rows text :=
  ⟨fun h => h ▸ layout_rows text, rows_layout⟩

/-- C101.  A table is read exactly when every field converts and all rows are as long as the first. -/
theorem C101_table {α : Type} {conv : Text → Py α} {text : Text} {t : List (List α)} :
    loadtxt conv text = .ok t ↔ (∃ rows, Layout rows text ∧
      List.Forall₂ (List.Forall₂ fun w x => conv w = .ok x) rows t) ∧ ∀ r ∈ t, r.length = (t.headD []).length :=
  loadtxt_ok

/-- C101.  Two texts with the same fields are read alike. -/
theorem C101_same_fields {α : Type} (conv : Text → Py α) {rows : List (List Text)} {t1 t2 : Text} (h1 : Layout rows t1)
    (h2 : Layout rows t2) : loadtxt conv t1 = loadtxt conv t2 := by
  unfold loadtxt
  rw [rows_layout h1, rows_layout h2]

/-! ## C102 -/

section
variable {K : Type} [Field K] [LinearOrder K] [IsStrictOrderedRing K] [FloorRing K]

/-- C102.  A field is read as the number `x` exactly when it is a decimal numeral for `x`. -/
theorem C102_float {cs : Text} {x : K} : floatTok cs = .ok x ↔ Numeral cs x := floatTok_ok

/-- C102.  In `eles.txt` a numeral for an integer is read as that integer; the part after the point of any other
numeral is dropped. -/
theorem C102_integer {cs : Text} {z : ℤ} : intTok cs = .ok z ↔
    ∃ x : ℚ, Numeral cs x ∧ (0 ≤ x → z ≤ x ∧ x < z + 1) ∧ (x < 0 → x ≤ z ∧ (z : ℚ) - 1 < x) := by
  unfold intTok
  rw [bind_ok]
  constructor
  · rintro ⟨x, h1, h2⟩
    refine ⟨x, floatTok_ok.1 h1, ?_, ?_⟩ <;> intro hx <;> rw [← pure_ok.1 h2]
    · rw [if_pos hx]
      exact ⟨Int.floor_le x, Int.lt_floor_add_one x⟩
    · rw [if_neg (not_le.2 hx)]
      refine ⟨Int.le_ceil x, ?_⟩
      have := Int.ceil_lt_add_one x
      linarith
  · rintro ⟨x, h1, h2, h3⟩
    refine ⟨x, floatTok_ok.2 h1, ?_⟩
    rw [pure_ok]
    split_ifs with hx
    · obtain ⟨a, b⟩ := h2 hx
      rw [Int.floor_eq_iff]
      exact ⟨a, b⟩
    · obtain ⟨a, b⟩ := h3 (not_le.1 hx)
      rw [Int.ceil_eq_iff]
      exact ⟨b, a⟩

/-- The only exception `m` can raise is `ValueError`. -/
def OnlyValueError {α : Type} (m : Py α) : Prop := ∀ e, m = .error e → e = .valueError

theorem OnlyValueError.bind {α β : Type} {m : Py α} {f : α → Py β} (h : OnlyValueError m)
    (hf : ∀ a, OnlyValueError (f a)) : OnlyValueError (m >>= f) := by
  intro e he
  cases hm : m with
  | ok a => exact hf a e (by rwa [hm] at he)
  | error e' =>
    rw [hm] at he
    cases he
    exact h _ hm

theorem OnlyValueError.ok {α : Type} (a : α) : OnlyValueError (pure a : Py α) := fun e he => by cases he

theorem natTok_only (cs : Text) : OnlyValueError (natTok cs) := by
  intro e he
  unfold natTok at he
  split_ifs at he with h
  · cases he
    rfl
  · clear h
    generalize 0 = acc at he
    induction cs generalizing acc with
    | nil => cases he
    | cons c cs ih =>
      rw [List.foldlM_cons] at he
      split_ifs at he
      · exact ih _ he
      · cases he
        rfl

theorem expTok_only (cs : Text) : OnlyValueError (expTok cs) := by
  unfold expTok
  split
  · exact .ok 0
  · exact (natTok_only _).bind fun _ => .ok _
  · exact (natTok_only _).bind fun _ => .ok _
  · exact (natTok_only _).bind fun _ => .ok _

/-- C102.  Anything else is a `ValueError`. -/
theorem C102_rejects {cs : Text} (h : ¬ ∃ x : K, Numeral cs x) : floatTok (K := K) cs = .error .valueError := by
  have hu : ∀ cs, OnlyValueError (ufloatTok (K := K) cs) := fun cs =>
    (natTok_only _).bind fun _ => (expTok_only _).bind fun _ => .ok _
  have ho : OnlyValueError (floatTok (K := K) cs) := by
    unfold floatTok
    split
    · exact (hu _).bind fun _ => .ok _
    · exact hu _
    · exact hu _
  cases hc : floatTok (K := K) cs with
  | ok x => exact absurd ⟨x, floatTok_ok.1 hc⟩ h
  | error e => rw [ho e hc]

/-! ## C103 -/

theorem fmt52_tok (x : K) : ∃ n, fmt52 x = List.replicate n ' ' ++ fixed2 x := ⟨_, rfl⟩

theorem echo_round {t : Table K} {w : ℕ} (hw : 0 < w) (ht : ∀ r ∈ t, r.length = w) :
    loadtxt floatTok (savetxt fmt52 t) = .ok (t.map (List.map round2)) := by
  rw [loadtxt_ok]
  refine ⟨⟨_, savetxt_layout fmt52_tok (fun x => numeral_field (fixed2_numeral x)) ?_, ?_⟩, ?_⟩
  · intro r hr h0
    have := ht r hr
    rw [h0] at this
    exact hw.ne this
  · rw [List.forall₂_map_left_iff, List.forall₂_map_right_iff, List.forall₂_same]
    intro r _
    rw [List.forall₂_map_left_iff, List.forall₂_map_right_iff, List.forall₂_same]
    exact fun x _ => floatTok_ok.2 (fixed2_numeral x)
  · intro r hr
    obtain ⟨q, hq, rfl⟩ := List.mem_map.1 hr
    cases t with
    | nil => simp at hq
    | cons a t => simp [ht q hq, ht a List.mem_cons_self]

theorem map_self {α : Type} {f : α → α} {l : List α} : l.map f = l ↔ ∀ a ∈ l, f a = a := by
  constructor
  · intro h a ha
    exact List.map_inj_left.1 (h.trans (List.map_id l).symm) a ha
  · intro h
    exact (List.map_inj_left.2 h).trans (List.map_id l)

/-- C103.  Reading back an echo of a table of floats gives a table of the same shape with every entry replaced
by a nearest multiple of 1/100 (the even one of two). -/
theorem C103_floats {t : Table K} {w : ℕ} (hw : 0 < w) (ht : ∀ r ∈ t, r.length = w) :
    ∃ t', loadtxt floatTok (savetxt fmt52 t) = .ok t' ∧
      List.Forall₂ (List.Forall₂ fun x y : K => Nearest100 x y ∧ (|x - y| = 1 / 200 → ∃ k : ℤ, y = 2 * k / 100)) t t' := by
  refine ⟨_, echo_round hw ht, ?_⟩
  rw [List.forall₂_map_right_iff, List.forall₂_same]
  intro r _
  rw [List.forall₂_map_right_iff, List.forall₂_same]
  exact fun x _ => ⟨round2_near x, round2_tie x⟩

/-- C103.  The echo of a table of floats gives the table back exactly when all its entries are multiples of 1/100. -/
theorem C103_exact {t : Table K} {w : ℕ} (hw : 0 < w) (ht : ∀ r ∈ t, r.length = w) :
    loadtxt floatTok (savetxt fmt52 t) = .ok t ↔ ∀ r ∈ t, ∀ x ∈ r, ∃ z : ℤ, x = z / 100 := by
  rw [echo_round hw ht, Except.ok.injEq]
  constructor
  · intro h r hr x hx
    rw [← round2_exact]
    have h1 : r.map round2 = r := map_self.1 h r hr
    exact map_self.1 h1 x hx
  · intro h
    exact map_self.2 fun r hr => map_self.2 fun x hx => (round2_exact x).2 (h r hr x hx)

/-- C103.  The echo of the elements is exact. -/
theorem C103_elements {t : List (List ℤ)} {w : ℕ} (hw : 0 < w) (ht : ∀ r ∈ t, r.length = w) :
    loadtxt intTok (savetxt fmtD t) = .ok t := by
  rw [loadtxt_ok]
  refine ⟨⟨t.map (List.map fmtD), savetxt_layout (fun x => ⟨0, rfl⟩)
    (fun z => numeral_field (fmtD_numeral (K := ℚ) z)) ?_, ?_⟩, ?_⟩
  · intro r hr h0
    have := ht r hr
    rw [h0] at this
    exact hw.ne this
  · rw [List.forall₂_map_left_iff, List.forall₂_same]
    intro r _
    rw [List.forall₂_map_left_iff, List.forall₂_same]
    intro z _
    refine C102_integer.2 ⟨z, fmtD_numeral z, fun _ => ⟨le_refl _, by linarith⟩, fun _ => ⟨le_refl _, by linarith⟩⟩
  · intro r hr
    cases t with
    | nil => simp at hr
    | cons a t => simp [ht r hr, ht a List.mem_cons_self]

/-- C103.  Echoing what was read from an echo changes no value any more. -/
theorem C103_stable {t t' : Table K} {w : ℕ} (hw : 0 < w) (ht : ∀ r ∈ t, r.length = w)
    (h : loadtxt floatTok (savetxt fmt52 t) = .ok t') : loadtxt floatTok (savetxt fmt52 t') = .ok t' := by
  rw [echo_round hw ht, Except.ok.injEq] at h
  subst h
  refine (C103_exact hw ?_).2 ?_
  · intro r hr
    obtain ⟨q, hq, rfl⟩ := List.mem_map.1 hr
    rw [List.length_map, ht q hq]
  · intro r hr x hx
    obtain ⟨q, hq, rfl⟩ := List.mem_map.1 hr
    obtain ⟨y, hy, rfl⟩ := List.mem_map.1 hx
    exact (round2_near y).1

/-! ## C104 -/

/-- The files `echomod` writes in `folder`. -/
def echoNames (folder : Text) : List Text :=
  ["KNODES.txt", "KMATES.txt", "KELEMS.txt", "KLOADS.txt"].map fun n => folder ++ n.toList

/-- C104.  `echomod` touches no other file. -/
theorem C104_others {fs : Fs} {nodes mats loads : Table K} {els : List (List ℤ)} {folder name : Text}
    (h : name ∉ echoNames folder) : echomod fs nodes mats els loads folder name = fs name := by
  simp only [echoNames, List.map_cons, List.map_nil, List.mem_cons, List.not_mem_nil, or_false, not_or] at h
  obtain ⟨h1, h2, h3, h4⟩ := h
  simp only [echomod, write]
  rw [if_neg h4, if_neg h3, if_neg h2, if_neg h1]

/-- C104.  What `echomod` writes. -/
theorem C104_contents (fs : Fs) (nodes mats : Table K) (els : List (List ℤ)) (loads : Table K) (folder : Text) :
    let fs' := echomod fs nodes mats els loads folder
    fs' (folder ++ "KNODES.txt".toList) = some (savetxt fmt52 nodes) ∧
    fs' (folder ++ "KMATES.txt".toList) = some (savetxt fmt52 mats) ∧
    fs' (folder ++ "KELEMS.txt".toList) = some (savetxt fmtD els) ∧
    fs' (folder ++ "KLOADS.txt".toList) = some (savetxt fmt52 loads) := by
  simp only [echomod, write, List.append_cancel_left_eq]
  refine ⟨?_, ?_, ?_, ?_⟩ <;> simp

theorem input_not_echo {n : String} (hn : n ∈ ["nodes.txt", "mater.txt", "eles.txt", "loads.txt"]) (f g : Text) :
    g ++ n.toList ∉ echoNames f := by
  intro h
  have key : ∀ {a b : Text} {x y : Char}, g ++ (a ++ [x]) ++ ".txt".toList = f ++ (b ++ [y]) ++ ".txt".toList → x = y := by
    intro a b x y h
    have := List.append_cancel_right h
    rw [← List.append_assoc, ← List.append_assoc] at this
    exact (List.append_inj' this rfl).2 |> fun h => by simpa using h
  have split : ∀ n : String, n ∈ ["nodes.txt", "mater.txt", "eles.txt", "loads.txt"] →
      ∃ a x, n.toList = a ++ [x] ++ ".txt".toList ∧ x ≠ 'S' := by
    intro n hn
    simp only [List.mem_cons, List.not_mem_nil, or_false] at hn
    rcases hn with rfl | rfl | rfl | rfl
    · exact ⟨"node".toList, 's', by decide, by decide⟩
    · exact ⟨"mate".toList, 'r', by decide, by decide⟩
    · exact ⟨"ele".toList, 's', by decide, by decide⟩
    · exact ⟨"load".toList, 's', by decide, by decide⟩
  obtain ⟨a, x, e, hx⟩ := split n hn
  have split2 : ∀ n : String, n ∈ ["KNODES.txt", "KMATES.txt", "KELEMS.txt", "KLOADS.txt"] →
      ∃ b, n.toList = b ++ ['S'] ++ ".txt".toList := by
    intro n hn
    simp only [List.mem_cons, List.not_mem_nil, or_false] at hn
    rcases hn with rfl | rfl | rfl | rfl
    · exact ⟨"KNODE".toList, by decide⟩
    · exact ⟨"KMATE".toList, by decide⟩
    · exact ⟨"KELEM".toList, by decide⟩
    · exact ⟨"KLOAD".toList, by decide⟩
  obtain ⟨m, hm, he⟩ := List.mem_map.1 h
  obtain ⟨b, hb⟩ := split2 m hm
  rw [e, hb] at he
  simp only [← List.append_assoc] at he
  exact hx (key (a := a) (b := b) (by simp only [← List.append_assoc]; exact he.symm))

/-- C104.  Echoing a model, in whatever folder, does not change what `readin` returns. -/
theorem C104_readin (fs : Fs) (nodes mats : Table K) (els : List (List ℤ)) (loads : Table K) (folder folder' : Text) :
    readin (K := K) (echomod fs nodes mats els loads folder') folder = readin fs folder := by
  unfold readin open_
  rw [C104_others (input_not_echo (by simp) _ _), C104_others (input_not_echo (by simp) _ _),
    C104_others (input_not_echo (by simp) _ _), C104_others (input_not_echo (by simp) _ _)]

end

/-! ## Cases -/

/-- Case for C101: tabs, a comment, empty lines and no final newline. -/
example : rowsOf "  1\t2.5 # first\n\n# nothing here\n3 4".toList =
    [["1".toList, "2.5".toList], ["3".toList, "4".toList]] := by decide +kernel

/-- Case for C101: rows of unequal length are rejected. -/
example : loadtxt (floatTok (K := ℚ)) "1 2\n3\n".toList = .error .valueError := by decide +kernel

/-- Case for C102. -/
example : Numeral "-1.50e-2".toList (-(15 / 1000) : ℚ) :=
  C102_float.1 (by decide +kernel)

/-- Case for C102: a type code written as `3.0`. -/
example : intTok "3.0".toList = .ok 3 := by decide +kernel

/-- Case for C102: not numerals. -/
example : (∀ x : ℚ, ¬ Numeral "1,5".toList x) ∧ (∀ x : ℚ, ¬ Numeral ".".toList x) := by
  constructor <;> intro x hx <;> rw [← C102_float] at hx
  · have : floatTok (K := ℚ) "1,5".toList = .error .valueError := by decide +kernel
    rw [this] at hx
    cases hx
  · have : floatTok (K := ℚ) ".".toList = .error .valueError := by decide +kernel
    rw [this] at hx
    cases hx

/-- Case for C103: the echo of a bar of area 0.004 has area 0; a tie goes to the even neighbour. -/
example : savetxt fmt52 [[(200 : ℚ), 4 / 1000], [-1 / 8, 3 / 8]] = "200.00  0.00\n-0.12  0.38\n".toList ∧
    loadtxt (floatTok (K := ℚ)) (savetxt fmt52 [[(200 : ℚ), 4 / 1000], [-1 / 8, 3 / 8]]) =
      .ok [[200, 0], [-12 / 100, 38 / 100]] := by
  constructor <;> decide +kernel

/-- Case for C103: element rows, with a negative node number. -/
example : loadtxt intTok (savetxt fmtD [[0, 1, 0, 10, -1, 200]]) = .ok [[0, 1, 0, 10, -1, 200]] :=
  C103_elements (w := 6) (by norm_num) (by simp)

/-- The files of `/repo/examples/square-4_elements`. -/
def squareFiles : Fs := fun name =>
  if name = "square/nodes.txt".toList then some ("0  0.00  0.00   0  -1\n1  2.00  0.00   0  -1\n" ++
    "2  2.00  2.00   0   0\n3  0.00  2.00   0   0\n4  1.00  0.00  -1  -1\n5  2.00  1.00   0   0\n" ++
    "6  1.00  2.00   0   0\n7  0.00  1.00   0   0\n8  1.00  1.00   0   0\n").toList
  else if name = "square/mater.txt".toList then some "1.0  0.3\n\n".toList
  else if name = "square/eles.txt".toList then some ("0   1   0   0   4   8   7\n1   1   0   4   1   5   8\n" ++
    "2   1   0   7   8   6   3\n3   1   0   8   5   2   6\n").toList
  else if name = "square/loads.txt".toList then some "3  0.0   1.0\n6  0.0   2.0\n2  0.0   1.0\n".toList
  else none

/-- Case for C104: the example is read, also after an echo into the same folder. -/
example : readin (K := ℚ) (echomod squareFiles [[(0 : ℚ)]] [[1 / 3]] [[7]] [] "square/".toList) "square/".toList = .ok
      ([[0, 0, 0, 0, -1], [1, 2, 0, 0, -1], [2, 2, 2, 0, 0], [3, 0, 2, 0, 0], [4, 1, 0, -1, -1], [5, 2, 1, 0, 0],
        [6, 1, 2, 0, 0], [7, 0, 1, 0, 0], [8, 1, 1, 0, 0]], [[1, 3 / 10]],
       [[0, 1, 0, 0, 4, 8, 7], [1, 1, 0, 4, 1, 5, 8], [2, 1, 0, 7, 8, 6, 3], [3, 1, 0, 8, 5, 2, 6]],
       [[3, 0, 1], [6, 0, 2], [2, 0, 1]]) := by
  rw [C104_readin]
  decide +kernel

end SolidsPy
