import Verif.Model.Files
import Verif.Spec.Files
import Verif.Proofs.Py
import Mathlib.Tactic.Ring
import Mathlib.Tactic.Linarith
import Mathlib.Tactic.FieldSimp
import Mathlib.Tactic.NormNum
import Mathlib.Data.Nat.Digits.Lemmas

/-! # Lemmas on texts, numerals and echo files -/

set_option linter.unusedSectionVars false

namespace SolidsPy
namespace Files
open Spec

theorem isSpace_iff {c : Char} : isSpace c = true ↔ Blank c := by
  simp [isSpace, Blank, or_assoc]

theorem not_space {c : Char} (h : ¬ Blank c) : isSpace c = false := by
  rw [← isSpace_iff] at h
  simpa using h

theorem blank_ne {c : Char} (h : Blank c) : c ≠ '#' ∧ c ≠ '\n' := by
  simp only [Blank, List.mem_cons, List.not_mem_nil, or_false] at h
  rcases h with rfl | rfl | rfl | rfl | rfl <;> decide

/-! ## Lines and fields -/

theorem lines_end {cur l : Text} (h : '\n' ∉ l) : lines cur l = [cur ++ l] := by
  induction l generalizing cur with
  | nil => simp [lines]
  | cons c l ih =>
    simp only [List.mem_cons, not_or] at h
    rw [lines, if_neg (Ne.symm h.1), ih h.2]
    simp

theorem lines_break {cur l t : Text} (h : '\n' ∉ l) : lines cur (l ++ '\n' :: t) = (cur ++ l) :: lines [] t := by
  induction l generalizing cur with
  | nil => simp [lines]
  | cons c l ih =>
    simp only [List.mem_cons, not_or] at h
    rw [List.cons_append, lines, if_neg (Ne.symm h.1), ih h.2]
    simp

theorem words_visible {cur w rest : Text} (h : ∀ c ∈ w, ¬ Blank c) : words cur (w ++ rest) = words (cur ++ w) rest := by
  induction w generalizing cur with
  | nil => simp
  | cons c w ih =>
    rw [List.cons_append, words, not_space (h c List.mem_cons_self)]
    simp only [Bool.false_eq_true, if_false]
    rw [ih fun d hd => h d (List.mem_cons_of_mem _ hd)]
    simp

theorem words_blank {b rest : Text} (h : ∀ c ∈ b, Blank c) : words [] (b ++ rest) = words [] rest := by
  induction b with
  | nil => simp
  | cons c b ih =>
    rw [List.cons_append, words, isSpace_iff.2 (h c List.mem_cons_self)]
    simpa using ih fun d hd => h d (List.mem_cons_of_mem _ hd)

theorem words_line {ws : List Text} {l : Text} (h : LineOf ws l) : words [] l = ws := by
  induction h with
  | blank hb =>
    have := words_blank (rest := []) hb
    rw [List.append_nil] at this
    rw [this]
    rfl
  | @last b w hb hw =>
    rw [words_blank hb, ← List.append_nil w, words_visible fun c hc => (hw.2 c hc).1, words]
    simp [hw.1]
  | @cons b w c ws l hb hw hc h ih =>
    rw [List.append_assoc, words_blank hb, words_visible fun c hc => (hw.2 c hc).1, List.nil_append, words,
      isSpace_iff.2 hc, if_pos rfl, if_neg hw.1, ih]

theorem line_clean {ws : List Text} {l : Text} (h : LineOf ws l) : ∀ c ∈ l, c ≠ '#' ∧ c ≠ '\n' := by
  induction h with
  | blank hb => exact fun c hc => blank_ne (hb c hc)
  | last hb hw =>
    intro c hc
    rcases List.mem_append.1 hc with hc | hc
    · exact blank_ne (hb c hc)
    · exact (hw.2 c hc).2
  | cons hb hw hc h ih =>
    intro d hd
    rcases List.mem_append.1 hd with hd | hd
    · rcases List.mem_append.1 hd with hd | hd
      · exact blank_ne (hb d hd)
      · exact (hw.2 d hd).2
    · rcases List.mem_cons.1 hd with rfl | hd
      · exact blank_ne hc
      · exact ih d hd

theorem LineOf.pad {c : Char} {ws : List Text} {l : Text} (hc : Blank c) (h : LineOf ws l) : LineOf ws (c :: l) := by
  have hb : ∀ {b : Text}, (∀ d ∈ b, Blank d) → ∀ d ∈ c :: b, Blank d := by
    intro b hb d hd
    rcases List.mem_cons.1 hd with rfl | hd
    · exact hc
    · exact hb d hd
  cases h with
  | blank h => exact .blank (hb h)
  | last h1 h2 => exact .last (hb h1) h2
  | cons h1 h2 h3 h4 => exact .cons (hb h1) h2 h3 h4

theorem line_words {cur l : Text} (hcur : ∀ c ∈ cur, ¬ Blank c ∧ c ≠ '#' ∧ c ≠ '\n')
    (hl : ∀ c ∈ l, c ≠ '#' ∧ c ≠ '\n') : LineOf (words cur l) (cur ++ l) := by
  induction l generalizing cur with
  | nil =>
    rw [words]
    split_ifs with h
    · subst h
      exact .blank (by simp)
    · have := LineOf.last (b := []) (by simp) (⟨h, hcur⟩ : Field_ cur)
      simpa using this
  | cons c t ih =>
    have ht : ∀ c ∈ t, c ≠ '#' ∧ c ≠ '\n' := fun d hd => hl d (List.mem_cons_of_mem _ hd)
    rw [words]
    by_cases hc : Blank c
    · rw [if_pos (isSpace_iff.2 hc)]
      have ih0 := ih (cur := []) (by simp) ht
      split_ifs with h
      · subst h
        exact LineOf.pad hc ih0
      · have := LineOf.cons (b := []) (by simp) (⟨h, hcur⟩ : Field_ cur) hc ih0
        simpa using this
    · rw [not_space hc]
      simp only [Bool.false_eq_true, if_false]
      have := ih (cur := cur ++ [c]) (by
        intro d hd
        rcases List.mem_append.1 hd with hd | hd
        · exact hcur d hd
        · rw [List.mem_singleton] at hd
          subst hd
          exact ⟨hc, hl d List.mem_cons_self⟩) ht
      simpa using this

theorem takeWhile_all {α : Type} {p : α → Bool} {l : List α} (h : ∀ a ∈ l, p a = true) : l.takeWhile p = l := by
  induction l with
  | nil => rfl
  | cons a l ih =>
    rw [List.takeWhile_cons_of_pos (h a List.mem_cons_self), ih fun b hb => h b (List.mem_cons_of_mem _ hb)]

theorem mem_takeWhile_imp {α : Type} {p : α → Bool} {l : List α} {a : α} (h : a ∈ l.takeWhile p) : p a = true := by
  induction l with
  | nil => simp at h
  | cons b l ih =>
    rw [List.takeWhile_cons] at h
    split_ifs at h with hb
    · rcases List.mem_cons.1 h with rfl | h
      · exact hb
      · exact ih h
    · simp at h

theorem row_words {ws : List Text} {l : Text} (h : RowLine ws l) :
    words [] (l.takeWhile (· ≠ '#')) = ws ∧ '\n' ∉ l := by
  cases h with
  | plain h =>
    have hc := line_clean h
    refine ⟨?_, fun hn => (hc _ hn).2 rfl⟩
    rw [takeWhile_all, words_line h]
    intro c hc'
    simpa using (hc c hc').1
  | comment h ht =>
    have hc := line_clean h
    refine ⟨?_, ?_⟩
    · rw [List.takeWhile_append_of_pos]
      · simpa using words_line h
      · intro c hc'
        simpa using (hc c hc').1
    · simp only [List.mem_append, List.mem_cons, not_or]
      exact ⟨fun hn => (hc _ hn).2 rfl, by decide, ht⟩

theorem words_row {l : Text} (hl : '\n' ∉ l) : RowLine (words [] (l.takeWhile (· ≠ '#'))) l := by
  have h1 : LineOf (words [] (l.takeWhile (· ≠ '#'))) (l.takeWhile (· ≠ '#')) := by
    have := line_words (cur := []) (l := l.takeWhile (· ≠ '#')) (by simp) (by
      intro c hc
      refine ⟨by simpa using mem_takeWhile_imp hc, ?_⟩
      rintro rfl
      exact hl (List.takeWhile_sublist _ |>.subset hc))
    simpa using this
  have h2 := List.takeWhile_append_dropWhile (p := fun c => decide (c ≠ '#')) (l := l)
  cases hd : l.dropWhile (fun c => decide (c ≠ '#')) with
  | nil =>
    rw [hd, List.append_nil] at h2
    have h3 := RowLine.plain h1
    rwa [h2] at h3 ⊢
  | cons c t =>
    have hc : c = '#' := by
      have := List.head?_dropWhile_not (p := fun c => decide (c ≠ '#')) l
      rw [hd] at this
      simpa using this
    rw [hd, hc] at h2
    have h3 := RowLine.comment (t := t) h1 (by
      intro hn
      apply hl
      rw [← h2]
      simp [hn])
    rw [h2] at h3
    exact h3

theorem rows_layout {rows : List (List Text)} {t : Text} (h : Layout rows t) : rowsOf t = rows := by
  unfold rowsOf
  induction h with
  | lastBlank h =>
    obtain ⟨h1, h2⟩ := row_words h
    rw [lines_end h2]
    simp only [List.nil_append, List.map_cons, List.map_nil, h1]
    simp
  | last h =>
    obtain ⟨h1, h2⟩ := row_words h
    rw [lines_end h2]
    simp only [List.nil_append, List.map_cons, List.map_nil, h1]
    simp
  | blank h ht ih =>
    obtain ⟨h1, h2⟩ := row_words h
    rw [lines_break h2]
    simp only [List.nil_append, List.map_cons, h1]
    simpa using ih
  | row h ht ih =>
    obtain ⟨h1, h2⟩ := row_words h
    rw [lines_break h2]
    simp only [List.nil_append, List.map_cons, h1]
    simpa using ih

theorem layout_aux {cur t : Text} (hcur : '\n' ∉ cur) :
    Layout (((lines cur t).map fun l => words [] (l.takeWhile (· ≠ '#'))).filter (· ≠ [])) (cur ++ t) := by
  induction t generalizing cur with
  | nil =>
    rw [lines, List.append_nil]
    have h := words_row hcur
    simp only [List.map_cons, List.map_nil]
    generalize words [] (cur.takeWhile (· ≠ '#')) = ws at h
    cases ws with
    | nil => simpa using Layout.lastBlank h
    | cons w ws => simpa using Layout.last h
  | cons c t ih =>
    rw [lines]
    split_ifs with hc
    · subst hc
      have h := words_row hcur
      have ih0 := ih (cur := []) (by simp)
      rw [List.nil_append] at ih0
      simp only [List.map_cons]
      generalize words [] (cur.takeWhile (· ≠ '#')) = ws at h
      cases ws with
      | nil => simpa using Layout.blank h ih0
      | cons w ws => simpa using Layout.row h ih0
    · have := ih (cur := cur ++ [c]) (by
        simp only [List.mem_append, List.mem_singleton, not_or]
        exact ⟨hcur, Ne.symm hc⟩)
      simpa using this

theorem layout_rows (t : Text) : Layout (rowsOf t) t := layout_aux (cur := []) (by simp)

/-! ## Numerals -/

theorem isDigit_iff {c : Char} : c.isDigit = true ↔ IsDigit c := by
  constructor
  · intro h
    simp only [Char.isDigit, Bool.and_eq_true, decide_eq_true_eq, ge_iff_le] at h
    have h1 : 48 ≤ c.toNat := h.1
    have h2 : c.toNat ≤ 57 := h.2
    have hc := Char.ofNat_toNat c
    generalize c.toNat = n at *
    subst hc
    interval_cases n <;> simp [IsDigit]
  · intro h
    simp only [IsDigit, List.mem_cons, List.not_mem_nil, or_false] at h
    rcases h with rfl | rfl | rfl | rfl | rfl | rfl | rfl | rfl | rfl | rfl <;> rfl

theorem digitsValue_cons (c : Char) (cs : Text) :
    digitsValue (c :: cs) = (c.toNat - 48) * 10 ^ cs.length + digitsValue cs := by
  unfold digitsValue
  rw [List.reverse_cons, List.map_append, Nat.ofDigits_append]
  simp [Nat.ofDigits_singleton]
  ring

theorem natFold {cs : Text} {acc n : ℕ} :
    cs.foldlM (fun n c => if c.isDigit then (.ok (10 * n + (c.toNat - 48)) : Py ℕ) else .error .valueError) acc = .ok n ↔
      (∀ c ∈ cs, IsDigit c) ∧ n = acc * 10 ^ cs.length + digitsValue cs := by
  induction cs generalizing acc with
  | nil =>
    simp only [List.foldlM_nil, pure_ok]
    simp [digitsValue, eq_comm]
  | cons c cs ih =>
    rw [List.foldlM_cons]
    by_cases hc : c.isDigit = true
    · rw [if_pos hc, ok_bind, ih, digitsValue_cons]
      simp only [List.forall_mem_cons, List.length_cons, isDigit_iff.1 hc, true_and]
      have : ∀ a b d : ℕ, (10 * acc + a) * b + d = acc * (b * 10) + (a * b + d) := fun a b d => by ring
      rw [pow_succ, this]
    · rw [if_neg hc]
      constructor
      · intro h
        cases h
      · rintro ⟨h, -⟩
        exact absurd (isDigit_iff.2 (h c List.mem_cons_self)) hc

theorem natTok_ok {cs : Text} {n : ℕ} :
    natTok cs = .ok n ↔ cs ≠ [] ∧ (∀ c ∈ cs, IsDigit c) ∧ n = digitsValue cs := by
  unfold natTok
  split_ifs with h
  · simp [h]
  · rw [natFold]
    simp [h]

theorem digit_ne {c : Char} (h : IsDigit c) : c ≠ '-' ∧ c ≠ '+' ∧ c ≠ '.' ∧ c ≠ 'e' ∧ c ≠ 'E' ∧ ¬ Blank c ∧ c ≠ '#' ∧
    c ≠ '\n' := by
  simp only [IsDigit, List.mem_cons, List.not_mem_nil, or_false] at h
  rcases h with rfl | rfl | rfl | rfl | rfl | rfl | rfl | rfl | rfl | rfl <;> simp [Blank]

theorem expTok_ok {cs : Text} (hm : ∀ c ∈ cs.head?, c = 'e' ∨ c = 'E') {z : ℤ} :
    expTok cs = .ok z ↔ ExpText cs z := by
  constructor
  · intro h
    unfold expTok at h
    split at h
    · cases h
      exact .none
    · obtain ⟨n, h1, h2⟩ := bind_ok.1 h
      obtain ⟨h3, h4, rfl⟩ := natTok_ok.1 h1
      rw [← pure_ok.1 h2]
      have := ExpText.some (hm _ rfl) .minus h3 h4
      simpa using this
    · obtain ⟨n, h1, h2⟩ := bind_ok.1 h
      obtain ⟨h3, h4, rfl⟩ := natTok_ok.1 h1
      rw [← pure_ok.1 h2]
      have := ExpText.some (hm _ rfl) .plus h3 h4
      simpa using this
    · obtain ⟨n, h1, h2⟩ := bind_ok.1 h
      obtain ⟨h3, h4, rfl⟩ := natTok_ok.1 h1
      rw [← pure_ok.1 h2]
      have := ExpText.some (hm _ rfl) .none h3 h4
      simpa using this
  · intro h
    cases h with
    | none => rfl
    | @some m s n g h1 h2 h3 h4 =>
      have hn := natTok_ok.2 ⟨h3, h4, rfl⟩
      cases h2 with
      | none =>
        rw [List.nil_append, expTok, hn]
        · simp
        · rintro t rfl
          exact (digit_ne (h4 _ List.mem_cons_self)).1 rfl
        · rintro t rfl
          exact (digit_ne (h4 _ List.mem_cons_self)).2.1 rfl
      | plus =>
        simp only [List.cons_append, List.nil_append, expTok, hn]
        simp
      | minus =>
        simp only [List.cons_append, List.nil_append, expTok, hn]
        simp

section
variable {K : Type} [Field K] [LinearOrder K] [IsStrictOrderedRing K] [FloorRing K]

/-- Numeral without sign. -/
def UNumeral (cs : Text) (x : K) : Prop :=
  ∃ a f b e z, (∀ c ∈ a, IsDigit c) ∧ FracText f b ∧ a ++ b ≠ [] ∧ ExpText e z ∧
    cs = a ++ f ++ e ∧ x = digitsValue (a ++ b) * 10 ^ (z - b.length)

theorem split_head {α : Type} {p : α → Bool} {a : List α} (ha : ∀ x ∈ a, p x = true) {b : List α}
    (hb : ∀ x ∈ b.head?, p x = false) : (a ++ b).takeWhile p = a ∧ (a ++ b).dropWhile p = b := by
  induction a with
  | nil =>
    cases b with
    | nil => exact ⟨rfl, rfl⟩
    | cons x b =>
      have := hb x rfl
      simp [this]
  | cons x a ih =>
    have h1 := ha x List.mem_cons_self
    obtain ⟨h2, h3⟩ := ih fun y hy => ha y (List.mem_cons_of_mem _ hy)
    simp [h1, h2, h3]

theorem head_dropWhile {α : Type} {p : α → Bool} {l : List α} : ∀ x ∈ (l.dropWhile p).head?, p x = false := by
  intro x hx
  have := List.head?_dropWhile_not (p := p) l
  rw [Option.mem_def] at hx
  rw [hx] at this
  simpa using this

theorem ufloatTok_ok {cs : Text} {x : K} : ufloatTok cs = .ok x ↔ UNumeral cs x := by
  unfold ufloatTok
  dsimp only
  have hval : ∀ (n k : ℕ) (z : ℤ), (n : K) / 10 ^ k * (10 : K) ^ z = n * 10 ^ (z - k) := by
    intro n k z
    rw [zpow_sub₀ (by norm_num), zpow_natCast]
    ring
  constructor
  · intro h
    obtain ⟨n, h1, h⟩ := bind_ok.1 h
    obtain ⟨z, h2, h⟩ := bind_ok.1 h
    obtain ⟨h3, h4, rfl⟩ := natTok_ok.1 h1
    have h5 := (expTok_ok (by
      intro c hc
      have := head_dropWhile c hc
      simp only [ne_eq, Bool.and_eq_false_iff, decide_eq_false_iff_not, not_not] at this
      exact this)).1 h2
    generalize hmant : cs.takeWhile (fun c => decide (c ≠ 'e') && decide (c ≠ 'E')) = mant at *
    have e1 := List.takeWhile_append_dropWhile (p := fun c => decide (c ≠ 'e') && decide (c ≠ 'E')) (l := cs)
    rw [hmant] at e1
    have e2 := List.takeWhile_append_dropWhile (p := fun c => decide (c ≠ '.')) (l := mant)
    rw [← pure_ok.1 h, hval]
    refine ⟨_, mant.dropWhile (fun c => decide (c ≠ '.')), _, _, z, fun c hc => h4 c (List.mem_append_left _ hc), ?_, h3, h5,
      by rw [e2, e1], rfl⟩
    cases hd : mant.dropWhile (fun c => decide (c ≠ '.')) with
    | nil => exact .none
    | cons c t =>
      have hc := head_dropWhile (p := fun c => decide (c ≠ '.')) (l := mant) c (by rw [hd]; rfl)
      simp only [ne_eq, decide_not, Bool.not_eq_false', decide_eq_true_eq] at hc
      subst hc
      refine .point fun c hc => h4 c (List.mem_append_right _ ?_)
      rw [hd]
      exact hc
  · rintro ⟨a, f, b, e, z, ha, hf, hab, he, rfl, rfl⟩
    have hfd : ∀ c ∈ f, c ≠ 'e' ∧ c ≠ 'E' := by
      cases hf with
      | none => simp
      | point hb =>
        intro c hc
        rcases List.mem_cons.1 hc with rfl | hc
        · decide
        · exact ⟨(digit_ne (hb c hc)).2.2.2.1, (digit_ne (hb c hc)).2.2.2.2.1⟩
    have heh : ∀ c ∈ e.head?, c = 'e' ∨ c = 'E' := by
      cases he with
      | none => simp
      | some hm _ _ _ =>
        intro c hc
        simp only [List.head?_cons, Option.mem_def, Option.some.injEq] at hc
        rwa [← hc]
    obtain ⟨s1, s2⟩ := split_head (p := fun c => decide (c ≠ 'e') && decide (c ≠ 'E')) (a := a ++ f) (b := e) (by
      intro c hc
      rcases List.mem_append.1 hc with hc | hc
      · simpa using ⟨(digit_ne (ha c hc)).2.2.2.1, (digit_ne (ha c hc)).2.2.2.2.1⟩
      · simpa using hfd c hc) (by
      intro c hc
      rcases heh c hc with rfl | rfl <;> rfl)
    obtain ⟨s3, s4⟩ := split_head (p := fun c => decide (c ≠ '.')) (a := a) (b := f) (by
      intro c hc
      simpa using (digit_ne (ha c hc)).2.2.1) (by
      cases hf with
      | none => simp
      | point hb => simp)
    have hfb : f.drop 1 = b := by cases hf <;> rfl
    have hbd : ∀ c ∈ b, IsDigit c := by
      cases hf with
      | none => simp
      | point hb => exact hb
    rw [s1, s2, s3, s4, hfb, natTok_ok.2 ⟨hab, by
      intro c hc
      rcases List.mem_append.1 hc with hc | hc
      · exact ha c hc
      · exact hbd c hc, rfl⟩, ok_bind, (expTok_ok heh).2 he, ok_bind, hval]
    rfl

theorem floatTok_ok {cs : Text} {x : K} : floatTok cs = .ok x ↔ Numeral cs x := by
  constructor
  · intro h
    unfold floatTok at h
    split at h
    · obtain ⟨y, h1, h2⟩ := bind_ok.1 h
      obtain ⟨a, f, b, e, z, ha, hf, hab, he, rfl, rfl⟩ := ufloatTok_ok.1 h1
      refine ⟨_, _, a, f, b, e, z, .minus, ha, hf, hab, he, by simp, ?_⟩
      rw [← pure_ok.1 h2]
      simp
    · obtain ⟨a, f, b, e, z, ha, hf, hab, he, rfl, rfl⟩ := ufloatTok_ok.1 h
      exact ⟨_, _, a, f, b, e, z, .plus, ha, hf, hab, he, by simp, by simp⟩
    · obtain ⟨a, f, b, e, z, ha, hf, hab, he, rfl, rfl⟩ := ufloatTok_ok.1 h
      exact ⟨_, _, a, f, b, e, z, .none, ha, hf, hab, he, by simp, by simp⟩
  · rintro ⟨s, g, a, f, b, e, z, hs, ha, hf, hab, he, rfl, rfl⟩
    have hu : ufloatTok (a ++ f ++ e) = .ok ((digitsValue (a ++ b) : K) * 10 ^ (z - b.length)) :=
      ufloatTok_ok.2 ⟨a, f, b, e, z, ha, hf, hab, he, rfl, rfl⟩
    cases hs with
    | none =>
      have hh : ∀ c ∈ (a ++ f ++ e).head?, c ≠ '-' ∧ c ≠ '+' := by
        intro c hc
        cases a with
        | cons d a =>
          simp only [List.cons_append, List.head?_cons, Option.mem_def, Option.some.injEq] at hc
          subst hc
          exact ⟨(digit_ne (ha _ List.mem_cons_self)).1, (digit_ne (ha _ List.mem_cons_self)).2.1⟩
        | nil =>
          cases hf with
          | none => exact absurd rfl hab
          | point hb =>
            simp only [List.nil_append, List.cons_append, List.head?_cons, Option.mem_def, Option.some.injEq] at hc
            subst hc
            decide
      rw [List.nil_append]
      rw [List.append_assoc] at hu hh
      rw [List.append_assoc]
      generalize a ++ (f ++ e) = cs at *
      rw [floatTok, hu]
      · simp
      · rintro t rfl
        exact (hh _ rfl).1 rfl
      · rintro t rfl
        exact (hh _ rfl).2 rfl
    | plus =>
      simp only [List.append_assoc, List.cons_append, List.nil_append] at hu ⊢
      rw [floatTok, hu]
      simp
    | minus =>
      simp only [List.append_assoc, List.cons_append, List.nil_append] at hu ⊢
      rw [floatTok, hu, ok_bind]
      simp [pure_ok]

end

/-! ## Writing -/

theorem digitChar {d : ℕ} (h : d < 10) : IsDigit (Char.ofNat (48 + d)) ∧ (Char.ofNat (48 + d)).toNat - 48 = d := by
  interval_cases d <;> simp [IsDigit]

theorem natText_ok (n : ℕ) : natText n ≠ [] ∧ (∀ c ∈ natText n, IsDigit c) ∧ digitsValue (natText n) = n := by
  unfold natText
  split_ifs with h
  · subst h
    refine ⟨by simp, by simp [IsDigit], rfl⟩
  · refine ⟨?_, ?_, ?_⟩
    · simpa using Nat.digits_ne_nil_iff_ne_zero.2 h
    · intro c hc
      obtain ⟨d, hd, rfl⟩ := List.mem_map.1 hc
      exact (digitChar (Nat.digits_lt_base (by norm_num) (List.mem_reverse.1 hd))).1
    · unfold digitsValue
      rw [← List.map_reverse, List.reverse_reverse, List.map_map]
      have : (Nat.digits 10 n).map ((fun c : Char => c.toNat - '0'.toNat) ∘ fun d => Char.ofNat (48 + d)) =
          Nat.digits 10 n := by
        conv_rhs => rw [← List.map_id (Nat.digits 10 n)]
        exact List.map_congr_left fun d hd => (digitChar (Nat.digits_lt_base (by norm_num) hd)).2
      rw [this, Nat.ofDigits_digits]

theorem digitsValue_append (a b : Text) : digitsValue (a ++ b) = digitsValue a * 10 ^ b.length + digitsValue b := by
  unfold digitsValue
  rw [List.reverse_append, List.map_append, Nat.ofDigits_append]
  simp
  ring

section
variable {K : Type} [Field K] [LinearOrder K] [IsStrictOrderedRing K] [FloorRing K]

theorem roundEven_near {x : K} (h : 0 ≤ x) : |x - (roundEven x : K)| ≤ 1 / 2 := by
  have h0 : 0 ≤ ⌊x⌋ := Int.floor_nonneg.2 h
  have hf : ((⌊x⌋.toNat : ℕ) : K) = (⌊x⌋ : K) := by
    conv_rhs => rw [← Int.toNat_of_nonneg h0]
    rw [Int.cast_natCast]
  have h1 := Int.floor_le x
  have h2 := Int.lt_floor_add_one x
  unfold roundEven
  dsimp only
  rw [hf]
  rw [abs_le]
  split_ifs with a b c
  · rw [hf]
    constructor <;> linarith
  · push_cast
    rw [hf]
    constructor <;> linarith
  · rw [hf]
    constructor <;> linarith
  · push_cast
    rw [hf]
    constructor <;> linarith

theorem roundEven_nat (n : ℕ) : roundEven (n : K) = n := by
  unfold roundEven
  simp

/-- The number `'%.2f'` writes. -/
def round2 (x : K) : K := (if x < 0 then -1 else 1) * (roundEven (|x| * 100) : K) / 100

theorem fixed2_numeral (x : K) : Numeral (fixed2 x) (round2 x) := by
  obtain ⟨h1, h2, h3⟩ := natText_ok (roundEven (|x| * 100) / 100)
  unfold fixed2 round2
  generalize roundEven (|x| * 100) = n at *
  dsimp only
  obtain ⟨d1, d2⟩ := digitChar (d := n % 100 / 10) (by omega)
  obtain ⟨d3, d4⟩ := digitChar (d := n % 10) (by omega)
  have hv : digitsValue (natText (n / 100) ++ [Char.ofNat (48 + n % 100 / 10), Char.ofNat (48 + n % 10)]) = n := by
    rw [digitsValue_append, h3, digitsValue_cons, digitsValue_cons, d2, d4]
    simp [digitsValue]
    omega
  have hfr : FracText ('.' :: [Char.ofNat (48 + n % 100 / 10), Char.ofNat (48 + n % 10)])
      [Char.ofNat (48 + n % 100 / 10), Char.ofNat (48 + n % 10)] := by
    refine .point ?_
    intro c hc
    simp only [List.mem_cons, List.not_mem_nil, or_false] at hc
    rcases hc with rfl | rfl
    · exact d1
    · exact d3
  have hs : ∃ g : ℤ, SignText (if x < 0 then ['-'] else []) g ∧ (g : K) = if x < 0 then -1 else 1 := by
    split_ifs
    · exact ⟨-1, .minus, by simp⟩
    · exact ⟨1, .none, by simp⟩
  obtain ⟨g, hs, hg⟩ := hs
  refine ⟨_, g, natText (n / 100), _, _, [], 0, hs, h2, hfr, ?_, .none, ?_, ?_⟩
  · simp
  · simp
  · rw [hv, hg]
    simp only [List.length_cons, List.length_nil]
    have : (10 : K) ^ ((0 : ℤ) - ((0 + 1 + 1 : ℕ) : ℤ)) = 1 / 100 := by
      norm_num
    rw [this]
    ring

theorem round2_near (x : K) : Nearest100 x (round2 x) := by
  have h := roundEven_near (x := |x| * 100) (by positivity)
  unfold round2
  generalize roundEven (|x| * 100) = n at *
  constructor
  · refine ⟨(if x < 0 then -1 else 1) * n, ?_⟩
    split_ifs <;> push_cast <;> ring
  · rw [abs_le] at h ⊢
    split_ifs with hx
    · rw [abs_of_neg hx] at h
      constructor <;> linarith [h.1, h.2]
    · rw [abs_of_nonneg (not_lt.1 hx)] at h
      constructor <;> linarith [h.1, h.2]

theorem round2_exact (x : K) : round2 x = x ↔ ∃ z : ℤ, x = z / 100 := by
  constructor
  · intro h
    obtain ⟨z, hz⟩ := (round2_near x).1
    exact ⟨z, by rw [← h, hz]⟩
  · rintro ⟨z, rfl⟩
    unfold round2
    have : |(z : K) / 100| * 100 = (z.natAbs : K) := by
      rw [abs_div, Nat.cast_natAbs]
      simp
    rw [this, roundEven_nat, Nat.cast_natAbs]
    split_ifs with h
    · have : z < 0 := by
        by_contra hz
        have : (0 : K) ≤ z := by exact_mod_cast not_lt.1 hz
        have := div_nonneg this (by norm_num : (0 : K) ≤ 100)
        linarith
      rw [abs_of_neg this]
      push_cast
      ring
    · have : 0 ≤ z := by
        by_contra hz
        have : (z : K) < 0 := by exact_mod_cast not_le.1 hz
        exact h (div_neg_of_neg_of_pos this (by norm_num))
      rw [abs_of_nonneg this]
      ring

theorem round2_tie (x : K) (h : |x - round2 x| = 1 / 200) : ∃ k : ℤ, round2 x = 2 * k / 100 := by
  have h0 : 0 ≤ ⌊|x| * 100⌋ := Int.floor_nonneg.2 (by positivity)
  have hf : ((⌊|x| * 100⌋.toNat : ℕ) : K) = (⌊|x| * 100⌋ : K) := by
    conv_rhs => rw [← Int.toNat_of_nonneg h0]
    rw [Int.cast_natCast]
  have h1 := Int.floor_le (|x| * 100)
  have h2 := Int.lt_floor_add_one (|x| * 100)
  have hr : |x| * 100 - (roundEven (|x| * 100) : K) = 1 / 2 ∨ |x| * 100 - (roundEven (|x| * 100) : K) = -(1 / 2) := by
    have e : |x - round2 x| = |(|x| * 100 - (roundEven (|x| * 100) : K))| / 100 := by
      unfold round2
      split_ifs with hx
      · rw [abs_of_neg hx]
        have : x - -1 * (roundEven (-x * 100) : K) / 100 = -(-x * 100 - (roundEven (-x * 100) : K)) / 100 := by ring
        rw [this, abs_div, abs_neg]
        simp
      · rw [abs_of_nonneg (not_lt.1 hx)]
        have : x - 1 * (roundEven (x * 100) : K) / 100 = (x * 100 - (roundEven (x * 100) : K)) / 100 := by ring
        rw [this, abs_div]
        simp
    rw [h] at e
    have : |(|x| * 100 - (roundEven (|x| * 100) : K))| = 1 / 2 := by linarith
    rcases abs_choice (|x| * 100 - (roundEven (|x| * 100) : K)) with h3 | h3 <;> rw [h3] at this
    · exact .inl this
    · exact .inr (by linarith)
  have heven : ∃ m : ℕ, roundEven (|x| * 100) = 2 * m := by
    unfold roundEven at hr ⊢
    dsimp only at hr ⊢
    rw [hf] at hr ⊢
    split_ifs at hr ⊢ with a b c
    · rw [hf] at hr
      rcases hr with hr | hr <;> linarith
    · push_cast at hr
      rw [hf] at hr
      rcases hr with hr | hr <;> linarith
    · exact ⟨⌊|x| * 100⌋.toNat / 2, by omega⟩
    · exact ⟨(⌊|x| * 100⌋.toNat + 1) / 2, by omega⟩
  obtain ⟨m, hm⟩ := heven
  unfold round2
  rw [hm]
  refine ⟨(if x < 0 then -1 else 1) * m, ?_⟩
  split_ifs <;> push_cast <;> ring

theorem fmtD_numeral (z : ℤ) : Numeral (fmtD z) (z : K) := by
  obtain ⟨h1, h2, h3⟩ := natText_ok z.natAbs
  have hs : ∃ g : ℤ, SignText (if z < 0 then ['-'] else []) g ∧ g * z.natAbs = z := by
    split_ifs with h
    · exact ⟨-1, .minus, by omega⟩
    · exact ⟨1, .none, by omega⟩
  obtain ⟨g, hs, hg⟩ := hs
  refine ⟨_, g, natText z.natAbs, _, _, [], 0, hs, h2, .none, by simpa using h1, .none, by simp [fmtD], ?_⟩
  rw [List.append_nil, h3]
  have : (z : K) = ((g * z.natAbs : ℤ) : K) := by rw [hg]
  rw [this]
  push_cast
  simp

theorem numeral_field {cs : Text} {x : K} (h : Numeral cs x) : Field_ cs := by
  obtain ⟨s, g, a, f, b, e, z, hs, ha, hf, hab, he, rfl, rfl⟩ := h
  have hd : ∀ {l : Text}, (∀ c ∈ l, IsDigit c) → ∀ c ∈ l, ¬ Blank c ∧ c ≠ '#' ∧ c ≠ '\n' :=
    fun h c hc => (digit_ne (h c hc)).2.2.2.2.2
  have hsg : ∀ {s : Text} {g}, SignText s g → ∀ c ∈ s, ¬ Blank c ∧ c ≠ '#' ∧ c ≠ '\n' := by
    intro s g hs
    cases hs <;> simp [Blank]
  constructor
  · intro h0
    simp only [List.append_eq_nil_iff] at h0
    obtain ⟨⟨⟨-, rfl⟩, rfl⟩, -⟩ := h0
    cases hf
    exact hab rfl
  · intro c hc
    simp only [List.mem_append] at hc
    rcases hc with ((hc | hc) | hc) | hc
    · exact hsg hs c hc
    · exact hd ha c hc
    · cases hf with
      | none => simp at hc
      | point hb =>
        rcases List.mem_cons.1 hc with rfl | hc
        · simp [Blank]
        · exact hd hb c hc
    · cases he with
      | none => simp at hc
      | some hm hs hn hd' =>
        rcases List.mem_cons.1 hc with rfl | hc
        · rcases hm with rfl | rfl <;> simp [Blank]
        · rcases List.mem_append.1 hc with hc | hc
          · exact hsg hs c hc
          · exact hd hd' c hc

end

/-- A row written with blanks between padded fields. -/
theorem line_join {α : Type} {fmt tok : α → Text} (hf : ∀ x, ∃ n, fmt x = List.replicate n ' ' ++ tok x)
    (ht : ∀ x, Field_ (tok x)) : ∀ row : List α, LineOf (row.map tok) ([' '].intercalate (row.map fmt)) := by
  have hb : ∀ n, ∀ c ∈ List.replicate n ' ', Blank c := by
    intro n c hc
    rw [List.eq_of_mem_replicate hc]
    simp [Blank]
  intro row
  induction row with
  | nil => exact .blank (by simp [List.intercalate])
  | cons x row ih =>
    obtain ⟨n, hn⟩ := hf x
    cases row with
    | nil =>
      have := LineOf.last (hb n) (ht x)
      simpa [List.intercalate, hn] using this
    | cons y row =>
      have := LineOf.cons (hb n) (ht x) (by simp [Blank] : Blank ' ') ih
      simpa [List.intercalate, List.intersperse, hn] using this

theorem savetxt_layout {α : Type} {fmt tok : α → Text} (hf : ∀ x, ∃ n, fmt x = List.replicate n ' ' ++ tok x)
    (ht : ∀ x, Field_ (tok x)) {t : List (List α)} (hne : ∀ r ∈ t, r ≠ []) :
    Layout (t.map (List.map tok)) (savetxt fmt t) := by
  induction t with
  | nil => exact .lastBlank (.plain (.blank (by simp [savetxt])))
  | cons r t ih =>
    have hr := line_join hf ht r
    have ih := ih fun q hq => hne q (List.mem_cons_of_mem _ hq)
    have h0 := hne r List.mem_cons_self
    obtain ⟨x, r, rfl⟩ := List.exists_cons_of_ne_nil h0
    have := Layout.row (RowLine.plain hr) ih
    simpa [savetxt] using this

theorem loadtxt_ok {α : Type} {conv : Text → Py α} {text : Text} {t : List (List α)} :
    loadtxt conv text = .ok t ↔ (∃ rows, Layout rows text ∧
      List.Forall₂ (List.Forall₂ fun w x => conv w = .ok x) rows t) ∧ ∀ r ∈ t, r.length = (t.headD []).length := by
  have hm : ∀ rows : List (List Text), (rows.mapM fun r => r.mapM conv) = .ok t ↔
      List.Forall₂ (List.Forall₂ fun w x => conv w = .ok x) rows t := by
    intro rows
    rw [mapM_ok]
    have : (fun (r : List Text) (l : List α) => r.mapM conv = .ok l) =
        List.Forall₂ fun w x => conv w = .ok x := by
      funext r l
      exact propext mapM_ok
    rw [this]
  unfold loadtxt
  dsimp only
  rw [bind_ok]
  constructor
  · rintro ⟨t', h1, h2⟩
    split_ifs at h2 with hall
    · have := pure_ok.1 h2
      subst this
      refine ⟨⟨_, layout_rows text, (hm _).1 h1⟩, ?_⟩
      simpa using hall
  · rintro ⟨⟨rows, h1, h2⟩, h3⟩
    refine ⟨t, ?_, ?_⟩
    · rw [rows_layout h1]
      exact (hm _).2 h2
    · rw [if_pos (by simpa using h3)]
      rfl

end Files
end SolidsPy
