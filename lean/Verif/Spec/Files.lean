import Mathlib.Algebra.Field.Defs
import Mathlib.Data.Nat.Digits.Defs

/-! # What a table of numbers in a text file is -/

namespace SolidsPy
namespace Spec

/-- Blank characters. -/
def Blank (c : Char) : Prop := c ∈ [' ', '\t', '\r', '\x0b', '\x0c']

/-- A field: visible characters, none of which starts a comment. -/
def Field_ (w : List Char) : Prop := w ≠ [] ∧ ∀ c ∈ w, ¬ Blank c ∧ c ≠ '#' ∧ c ≠ '\n'

/-- `ws` are the fields of the line `l`: fields separated by at least one blank, with any blanks around. -/
inductive LineOf : List (List Char) → List Char → Prop
  | blank {b} (hb : ∀ c ∈ b, Blank c) : LineOf [] b
  | last {b w} (hb : ∀ c ∈ b, Blank c) (hw : Field_ w) : LineOf [w] (b ++ w)
  | cons {b w c ws l} (hb : ∀ c ∈ b, Blank c) (hw : Field_ w) (hc : Blank c) (h : LineOf ws l) :
      LineOf (w :: ws) (b ++ w ++ c :: l)

/-- The same with an optional comment at the end of the line. -/
inductive RowLine : List (List Char) → List Char → Prop
  | plain {ws l} (h : LineOf ws l) : RowLine ws l
  | comment {ws l t} (h : LineOf ws l) (ht : '\n' ∉ t) : RowLine ws (l ++ '#' :: t)

/-- `rows` are the rows of the text `t`: one line per row, with empty or comment lines anywhere; the
newline of the last line is optional. -/
inductive Layout : List (List (List Char)) → List Char → Prop
  | lastBlank {l} (h : RowLine [] l) : Layout [] l
  | last {w ws l} (h : RowLine (w :: ws) l) : Layout [w :: ws] l
  | blank {rows l t} (h : RowLine [] l) (ht : Layout rows t) : Layout rows (l ++ '\n' :: t)
  | row {w ws rows l t} (h : RowLine (w :: ws) l) (ht : Layout rows t) : Layout ((w :: ws) :: rows) (l ++ '\n' :: t)

/-- A decimal digit. -/
def IsDigit (c : Char) : Prop := c ∈ ['0', '1', '2', '3', '4', '5', '6', '7', '8', '9']

/-- The number written by a string of digits, most significant first. -/
def digitsValue (cs : List Char) : ℕ := Nat.ofDigits 10 (cs.reverse.map fun c => c.toNat - '0'.toNat)

/-- Optional sign. -/
inductive SignText : List Char → ℤ → Prop
  | none : SignText [] 1
  | plus : SignText ['+'] 1
  | minus : SignText ['-'] (-1)

/-- Optional fraction: its digits. -/
inductive FracText : List Char → List Char → Prop
  | none : FracText [] []
  | point {b} (hb : ∀ c ∈ b, IsDigit c) : FracText ('.' :: b) b

/-- Optional power of ten. -/
inductive ExpText : List Char → ℤ → Prop
  | none : ExpText [] 0
  | some {m s n g} (hm : m = 'e' ∨ m = 'E') (hs : SignText s g) (hn : n ≠ []) (hd : ∀ c ∈ n, IsDigit c) :
      ExpText (m :: (s ++ n)) (g * digitsValue n)

/-- `cs` is a decimal numeral for `x`. -/
def Numeral {K : Type} [Field K] (cs : List Char) (x : K) : Prop :=
  ∃ s g a f b e z, SignText s g ∧ (∀ c ∈ a, IsDigit c) ∧ FracText f b ∧ a ++ b ≠ [] ∧ ExpText e z ∧
    cs = s ++ a ++ f ++ e ∧ x = g * (digitsValue (a ++ b) * 10 ^ (z - b.length))

/-- `y` is a nearest multiple of 1/100 to `x`. -/
def Nearest100 {K : Type} [Field K] [LinearOrder K] (x y : K) : Prop :=
  (∃ z : ℤ, y = z / 100) ∧ |x - y| ≤ 1 / 200

end Spec
end SolidsPy
