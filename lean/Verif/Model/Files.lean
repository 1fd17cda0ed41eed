import Verif.Basic
import Mathlib.Data.Nat.Digits.Defs

/-!
# Model of the input and echo files

`readin` and `echomod` of `/repo/solidspy/preprocesor.py`, with the parts of `np.loadtxt` and `np.savetxt` they use.
A text is a list of characters; a file system maps names to texts.

Simplifications: a line ends with `\n` (`\r` counts as blank, so `\r\n` works); the words `inf` and `nan` are not
numbers here; a decimal numeral stands for the exact rational it denotes (no rounding to a float).
-/

namespace SolidsPy
namespace Files

abbrev Text := List Char

/-- Characters that separate the fields of a line (`str.split()`). -/
def isSpace (c : Char) : Bool := c == ' ' || c == '\t' || c == '\r' || c == '\x0b' || c == '\x0c'

/-- Lines of a text; `cur` is the line being read. -/
def lines : Text → Text → List Text
  | cur, [] => [cur]
  | cur, c :: t => if c = '\n' then cur :: lines [] t else lines (cur ++ [c]) t

/-- Fields of a line; `cur` is the field being read. -/
def words : Text → Text → List Text
  | cur, [] => if cur = [] then [] else [cur]
  | cur, c :: t =>
    if isSpace c then (if cur = [] then words [] t else cur :: words [] t) else words (cur ++ [c]) t

/-- What `np.loadtxt` (default `comments='#'`, white space as delimiter) takes as rows: lines are cut at `#`, split, and
dropped when nothing is left. -/
def rowsOf (text : Text) : List (List Text) :=
  ((lines [] text).map fun l => words [] (l.takeWhile (· ≠ '#'))).filter (· ≠ [])

/-- Unsigned integer numeral. -/
def natTok (cs : Text) : Py ℕ :=
  if cs = [] then .error .valueError
  else cs.foldlM (fun n c => if c.isDigit then .ok (10 * n + (c.toNat - 48)) else .error .valueError) 0

/-- Exponent part of a numeral: empty, or a mark, an optional sign and digits. -/
def expTok : Text → Py ℤ
  | [] => .ok 0
  | _ :: '-' :: t => do
    let n ← natTok t
    pure (-(n : ℤ))
  | _ :: '+' :: t => do
    let n ← natTok t
    pure (n : ℤ)
  | _ :: t => do
    let n ← natTok t
    pure (n : ℤ)

section
variable {K : Type} [Field K] [LinearOrder K] [FloorRing K]

/-- Numeral without sign: digits, a point, digits, an exponent. -/
def ufloatTok (cs : Text) : Py K := do
  let mant := cs.takeWhile fun c => c ≠ 'e' && c ≠ 'E'
  let ex := cs.dropWhile fun c => c ≠ 'e' && c ≠ 'E'
  let whole := mant.takeWhile (· ≠ '.')
  let frac := (mant.dropWhile (· ≠ '.')).drop 1
  let n ← natTok (whole ++ frac)
  let e ← expTok ex
  pure ((n : K) / 10 ^ frac.length * (10 : K) ^ e)

/-- `float(token)`. -/
def floatTok : Text → Py K
  | '-' :: t => do
    let x ← ufloatTok t
    pure (-x)
  | '+' :: t => ufloatTok t
  | t => ufloatTok t

/-- `int(float(token))`, the conversion of `np.loadtxt(..., dtype=int)`: truncation towards zero. -/
def intTok (cs : Text) : Py ℤ := do
  let x ← floatTok (K := ℚ) cs
  pure (if 0 ≤ x then ⌊x⌋ else ⌈x⌉)

/-- `np.loadtxt(name, ndmin=2, dtype=...)` with the conversion `conv` of one token.  All rows must have
as many fields as the first. -/
def loadtxt {α : Type} (conv : Text → Py α) (text : Text) : Py (List (List α)) := do
  let rows := rowsOf text
  let t ← rows.mapM fun r => r.mapM conv
  if t.all fun r => r.length = (t.headD []).length then pure t else throw .valueError

/-- Files by name. -/
abbrev Fs := Text → Option Text

/-- Text of a file. -/
def open_ (fs : Fs) (name : Text) : Py Text :=
  match fs name with
  | some t => .ok t
  | none => .error .fileNotFound

/-- `readin(folder)`.  `/repo/solidspy/preprocesor.py:14-21`. -/
def readin (fs : Fs) (folder : Text) : Py (Table K × Table K × List (List ℤ) × Table K) := do
  let tn ← open_ fs (folder ++ "nodes.txt".toList)
  let nodes ← loadtxt floatTok tn
  let tm ← open_ fs (folder ++ "mater.txt".toList)
  let mats ← loadtxt floatTok tm
  let te ← open_ fs (folder ++ "eles.txt".toList)
  let elements ← loadtxt intTok te
  let tl ← open_ fs (folder ++ "loads.txt".toList)
  let loads ← loadtxt floatTok tl
  pure (nodes, mats, elements, loads)

/-- Decimal digits of a natural number. -/
def natText (n : ℕ) : Text :=
  if n = 0 then ['0'] else (Nat.digits 10 n).reverse.map fun d => Char.ofNat (48 + d)

/-- Round a nonnegative number to an integer, ties to even. -/
def roundEven (x : K) : ℕ :=
  let f := ⌊x⌋.toNat
  let r := x - f
  if r < 1 / 2 then f else if 1 / 2 < r then f + 1 else if f % 2 = 0 then f else f + 1

/-- `'%.2f' % x`. -/
def fixed2 (x : K) : Text :=
  let n := roundEven (|x| * 100)
  (if x < 0 then ['-'] else []) ++ natText (n / 100) ++ '.' :: [Char.ofNat (48 + n % 100 / 10), Char.ofNat (48 + n % 10)]

/-- `'%5.2f' % x`: padded with blanks on the left to five characters. -/
def fmt52 (x : K) : Text :=
  let s := fixed2 x
  List.replicate (5 - s.length) ' ' ++ s

/-- `'%d' % z`. -/
def fmtD (z : ℤ) : Text := (if z < 0 then ['-'] else []) ++ natText z.natAbs

/-- `np.savetxt(name, table, fmt, delimiter=' ')`. -/
def savetxt {α : Type} (fmt : α → Text) (t : List (List α)) : Text :=
  t.flatMap fun row => [' '].intercalate (row.map fmt) ++ ['\n']

/-- A file is written. -/
def write (fs : Fs) (name text : Text) : Fs := fun n => if n = name then some text else fs n

/-- `echomod(nodes, mats, elements, loads, folder)`.  `/repo/solidspy/preprocesor.py:24-29`. -/
def echomod (fs : Fs) (nodes mats : Table K) (elements : List (List ℤ)) (loads : Table K) (folder : Text) : Fs :=
  let fs := write fs (folder ++ "KNODES.txt".toList) (savetxt fmt52 nodes)
  let fs := write fs (folder ++ "KMATES.txt".toList) (savetxt fmt52 mats)
  let fs := write fs (folder ++ "KELEMS.txt".toList) (savetxt fmtD elements)
  write fs (folder ++ "KLOADS.txt".toList) (savetxt fmt52 loads)

end

end Files
end SolidsPy
