import Verif.Model.Bytes
/-
The Go standard library functions used by the modelled code, restated on byte lists.
These are part of the trusted base (DESIGN.md section 1).
-/
namespace Verif

/-- Length in bytes of the white space rune (unicode.IsSpace) the string starts with, 0 if none.
Go: `unicode.IsSpace` over `utf8.DecodeRune`: \t \n \v \f \r space U+0085 U+00A0 U+1680
U+2000-U+200A U+2028 U+2029 U+202F U+205F U+3000. -/
def spaceLen : Bytes → Nat
  | [] => 0
  | c :: cs =>
    if (9 ≤ c && c ≤ 13) || c = 32 then 1
    else if c = 0xC2 then
      match cs with
      | d :: _ => if d = 0x85 || d = 0xA0 then 2 else 0
      | [] => 0
    else if c = 0xE1 then
      match cs with
      | d :: e :: _ => if d = 0x9A && e = 0x80 then 3 else 0
      | _ => 0
    else if c = 0xE2 then
      match cs with
      | d :: e :: _ =>
        if d = 0x80 && ((0x80 ≤ e && e ≤ 0x8A) || e = 0xA8 || e = 0xA9 || e = 0xAF) then 3
        else if d = 0x81 && e = 0x9F then 3 else 0
      | _ => 0
    else if c = 0xE3 then
      match cs with
      | d :: e :: _ => if d = 0x80 && e = 0x80 then 3 else 0
      | _ => 0
    else 0

/-- The same for the *reversed* string: length of the white space rune the string ends with.
Go: `unicode.IsSpace` over `utf8.DecodeLastRuneInString`. -/
def spaceLenRev : Bytes → Nat
  | [] => 0
  | c :: cs =>
    if (9 ≤ c && c ≤ 13) || c = 32 then 1
    else
      match cs with
      | [] => 0
      | d :: ds =>
        if d = 0xC2 then (if c = 0x85 || c = 0xA0 then 2 else 0)
        else
          match ds with
          | [] => 0
          | e :: _ =>
            if e = 0xE1 then (if d = 0x9A && c = 0x80 then 3 else 0)
            else if e = 0xE2 then
              (if d = 0x80 && ((0x80 ≤ c && c ≤ 0x8A) || c = 0xA8 || c = 0xA9 || c = 0xAF) then 3
               else if d = 0x81 && c = 0x9F then 3 else 0)
            else if e = 0xE3 then (if d = 0x80 && c = 0x80 then 3 else 0)
            else 0

/-- Strip space runes recognised by `len` from the front, as long as there are any. -/
def trimFront (len : Bytes → Nat) (s : Bytes) : Bytes :=
  if _h : 0 < len s ∧ 0 < s.length then trimFront len (s.drop (len s)) else s
termination_by s.length
decreasing_by simp; omega

/-- Go `strings.TrimSpace`. -/
def trimSpace (s : Bytes) : Bytes :=
  (trimFront spaceLenRev (trimFront spaceLen s).reverse).reverse

/-- Go `strings.Split(s, sep)` for a one-byte separator. Never empty. -/
def splitOn (sep : UInt8) : Bytes → List Bytes
  | [] => [[]]
  | c :: cs =>
    if c = sep then [] :: splitOn sep cs
    else
      match splitOn sep cs with
      | [] => [[c]]
      | p :: ps => (c :: p) :: ps

/-- Go `strings.HasPrefix(s, p)`. -/
def hasPrefix (s p : Bytes) : Bool := p.isPrefixOf s

/-- Go `strings.HasSuffix(s, p)`. -/
def hasSuffix (s p : Bytes) : Bool := p.isSuffixOf s

/-- Go `strings.Index(s, sub)`: offset of the first occurrence. -/
def indexOf (sub : Bytes) : Bytes → Option Nat
  | [] => if sub.isEmpty then some 0 else none
  | c :: cs => if sub.isPrefixOf (c :: cs) then some 0 else (indexOf sub cs).map (· + 1)

/-- ASCII lower case of one byte. -/
def lowerByte (c : UInt8) : UInt8 := if 65 ≤ c && c ≤ 90 then c + 32 else c

/-- Go `strings.EqualFold(s, t)` for `t` made of ASCII letters without non-ASCII simple folds
(the only use is "<!DOCTYPE"). -/
def equalFoldASCII (s t : Bytes) : Bool := s.map lowerByte == t.map lowerByte

/-- Decimal value of a digit string. -/
def digitsVal (s : Bytes) : Nat := s.foldl (fun n c => n * 10 + (c.toNat - 48)) 0

/-- Is the byte an ASCII digit. -/
def isDigit (c : UInt8) : Bool := 48 ≤ c && c ≤ 57

/-- `strconv.Atoi(s)` with the error dropped (`n, _ = strconv.Atoi(s)`): 0 on a syntax error,
saturated to the 64-bit range on a range error. The digits are read from left to right, and a
range error is reported as soon as they exceed 64 bits, before a later byte that is no digit is
seen. -/
def atoi (s : Bytes) : Int :=
  let (neg, ds) : Bool × Bytes :=
    match s with
    | [] => (false, [])
    | c :: cs => if c = c!"-" then (true, cs) else if c = c!"+" then (false, cs) else (false, c :: cs)
  let n := digitsVal (ds.takeWhile isDigit)
  if ds.isEmpty || (!ds.all isDigit && n < 2 ^ 64) then 0
  else
    if neg then (if n > 2 ^ 63 then -(2 ^ 63 : Int) else -(n : Int))
    else (if n ≥ 2 ^ 63 then (2 ^ 63 - 1 : Int) else (n : Int))

/-- Decimal digits of a natural number (Go `%d`). -/
def natDec (n : Nat) : Bytes :=
  if n < 10 then [UInt8.ofNat (48 + n)] else natDec (n / 10) ++ [UInt8.ofNat (48 + n % 10)]

/-- Go `fmt.Sprintf("%d", i)`. -/
def intDec (i : Int) : Bytes :=
  match i with
  | Int.ofNat n => natDec n
  | Int.negSucc n => c!"-" :: natDec (n + 1)

/-- Is `b` a UTF-8 continuation byte. -/
def isCont (b : UInt8) : Bool := 0x80 ≤ b && b ≤ 0xBF

/-- Go `utf8.DecodeRune` on a non-empty string: the rune and the remaining bytes. Invalid
encodings give U+FFFD and consume one byte. -/
def decodeRune (c : UInt8) (cs : Bytes) : Nat × Bytes :=
  if c < 0x80 then (c.toNat, cs)
  else if 0xC2 ≤ c && c ≤ 0xDF then
    match cs with
    | d :: r => if isCont d then ((c.toNat - 0xC0) * 64 + (d.toNat - 0x80), r) else (0xFFFD, cs)
    | [] => (0xFFFD, cs)
  else if 0xE0 ≤ c && c ≤ 0xEF then
    match cs with
    | d :: e :: r =>
      if (if c = 0xE0 then 0xA0 ≤ d && d ≤ 0xBF else if c = 0xED then 0x80 ≤ d && d ≤ 0x9F else isCont d)
          && isCont e then
        ((c.toNat - 0xE0) * 4096 + (d.toNat - 0x80) * 64 + (e.toNat - 0x80), r)
      else (0xFFFD, cs)
    | _ => (0xFFFD, cs)
  else if 0xF0 ≤ c && c ≤ 0xF4 then
    match cs with
    | d :: e :: f :: r =>
      if (if c = 0xF0 then 0x90 ≤ d && d ≤ 0xBF else if c = 0xF4 then 0x80 ≤ d && d ≤ 0x8F else isCont d)
          && isCont e && isCont f then
        ((c.toNat - 0xF0) * 262144 + (d.toNat - 0x80) * 4096 + (e.toNat - 0x80) * 64
          + (f.toNat - 0x80), r)
      else (0xFFFD, cs)
    | _ => (0xFFFD, cs)
  else (0xFFFD, cs)

theorem decodeRune_length (c : UInt8) (cs : Bytes) : (decodeRune c cs).2.length ≤ cs.length := by
  unfold decodeRune
  repeat' split
  all_goals first | omega | (simp only [List.length_cons]; omega) | simp

/-- Go `[]rune(s)`, also the runes visited by `for _, r := range s`. -/
def runes (s : Bytes) : List Nat :=
  match s with
  | [] => []
  | c :: cs => (decodeRune c cs).1 :: runes (decodeRune c cs).2
termination_by s.length
decreasing_by have := decodeRune_length c cs; simp; omega

/-- Go `strings.Builder.WriteRune` / `utf8.AppendRune` for a valid rune. -/
def encodeRune (r : Nat) : Bytes :=
  if r < 0x80 then [UInt8.ofNat r]
  else if r < 0x800 then [UInt8.ofNat (0xC0 + r / 64), UInt8.ofNat (0x80 + r % 64)]
  else if r < 0x10000 then
    [UInt8.ofNat (0xE0 + r / 4096), UInt8.ofNat (0x80 + r / 64 % 64), UInt8.ofNat (0x80 + r % 64)]
  else
    [UInt8.ofNat (0xF0 + r / 262144), UInt8.ofNat (0x80 + r / 4096 % 64),
     UInt8.ofNat (0x80 + r / 64 % 64), UInt8.ofNat (0x80 + r % 64)]

end Verif
