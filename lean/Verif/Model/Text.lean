import Verif.Model.Basic
/-!
# Text primitives of the parser (`lib/src/parse/parse_common.cpp`)
-/
namespace Commsdsl.Text
open Commsdsl

/-! ## Character classes ("C" locale `<cctype>`; non-ASCII characters are in no class) -/

/-- `std::isdigit`. C++ library, not in /repo; used in parse_common.cpp:1328-1510. -/
def isDigit (c : Char) : Bool := decide ('0' ≤ c) && decide (c ≤ '9')
/-- `std::islower`. C++ library, not in /repo; used in parse_common.cpp:1328-1510. -/
def isLower (c : Char) : Bool := decide ('a' ≤ c) && decide (c ≤ 'z')
/-- `std::isupper`. C++ library, not in /repo; used in parse_common.cpp:1328-1510. -/
def isUpper (c : Char) : Bool := decide ('A' ≤ c) && decide (c ≤ 'Z')
/-- `std::isalpha`. C++ library, not in /repo; used in parse_common.cpp:1328-1510. -/
def isAlpha (c : Char) : Bool := isLower c || isUpper c
/-- `std::isalnum`. C++ library, not in /repo; used in parse_common.cpp:1328-1510. -/
def isAlnum (c : Char) : Bool := isAlpha c || isDigit c
/-- `std::isspace` (used by `std::stoul` & co to skip leading white space). C++ library, not in /repo; used in parse_common.cpp:1328-1510. -/
def isSpace (c : Char) : Bool :=
  c == ' ' || c == '\t' || c == '\n' || c == '\r' || c.toNat == 11 || c.toNat == 12
/-- `std::tolower`. C++ library, not in /repo; used in parse_common.cpp:1328-1510. -/
def toLowerC (c : Char) : Char := if isUpper c then Char.ofNat (c.toNat + 32) else c
/-- `std::toupper`. C++ library, not in /repo; used in parse_common.cpp:1328-1510. -/
def toUpperC (c : Char) : Char := if isLower c then Char.ofNat (c.toNat - 32) else c

/-- `parseToLowerCopy`, parse_common.cpp:1328-1339 -/
def toLower (s : Str) : Str := s.map toLowerC

/-! ## Numbers: `std::stoul`, `std::stoll`, `std::stoull` with `base == 0` -/

/-- Value of a character as a digit (`strtoull`: letters continue after 9). C++ library, not in /repo; used for parse_common.cpp:938-970. -/
def digitVal (c : Char) : Nat :=
  if isDigit c then c.toNat - 48
  else if isLower c then c.toNat - 87
  else if isUpper c then c.toNat - 55
  else 99

/-- Longest prefix of digits of the base, folded to its value: `acc` is the value so far. C++ library, not in /repo; used for parse_common.cpp:938-970. -/
def scanDigits (base : Nat) : Nat → Str → Nat × Str
  | acc, [] => (acc, [])
  | acc, c :: cs => if digitVal c < base then scanDigits base (acc * base + digitVal c) cs else (acc, c :: cs)

/-- The unsigned part of `strtoull` with base 0: `0x` prefix (followed by a hex digit) selects base 16, leading `0` base 8,
    otherwise base 10. `none` when no digit is found (`std::invalid_argument`). Returns magnitude. C++ library, not in /repo; used for parse_common.cpp:938-970. -/
def scanMagnitude (s : Str) : Option Nat :=
  match s with
  | '0' :: x :: d :: rest =>
    if (x == 'x' || x == 'X') && decide (digitVal d < 16) then some (scanDigits 16 0 (d :: rest)).1
    else some (scanDigits 8 0 (x :: d :: rest)).1
  | '0' :: rest => some (scanDigits 8 0 rest).1
  | c :: rest => if digitVal c < 10 then some (scanDigits 10 0 (c :: rest)).1 else none
  | [] => none

/-- `strtoll`/`strtoull` front end: skip white space, optional sign, magnitude.
    Result: (negative?, magnitude) before any range check. Trailing text is ignored, as the callers pass `pos == nullptr`. C++ library, not in /repo; used for parse_common.cpp:938-970. -/
def scanNumber (s : Str) : Option (Bool × Nat) :=
  match s.dropWhile isSpace with
  | '-' :: rest => (scanMagnitude rest).map fun m => (true, m)
  | '+' :: rest => (scanMagnitude rest).map fun m => (false, m)
  | rest => (scanMagnitude rest).map fun m => (false, m)

/-- `std::stoull(str, 0, 0)`: `out_of_range` when the magnitude exceeds `ULLONG_MAX`; a minus sign negates modulo 2^64. C++ library, not in /repo; used for parse_common.cpp:938-970. -/
def stoull (s : Str) : Option Nat :=
  match scanNumber s with
  | none => none
  | some (neg, m) =>
    if u64Max < m then none
    else some (if neg then castU64 (-(m : Int)) else m)

/-- `std::stoll(str, 0, 0)`. C++ library, not in /repo; used for parse_common.cpp:938-970. -/
def stoll (s : Str) : Option Int :=
  match scanNumber s with
  | none => none
  | some (neg, m) =>
    let v : Int := if neg then -(m : Int) else m
    if v < i64Min ∨ i64Max < v then none else some v

/-- `parseStrToUnsigned`, parse_common.cpp:938-953. `unsigned long` is 64 bits wide, the result is cast to 32 bits.
    `none` stands for `*ok == false`. -/
def strToUnsigned (s : Str) : Option Nat := (stoull s).map fun v => castU32 v

/-- `parseStrToIntMax`, parse_common.cpp:955-970 -/
def strToIntMax (s : Str) : Option Int := stoll s

/-- `parseStrToUintMax`, parse_common.cpp:972-987 -/
def strToUintMax (s : Str) : Option Nat := stoull s

/-- `parseStrToBool`, parse_common.cpp:1024-1058; `none` stands for `*ok == false` (returned value is then `false`). -/
def strToBool (s : Str) : Option Bool :=
  let l := toLower s
  if l = "true".toList ∨ l = "1".toList then some true
  else if l = "false".toList ∨ l = "0".toList then some false
  else none

/-! ## White space -/

/-- The `WhiteSpaces` set of `parseRemoveHeadingTrailingWhitespaces`, parse_common.cpp:1341-1362 -/
def isTrimWs (c : Char) : Bool := c == ' ' || c == '\r' || c == '\n' || c == '\t'

/-- `std::string::find_first_not_of(set)`: index of the first character outside the set. Helper of `trim`, parse_common.cpp:1341-1362. -/
def findFirstNot (p : Char → Bool) (s : Str) : Option Nat := s.findIdx? (fun c => !p c)

/-- `std::string::find_last_not_of(set)`. Helper of `trim`, parse_common.cpp:1341-1362. -/
def findLastNot (p : Char → Bool) (s : Str) : Option Nat :=
  (s.reverse.findIdx? (fun c => !p c)).map fun i => s.length - 1 - i

/-- `parseRemoveHeadingTrailingWhitespaces`, parse_common.cpp:1341-1362, with the positions the code computes. -/
def trim (s : Str) : Str :=
  match findFirstNot isTrimWs s with
  | none => []
  | some startPos =>
    let s1 := if startPos ≠ 0 then s.drop startPos else s
    match findLastNot isTrimWs s1 with
    | none => s1          -- excluded by the `assert` at 1356
    | some endPos => if endPos = s1.length - 1 then s1 else s1.take (endPos + 1)

/-- First loop of `parseNormaliseString`, parse_common.cpp:1364-1395 -/
def normReplace (s : Str) : Str := s.map fun c => if c == '\t' || c == '\r' || c == '\n' then ' ' else c

/-- The `remove_if` of `parseNormaliseString`, parse_common.cpp:1364-1395; the state is the captured `removing`. -/
def normSqueeze : Bool → Str → Str
  | _, [] => []
  | removing, c :: cs =>
    if c ≠ ' ' then c :: normSqueeze false cs
    else if removing then normSqueeze true cs
    else c :: normSqueeze true cs

/-- `parseNormaliseString`, parse_common.cpp:1364-1395 -/
def normalise (s : Str) : Str := normSqueeze false (normReplace s)

/-! ## Ranges -/

/-- `std::string::find(ch, pos)`. Helper of `parseRange`, parse_common.cpp:1397-1446. -/
def findFrom (c : Char) (s : Str) (pos : Nat) : Option Nat := ((s.drop pos).findIdx? (· == c)).map (· + pos)

/-- `WhiteChars` of `parseRange`, parse_common.cpp:1397-1446 -/
def isBlank (c : Char) : Bool := c == ' ' || c == '\t'

/-- `std::string::find_last_not_of(set, pos)`: last index `≤ pos` outside the set. Helper of `parseRange`, parse_common.cpp:1397-1446. -/
def findLastNotUpTo (p : Char → Bool) (s : Str) (pos : Nat) : Option Nat := findLastNot p (s.take (pos + 1))

/-- `std::string::find_first_not_of(set, pos)`. Helper of `parseRange`, parse_common.cpp:1397-1446. -/
def findFirstNotFrom (p : Char → Bool) (s : Str) (pos : Nat) : Option Nat :=
  (findFirstNot p (s.drop pos)).map (· + pos)

/-- `std::string::assign(begin + a, begin + b)`: undefined unless `a ≤ b ≤ size`. Helper of `parseRange`, parse_common.cpp:1397-1446. -/
def assignRange (s : Str) (a b : Nat) : Res Str :=
  if a ≤ b ∧ b ≤ s.length then .ok ((s.take b).drop a) else .ub

/-- `parseRange`, parse_common.cpp:1397-1446. `err` stands for `*ok == false`.
    A missing non-blank position (the two `assert`s) would make the iterator arithmetic undefined. -/
def parseRange (s : Str) : Res (Str × Str) :=
  if s.length ≤ 3 then .err
  else match findFrom '[' s 0 with
  | none => .err
  | some begPos =>
    if begPos ≠ 0 then .err
    else match findFrom ',' s (begPos + 1) with
    | none => .err
    | some sepPos =>
      if (findFrom ',' s (sepPos + 1)).isSome then .err
      else match findFrom ']' s (sepPos + 1) with
      | none => .err
      | some endPos =>
        if endPos ≠ s.length - 1 then .err
        else match findLastNotUpTo isBlank s (sepPos - 1), findFirstNotFrom isBlank s (sepPos + 1) with
        | some beforeSepPos, some afterSepPos => do
          let first ← assignRange s (begPos + 1) (beforeSepPos + 1)
          let second ← assignRange s afterSepPos endPos
          pure (first, second)
        | _, _ => .ub

/-! ## Names and references -/

/-- A name character: `isalnum(ch) || ch == '_'`. Helper of `isValidName`, parse_common.cpp:1448-1464. -/
def isNameChar (c : Char) : Bool := isAlnum c || c == '_'

/-- `parseIsValidName`, parse_common.cpp:1448-1464 -/
def isValidName (s : Str) : Bool :=
  match s with
  | [] => false
  | c :: _ => if !isAlpha c && c != '_' then false else s.all isNameChar

/-- The loop at parse_common.cpp:1498-1507: no dot is directly followed by a dot. The position `iter` is represented by the text that
    follows it; `nextIter == nextPosIter` means that text starts with a dot. -/
def noSequentialDots : Str → Bool
  | [] => true
  | '.' :: rest => match rest with
    | '.' :: _ => false
    | _ => noSequentialDots rest
  | _ :: rest => noSequentialDots rest

/-- `parseIsValidRefName`, parse_common.cpp:1466-1510; `@` is `parseSchemaRefPrefix()`. -/
def isValidRefName (s0 : Str) : Bool :=
  let s := match s0 with
    | '@' :: rest => rest
    | _ => s0
  match s with
  | [] => false
  | c :: _ =>
    if !isAlpha c && c != '_' then false
    else if !(s.all fun ch => isAlnum ch || ch == '_' || ch == '.') then false
    else if s.getLast? == some '.' then false
    else noSequentialDots s

/-- `parseIsValidExternalRefName`, parse_common.cpp:1517-1528; `^` is `parseStringRefPrefix()`. -/
def isValidExternalRefName (s : Str) : Bool :=
  match s with
  | '^' :: rest => !rest.isEmpty && isValidRefName rest
  | _ => false

end Commsdsl.Text
