import Verif.Model.Text
/-!
# Text utilities of the generators (`lib/src/gen/util.cpp`)

Positions in a string are represented by the text that follows them, except where a function looks backwards.
-/
namespace Commsdsl.Gen
open Commsdsl Text

/-- `std::string::find(what, pos)`: the text between `pos` and the first occurrence, and the text from the occurrence on. Helper of `replaceLoop`, util.cpp:192-208. -/
def findSub (what : Str) : Str → Option (Str × Str)
  | [] => if what.isEmpty then some ([], []) else none
  | c :: cs =>
    if what.isPrefixOf (c :: cs) then some ([], c :: cs)
    else (findSub what cs).map fun p => (c :: p.1, p.2)

/-- The loop of `genStrReplace`, util.cpp:192-208; the text is what follows `pos`. `none`: more than `fuel` iterations. -/
def replaceLoop (what new : Str) : Nat → Str → Option Str
  | 0, _ => none
  | fuel + 1, s =>
    if s.isEmpty then some []
    else match findSub what s with
    | none => some s
    | some (a, b) =>
      if b.isEmpty then some s
      else (replaceLoop what new fuel (b.drop what.length)).map fun r => a ++ (new ++ r)

/-- `genStrReplace`, util.cpp:192-208, for patterns that are not empty (`C49` shows the fuel to be enough for these). -/
def strReplace (s what new : Str) : Str := (replaceLoop what new (s.length + 1) s).getD []

/-- `genStrToName`, util.cpp:210-216 -/
def strToName (s : Str) : Str := strReplace (strReplace (strReplace s ['.'] ['_']) ['-'] ['_']) [' '] ['_']

/-- The loop of `genStrSplitByAnyChar` and `genStrSplit`: `next` finds the next separator: the text before it, and the text from it on;
    `len` is the length of a separator. Helper of `splitByAnyChar`, util.cpp:218-242. -/
def splitLoop (next : Str → Option (Str × Str)) (len : Nat) (compressed : Bool) : Nat → Str → Option (List Str)
  | 0, _ => none
  | fuel + 1, s =>
    if s.isEmpty then some []
    else match next s with
    | none => some [s]
    | some (a, b) =>
      if compressed && a.isEmpty then splitLoop next len compressed fuel (s.drop len)
      else if b.isEmpty then some [s]
      else (splitLoop next len compressed fuel (b.drop len)).map fun r => a :: r

/-- `std::string::find_first_of(chars, pos)`. Helper of `splitByAnyChar`, util.cpp:218-242. -/
def findAny (chars : Str) : Str → Option (Str × Str)
  | [] => none
  | c :: cs => if chars.contains c then some ([], c :: cs) else (findAny chars cs).map fun p => (c :: p.1, p.2)

/-- `genStrSplitByAnyChar`, util.cpp:218-242 -/
def splitByAnyChar (s chars : Str) (compressed : Bool) : Option (List Str) :=
  splitLoop (findAny chars) 1 compressed (s.length + 1) s

/-- `genStrSplit`, util.cpp:244-268, for separators that are not empty. -/
def strSplit (s sep : Str) (compressed : Bool) : Option (List Str) :=
  splitLoop (findSub sep) sep.length compressed (s.length + 1) s

/-! ## Numbers -/

/-- A digit, as written by `std::to_string` and `std::hex`. C++ library, not in /repo; used in util.cpp:342-388. -/
def digitChar (upper : Bool) (n : Nat) : Char :=
  if n < 10 then Char.ofNat (48 + n) else if upper then Char.ofNat (55 + n) else Char.ofNat (87 + n)

/-- The digits of a number; 64 digits are enough for 64-bit numbers in any base. C++ library, not in /repo; used in util.cpp:342-388. -/
def digitsLoop (base : Nat) (upper : Bool) : Nat → Nat → Str
  | 0, _ => []
  | fuel + 1, n =>
    if n < base then [digitChar upper n]
    else digitsLoop base upper fuel (n / base) ++ [digitChar upper (n % base)]

/-- `std::to_string` of an unsigned value. C++ library, not in /repo; used in util.cpp:342-370. -/
def toDec (n : Nat) : Str := digitsLoop 10 false 64 n

/-- `stream << std::hex << n`. C++ library, not in /repo; used in util.cpp:342-370. -/
def toHex (upper : Bool) (n : Nat) : Str := digitsLoop 16 upper 64 n

/-- `std::setfill('0') << std::setw(width)`. C++ library, not in /repo; used in util.cpp:342-370. -/
def padZero (width : Nat) (s : Str) : Str := List.replicate (width - s.length) '0' ++ s

/-- `genNumToString(std::uintmax_t, unsigned)`, util.cpp:342-370 -/
def numToStringU (value hexWidth : Nat) : Str :=
  if hexWidth = 0 ∧ value ≤ 65535 then toDec value
  else if hexWidth = 0 ∧ value ≤ 4294967295 then toDec value ++ "U".toList
  else
    "0x".toList ++ padZero hexWidth (toHex true value) ++
      (if 0 < hexWidth ∧ value ≤ 65535 then []
       else if 0 < hexWidth ∧ value ≤ 4294967295 then "U".toList
       else "ULL".toList)

/-- `std::to_string` of a signed value. C++ library, not in /repo; used in util.cpp:372-388. -/
def toDecS (v : Int) : Str := if v < 0 then '-' :: toDec v.natAbs else toDec v.natAbs

/-- `-value` on `intmax_t`: undefined for the smallest value. Helper of `numToStringS`, util.cpp:372-388. -/
def negI64 (v : Int) : Res Int := if v = i64Min then .ub else .ok (-v)

/-- `genNumToString(std::intmax_t)`, util.cpp:372-388. `stream << std::hex << negative` does not occur. -/
def numToStringS (value : Int) : Res Str :=
  if -2147483648 ≤ value ∧ value ≤ 2147483647 then .ok (toDecS value)
  else if 0 < value then .ok ("0x".toList ++ toHex false value.natAbs ++ "LL".toList)
  else do
    let n ← negI64 value
    pure ("-0x".toList ++ toHex false n.natAbs ++ "LL".toList)

/-- The stream of `genNumToStringWithHexComment`, util.cpp:390-416 -/
def hexComment (value : Int) : Res Str :=
  if 0 ≤ value then .ok ("0x".toList ++ toHex false value.natAbs)
  else do
    let n ← negI64 value
    pure ("-0x".toList ++ toHex false n.natAbs)

/-- `genNumToStringWithHexComment`, util.cpp:390-416 -/
def numToStringHexComment (value : Int) : Res Str := do
  let cm ← hexComment value
  if -2147483648 ≤ value ∧ value ≤ 2147483647 then do
    let n ← numToStringS value
    pure (n ++ " /* ".toList ++ cm ++ " */".toList)
  else if value < 0 then pure (cm ++ "LL".toList)
  else if castU64 value ≤ 4294967295 then pure (numToStringU (castU64 value) 0 ++ " /* ".toList ++ cm ++ " */".toList)
  else pure (numToStringU (castU64 value) 1)

/-! ## Names -/

/-- `genStrToMacroName`, util.cpp:329-340 -/
def macroLoop : Bool → Str → Str
  | _, [] => []
  | started, c :: cs => if started && isUpper c then '_' :: toUpperC c :: macroLoop true cs else toUpperC c :: macroLoop true cs

/-- `genStrToMacroName`, util.cpp:329-340 -/
def strToMacroName (s : Str) : Str := macroLoop false s

/-- The loop of `genNameToNs`, util.cpp:465-483; the flag is `!result.empty()`. -/
def nsLoop : Bool → Str → Str
  | _, [] => []
  | started, c :: cs =>
    if toLowerC c = c then c :: nsLoop true cs
    else if started then '_' :: toLowerC c :: nsLoop true cs
    else toLowerC c :: nsLoop true cs

/-- `genNameToNs`, util.cpp:465-483 -/
def nameToNs (s : Str) : Str := nsLoop false s

/-! ## Lists of strings -/

/-- `genStrListToString`, util.cpp:590-606. The address comparison `&e != &list.back()` identifies the last element. -/
def strListToString (join last : Str) : List Str → Str
  | [] => []
  | [e] => e ++ last
  | e :: es => e ++ join ++ strListToString join last es

/-- `genAddToStrList`, util.cpp:608-614 -/
def addToStrList (v : Str) (l : List Str) : List Str := if l.contains v then l else l ++ [v]

/-! ## Lines -/

/-- `std::string::find_last_of(set, pos)`: the last index `≤ pos`. Helper of `breakPos`, util.cpp:624-700. -/
def findLastOf (p : Char → Bool) (s : Str) (pos : Nat) : Option Nat :=
  ((s.take (pos + 1)).reverse.findIdx? p).map fun i => (s.take (pos + 1)).length - 1 - i

/-- `std::string::find_first_of(set, pos)`. Helper of `breakPos`, util.cpp:624-700. -/
def findFirstOf (p : Char → Bool) (s : Str) (pos : Nat) : Option Nat := ((s.drop pos).findIdx? p).map (· + pos)

/-- `WhiteSpace`, util.cpp:658 -/
def isBlankC (c : Char) : Bool := c == ' ' || c == '\t'

/-- `prePos`, util.cpp:659-662 -/
def prePosOf (found : Option Nat) (pos : Nat) : Nat :=
  match found with
  | none => pos
  | some i => if i < pos then pos else i

/-- The body of the loop in `genStrMakeMultiline`, util.cpp:624-700: the position passed to `insertFunc`, or `none` for `break`. -/
def breakPos (value : Str) (len pos : Nat) : Option Nat :=
  let nextPos := pos + len
  if value.length ≤ nextPos then none
  else
    let newLine := findLastOf (· == '\n') value nextPos
    if newLine.any fun i => decide (pos ≤ i) then newLine
    else
      let prePos := prePosOf (findLastOf isBlankC value nextPos) pos
      let postPos := (findFirstOf isBlankC value (nextPos + 1)).getD value.length
      if prePos ≤ pos ∧ value.length ≤ postPos then none
      else if prePos ≤ pos then some postPos
      else if value.length ≤ postPos then some prePos
      else if nextPos - prePos ≤ postPos - nextPos then some prePos
      else some postPos

/-- `insertFunc`, util.cpp:641-651: what is added to `result`. -/
def lineAt (value : Str) (drop : Bool) (pos newPos : Nat) : Str :=
  (value.take newPos).drop pos ++ (if !drop && decide (newPos < value.length) then (value.drop newPos).take 1 else []) ++ ['\n']

/-- The loop of `genStrMakeMultiline`, util.cpp:624-700; `fuel` bounds the iterations. -/
def multilineLoop (value : Str) (len : Nat) (drop : Bool) : Nat → Nat → Str
  | 0, pos => value.drop pos
  | fuel + 1, pos =>
    if value.length ≤ pos then []
    else match breakPos value len pos with
    | none => value.drop pos
    | some newPos => lineAt value drop pos newPos ++ multilineLoop value len drop fuel (newPos + 1)

/-- `genStrMakeMultiline`, util.cpp:624-700 -/
def makeMultiline (value : Str) (len : Nat) (drop : Bool) : Str :=
  if value.length ≤ len then value else multilineLoop value len drop (value.length + 1) 0

/-! ## Tidying -/

/-- `genCleanSpaces`, util.cpp:64-98. `remove_if` applies the predicate to each character in turn, and writes only in front of it, so
    looking ahead sees the original text. The counter is `processedCount - idx` (0 if not positive), the flag `removeChar`. -/
def cleanSpaces : Nat → Bool → Str → Str
  | _, _, [] => []
  | n + 1, removing, c :: cs => if removing then cleanSpaces n removing cs else c :: cleanSpaces n removing cs
  | 0, _, c :: cs =>
    if c ≠ ' ' then c :: cleanSpaces 0 false cs
    else match cs.findIdx? (· == '\n') with
    | none => c :: cleanSpaces cs.length false cs
    | some e =>
      let toRemove := match cs.findIdx? (fun d => !isBlankC d) with
        | none => true
        | some ns => decide (e ≤ ns)
      if toRemove then cleanSpaces e true cs else c :: cleanSpaces e false cs

/-- `genCleanExtraNewLines`, util.cpp:100-121 -/
def cleanExtraNewLines : Str → Str
  | [] => []
  | c :: cs =>
    if c ≠ '\n' then c :: cleanExtraNewLines cs
    else match (c :: cs).findIdx? (· != '\n') with
    | none => if cs.isEmpty then c :: cleanExtraNewLines cs else cleanExtraNewLines cs
    | some n => if 2 < n then cleanExtraNewLines cs else c :: cleanExtraNewLines cs

/-- `NamespaceClose`, util.cpp:167-173: true if there is a namespace end at this place, with something behind it. -/
def closesNamespace (s : Str) : Bool :=
  decide ("} // namespace".toList.length < s.length) && "} // namespace".toList.isPrefixOf s

/-- `genCleanNewLinesBeforeCloseBracket`, util.cpp:123-181; the counter is `processedCount - idx`. -/
def cleanBeforeBracket : Nat → Str → Str
  | _, [] => []
  | n + 1, c :: cs => c :: cleanBeforeBracket n cs
  | 0, c :: cs =>
    if c ≠ '\n' then c :: cleanBeforeBracket 0 cs
    else match cs.findIdx? (· != '\n') with
    | none => c :: cleanBeforeBracket cs.length cs
    | some n =>
      if n = 0 then c :: cleanBeforeBracket 0 cs
      else match (cs.drop n).findIdx? (fun d => !isBlankC d) with
      | none => c :: cleanBeforeBracket cs.length cs
      | some k =>
        if (cs.drop (n + k)).head? ≠ some '}' then c :: cleanBeforeBracket (n + k) cs
        else if closesNamespace (cs.drop (n + k)) then c :: cleanBeforeBracket (n + k) cs
        else cleanBeforeBracket (n + k) cs

/-- `genDoTidyCode`, util.cpp:183-188 -/
def tidyCode (s : Str) : Str := cleanBeforeBracket 0 (cleanExtraNewLines (cleanSpaces 0 false s))

/-! ## Templates -/

/-- `Prefix`, util.cpp:497 -/
def tplPrefix : Str := "#^#".toList

/-- `Suffix`, util.cpp:503 -/
def tplSuffix : Str := "#$#".toList

/-- `WhiteSpaces`, util.cpp:541 -/
def isTplBlank (c : Char) : Bool := c == ' ' || c == '\t' || c == '\r'

/-- `lineStartPos`, util.cpp:521-526, for the text up to `prefixPos` (at which there is no newline but the prefix). -/
def lineStartOf (s : Str) : Nat :=
  match findLastOf (· == '\n') s s.length with
  | none => 0
  | some i => i + 1

/-- "Check empty row", util.cpp:531-565: the text up to and including the newline, and the text behind it, if the row is to be removed.
    `preStr` is the row up to the placeholder, `after` what follows the placeholder. The assertion for a missing newline is not modelled. -/
def emptyRow (value preStr after : Str) : Option (Str × Str) :=
  if !value.isEmpty then none
  else if preStr.any fun c => !isTplBlank c then none
  else match after.findIdx? (· == '\n') with
  | none => none
  | some i => if (after.take i).any fun c => !isTplBlank c then none else some (after.take (i + 1), after.drop (i + 1))

/-- The value as added to the result, util.cpp:570-584. -/
def indentValue (indent : Nat) (value : Str) : Str :=
  if value.isEmpty then []
  else if indent = 0 then value
  else strReplace value ['\n'] ('\n' :: List.replicate indent ' ')

/-- The loop of `genProcessTemplate`, util.cpp:490-588. The position `templPos` is given by the text before it and the text from it on.
    The assertion for a missing suffix is not modelled. Copying a reversed range is undefined, and so is (here) running out of `fuel`. -/
def templateLoop (repl : Str → Option Str) : Nat → Str → Str → Res Str
  | 0, _, _ => .ub
  | fuel + 1, pre, rest =>
    match findSub tplPrefix rest with
    | none => .ok rest
    | some (a, b) =>
      match findSub tplSuffix (b.drop tplPrefix.length) with
      | none => .ok []
      | some (key, c) =>
        let after := c.drop tplSuffix.length
        let value := (repl key).getD []
        let head := pre ++ a
        let lineStart := lineStartOf head
        let until_ := head ++ (tplPrefix ++ (key ++ tplSuffix))
        match emptyRow value (head.drop lineStart) after with
        | some (row, next) =>
          if lineStart < pre.length then .ub
          else (templateLoop repl fuel (until_ ++ row) next) >>= fun r => pure ((head.take lineStart).drop pre.length ++ r)
        | none => (templateLoop repl fuel until_ after) >>= fun r => pure (a ++ (indentValue (head.length - lineStart) value ++ r))

/-- `genProcessTemplate`, util.cpp:490-588 -/
def processTemplate (templ : Str) (repl : Str → Option Str) (tidy : Bool) : Res Str :=
  templateLoop repl (templ.length + 1) [] templ >>= fun r => pure (if tidy then tidyCode r else r)

end Commsdsl.Gen
