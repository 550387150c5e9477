import Verif.Model.GenSchema
import Verif.Model.Latex
/-!
# Values of strings and data, and names, in the generated code

Only the parts that depend on the schema are modelled: the literals which are put into the constructor and into `valid()`. The code around them is fixed; what
it does is said in `Spec/GenSeq`.
-/
namespace Commsdsl.Gen
open Commsdsl Text Fld

/-- A text of the schema between quotes, unchanged: `"\"" + info.m_value + "\""` (CommsStringField.cpp:311), `\"#^#STR#$#\"` (CommsStringField.cpp:169),
    `\"#^#NAME#$#\"` (CommsField.cpp:751, CommsMessage.cpp:761). -/
def quoted (s : Str) : Str := '"' :: (s ++ ['"'])

/-- `commsDefConstructCodeImpl`, CommsStringField.cpp:160-178: the literal, if there is code. -/
def stringConstruct (st : SeqState Char) : Option Str := if st.default.isEmpty then none else some (quoted st.default)

/-- The values in `commsDefValidFuncBodyImpl`, CommsStringField.cpp:298-334: the elements of `Map`, if there is code. -/
def stringValid (v : GVer) (st : SeqState Char) : Option (List Str) :=
  if st.valid.isEmpty then none
  else some ((st.valid.filter fun x => doesExist v x.2.1 x.2.2 true).map fun x => quoted x.1)

/-- `commsBytesToString`, CommsDataField.cpp:41-53 -/
def bytesToString (bs : List Nat) : Str :=
  makeMultiline (strListToString ", ".toList [] (bs.map fun b => "0x".toList ++ padZero 2 (toHex false b))) 60 true

/-- `commsDefConstructCodeImpl`, CommsDataField.cpp:183-203: the elements of `Data`, if there is code. -/
def dataConstruct (st : SeqState Nat) : Option Str := if st.default.isEmpty then none else some (bytesToString st.default)

/-- The loop in `commsDefValidFuncBodyImpl`, CommsDataField.cpp:329-350: the numbers in the names of the arrays, and their elements. -/
def dataValidLoop (v : GVer) : Nat → List (List Nat × Nat × Nat) → List (Nat × Str)
  | _, [] => []
  | idx, x :: xs =>
    if !doesExist v x.2.1 x.2.2 true then dataValidLoop v (idx + 1) xs
    else (idx, bytesToString x.1) :: dataValidLoop v (idx + 1) xs

/-- `commsDefValidFuncBodyImpl`, CommsDataField.cpp:320-388: the arrays, which are also listed in `Map`, if there is code. -/
def dataValid (v : GVer) (st : SeqState Nat) : Option (List (Nat × Str)) :=
  if st.valid.isEmpty then none else some (dataValidLoop v 0 st.valid)

/-- What `name()` returns, CommsField.cpp:748-757 and CommsMessage.cpp:757-767. -/
def nameLiteral (disp name : Str) : Str := quoted (displayNameOf disp name)

end Commsdsl.Gen
