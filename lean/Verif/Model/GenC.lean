import Verif.Model.Basic
/-!
# The functions of the C interface for fields (`app/commsdsl2c/src/C*Field.cpp`)

What the header declares and what the source file defines for a field. Comments and bodies are left out, except for those of the functions for elements of a
list, which are at the end.
-/
namespace Commsdsl.Gen
open Commsdsl

/-- A C type: `const BASE**`. A type as it is written in the templates, CField.cpp:726-765. -/
structure CTy where
  const : Bool := false
  base : Str
  ptrs : Nat := 0
  deriving DecidableEq, Repr

/-- The signature of a function: CField.cpp:726-765. Names of parameters are left out. -/
structure CFunc where
  ret : CTy
  name : Str
  params : List CTy
  deriving DecidableEq, Repr

/-- What a header has for a field, in order: definitions of types (CField.cpp:173-178, CIntField.cpp:104-109) and declarations of functions. -/
inductive CDecl where
  | type (name : Str)
  | func (f : CFunc)
  deriving DecidableEq, Repr

/-- A field of the C generator: `cName()` (CField.cpp:153-161), its access name (`genAccessName`), whether there is a `comms::field::Optional` around it because of
    versions (`cIsVersionOptional`, CField.cpp:376-379). -/
structure CHead where
  name : Str
  acc : Str
  verOpt : Bool
  deriving DecidableEq

/-- Fields without members: `<enum>`, `<int>` and `<float>`, `<set>`, `<string>`, `<data>`, `<ref>`, with what decides about their functions: `parseIsFixedValue`,
    the class names of the special values that exist, the bits, the name of the target; CIntField.cpp:125-170, CSetField.cpp:119-195, CRefField.cpp:66-83. -/
inductive CLeaf where
  | enum (fixed : Bool)
  | num (fixed : Bool) (specials : List Str)
  | set (fixed : Bool) (bits : List Str)
  | string
  | data (fixed : Bool)
  | ref (target : Str)

/-- The fields: the element of a list and the field of an `<optional>` are global ones, given by their names, or inside. A `<bitfield>` is like a `<bundle>`
    (CBitfieldField.cpp:91-161, CBundleField.cpp:91-161). -/
inductive CFld where
  | leaf (h : CHead) (l : CLeaf)
  | list (h : CHead) (ext : Str)
  | listOwn (h : CHead) (el : CFld)
  | optional (h : CHead) (ext : Str)
  | optionalOwn (h : CHead) (fld : CFld)
  | bundle (h : CHead) (members : List CFld)
  | variant (h : CHead) (members : List CFld)

/-- The head of a field: CField.cpp:153-161. -/
def CFld.head : CFld → CHead
  | .leaf h _ | .list h _ | .listOwn h _ | .optional h _ | .optionalOwn h _ | .bundle h _ | .variant h _ => h

/-- `genVersionOptionalFieldSuffixStr`, lib/src/gen/strings.cpp:365-369 -/
def voptSuffix : Str := "Field".toList

/-- `#^#NAME#$##^#SUFFIX#$#` in the code of a kind, e.g. CBundleField.cpp:109-111 -/
def CHead.base (h : CHead) : Str := if h.verOpt then h.name ++ voptSuffix else h.name

/-- `NAME_TEXT`: the names in the templates, CField.cpp:726-765. -/
def cJoin (n : Str) (t : String) : Str := n ++ '_' :: t.toList

/-- `NAME*`, CField.cpp:734 -/
def cPtr (n : Str) : CTy := { base := n, ptrs := 1 }
/-- `const NAME*`, CField.cpp:743 -/
def cConstPtr (n : Str) : CTy := { const := true, base := n, ptrs := 1 }
/-- A plain type, CField.cpp:746 -/
def cPlain (s : String) : CTy := { base := s.toList }
/-- `NAME_ValueType`, CField.cpp:477 -/
def cValueType (n : Str) : CTy := { base := cJoin n "ValueType" }

/-! ## Functions of all fields -/

/-- The functions of `cHeaderCommonFuncsInternal`, CField.cpp:726-765; `n` is the name with its suffix, `st` the type of the status. -/
def headerCommon (st n : Str) : List CFunc := [
  { ret := { base := st }, name := cJoin n "read", params := [cPtr n, { const := true, base := "uint8_t".toList, ptrs := 2 }, cPlain "size_t"] },
  { ret := { base := st }, name := cJoin n "write", params := [cConstPtr n, { base := "uint8_t".toList, ptrs := 2 }, cPlain "size_t"] },
  { ret := cPlain "size_t", name := cJoin n "length", params := [cConstPtr n] },
  { ret := { const := true, base := "char".toList, ptrs := 1 }, name := cJoin n "name", params := [cConstPtr n] },
  { ret := cPlain "bool", name := cJoin n "valid", params := [cConstPtr n] }]

/-- `cSourceCommonFuncsInternal`, CField.cpp:767-807. The parameter of the function for the name has no suffix (the template has `SUFFX`). -/
def sourceCommon (st name n : Str) : List CFunc := [
  { ret := { base := st }, name := cJoin n "read", params := [cPtr n, { const := true, base := "uint8_t".toList, ptrs := 2 }, cPlain "size_t"] },
  { ret := { base := st }, name := cJoin n "write", params := [cConstPtr n, { base := "uint8_t".toList, ptrs := 2 }, cPlain "size_t"] },
  { ret := cPlain "size_t", name := cJoin n "length", params := [cConstPtr n] },
  { ret := { const := true, base := "char".toList, ptrs := 1 }, name := cJoin n "name", params := [cConstPtr name] },
  { ret := cPlain "bool", name := cJoin n "valid", params := [cConstPtr n] }]

/-- The functions that `cHeaderOptionalCodeInternal`, CField.cpp:854-885, and COptionalField.cpp:85-131 declare: `n` is the field, `inner` the field inside. -/
def headerOpt (n inner : Str) : List CFunc := [
  { ret := cPtr inner, name := cJoin n "field", params := [cPtr n] },
  { ret := cPlain "bool", name := cJoin n "doesExist", params := [cConstPtr n] },
  { ret := cPlain "void", name := cJoin n "setExists", params := [cPtr n] },
  { ret := cPlain "bool", name := cJoin n "isMissing", params := [cConstPtr n] },
  { ret := cPlain "void", name := cJoin n "setMissing", params := [cPtr n] },
  { ret := cPlain "bool", name := cJoin n "isTentative", params := [cConstPtr n] },
  { ret := cPlain "void", name := cJoin n "setTentative", params := [cPtr n] }]

/-- The functions that `cSourceOptionalCodeInternal`, CField.cpp:887-933, and COptionalField.cpp:133-195 define; the last two names are spelt differently. -/
def sourceOpt (n inner : Str) : List CFunc := [
  { ret := cPtr inner, name := cJoin n "field", params := [cPtr n] },
  { ret := cPlain "bool", name := cJoin n "doesExist", params := [cConstPtr n] },
  { ret := cPlain "void", name := cJoin n "setExists", params := [cPtr n] },
  { ret := cPlain "bool", name := cJoin n "isMissing", params := [cConstPtr n] },
  { ret := cPlain "void", name := cJoin n "setMissing", params := [cPtr n] },
  { ret := cPlain "bool", name := cJoin n "isTenative", params := [cConstPtr n] },
  { ret := cPlain "void", name := cJoin n "setTenative", params := [cPtr n] }]

/-! ## Functions of the kinds -/

/-- `cHeaderCommonValueAccessFuncs`, CField.cpp:473-501 -/
def headerAccess (n : Str) (fixed : Bool) : List CFunc :=
  { ret := cValueType n, name := cJoin n "getValue", params := [cConstPtr n] } ::
    if fixed then [] else [{ ret := cPlain "void", name := cJoin n "setValue", params := [cPtr n, cValueType n] }]

/-- `cSourceCommonValueAccessFuncs`, CField.cpp:503-536 -/
def sourceAccess (n : Str) (fixed : Bool) : List CFunc :=
  { ret := cValueType n, name := cJoin n "getValue", params := [cConstPtr n] } ::
    if fixed then [] else [{ ret := cPlain "void", name := cJoin n "setValue", params := [cPtr n, cValueType n] }]

/-- `cHeaderSpecialsCodeInternal`, CIntField.cpp:125-170, CFloatField.cpp:109-154: no suffix is given to the template. -/
def headerSpecials (h : CHead) (specials : List Str) : List CFunc :=
  specials.flatMap fun s => [
    { ret := cValueType h.name, name := cJoin h.name "value" ++ s, params := [] },
    { ret := cPlain "bool", name := cJoin h.name "is" ++ s, params := [cConstPtr h.name] },
    { ret := cPlain "void", name := cJoin h.name "set" ++ s, params := [cPtr h.name] }]

/-- `cSourceSpecialsCodeInternal`, CIntField.cpp:172-213, CFloatField.cpp:156-197 -/
def sourceSpecials (h : CHead) (specials : List Str) : List CFunc :=
  specials.flatMap fun s => [
    { ret := cValueType h.name, name := cJoin h.name "value" ++ s, params := [] },
    { ret := cPlain "bool", name := cJoin h.name "is" ++ s, params := [cConstPtr h.name] },
    { ret := cPlain "void", name := cJoin h.name "set" ++ s, params := [cPtr h.name] }]

/-- The functions of `cHeaderBitsCodeInternal`, CSetField.cpp:119-195 -/
def headerBits (n : Str) (bits : List Str) : List CFunc :=
  { ret := cPlain "bool", name := cJoin n "getBitValue", params := [cConstPtr n, { base := cJoin n "BitIdx" }] } ::
  { ret := cPlain "void", name := cJoin n "setBitValue", params := [cPtr n, { base := cJoin n "BitIdx" }, cPlain "bool"] } ::
  bits.flatMap fun b => [
    { ret := cPlain "bool", name := cJoin n "getBitValue_" ++ b, params := [cConstPtr n] },
    { ret := cPlain "void", name := cJoin n "setBitValue_" ++ b, params := [cPtr n, cPlain "bool"] }]

/-- `cSourceBitsCodeInternal`, CSetField.cpp:197-274 -/
def sourceBits (n : Str) (bits : List Str) : List CFunc :=
  { ret := cPlain "bool", name := cJoin n "getBitValue", params := [cConstPtr n, { base := cJoin n "BitIdx" }] } ::
  { ret := cPlain "void", name := cJoin n "setBitValue", params := [cPtr n, { base := cJoin n "BitIdx" }, cPlain "bool"] } ::
  bits.flatMap fun b => [
    { ret := cPlain "bool", name := cJoin n "getBitValue_" ++ b, params := [cConstPtr n] },
    { ret := cPlain "void", name := cJoin n "setBitValue_" ++ b, params := [cPtr n, cPlain "bool"] }]

/-- `cHeaderCodeImpl` of a field without members: CIntField.cpp:65-73, CFloatField.cpp:60-68, CEnumField.cpp:207-220, CSetField.cpp:69-77, CStringField.cpp:51-81,
    CDataField.cpp:52-89, CRefField.cpp:66-83. -/
def headerLeaf (h : CHead) : CLeaf → List CDecl
  | .enum fixed => .type (cJoin h.base "ValueType") :: (headerAccess h.base fixed).map .func
  | .num fixed specials => .type (cJoin h.base "ValueType") :: (headerAccess h.base fixed ++ headerSpecials h specials).map .func
  | .set fixed bits => .type (cJoin h.base "ValueType") :: ((headerAccess h.base fixed).map .func ++
      .type (cJoin h.base "BitIdx") :: (headerBits h.base bits).map .func)
  | .string => [
      .func { ret := cPlain "size_t", name := cJoin h.base "getValue", params := [cConstPtr h.base, { base := "char".toList, ptrs := 1 }, cPlain "size_t"] },
      .func { ret := cPlain "void", name := cJoin h.base "setValue", params := [cPtr h.base, { const := true, base := "char".toList, ptrs := 1 }, cPlain "size_t"] },
      .func { ret := cPlain "size_t", name := cJoin h.base "valueSize", params := [cConstPtr h.base] }]
  | .data fixed =>
      .func { ret := cPlain "size_t", name := cJoin h.base "getValue", params := [cConstPtr h.base, { base := "uint8_t".toList, ptrs := 1 }, cPlain "size_t"] } ::
      .func { ret := cPlain "size_t", name := cJoin h.base "valueSize", params := [cConstPtr h.base] } ::
      if fixed then [] else
        [.func { ret := cPlain "void", name := cJoin h.base "setValue",
                 params := [cPtr h.base, { const := true, base := "uint8_t".toList, ptrs := 1 }, cPlain "size_t"] }]
  | .ref target => [.func { ret := cPtr target, name := cJoin h.base "ref", params := [cPtr h.base] }]

/-- `cSourceCodeImpl` of a field without members: CIntField.cpp:75-83, CFloatField.cpp:70-78, CEnumField.cpp:222-225, CSetField.cpp:79-87, CStringField.cpp:83-115,
    CDataField.cpp:91-131, CRefField.cpp:85-107. -/
def sourceLeaf (h : CHead) : CLeaf → List CFunc
  | .enum fixed => sourceAccess h.base fixed
  | .num fixed specials => sourceAccess h.base fixed ++ sourceSpecials h specials
  | .set fixed bits => sourceAccess h.base fixed ++ sourceBits h.base bits
  | .string => [
      { ret := cPlain "size_t", name := cJoin h.base "getValue", params := [cConstPtr h.base, { base := "char".toList, ptrs := 1 }, cPlain "size_t"] },
      { ret := cPlain "void", name := cJoin h.base "setValue", params := [cPtr h.base, { const := true, base := "char".toList, ptrs := 1 }, cPlain "size_t"] },
      { ret := cPlain "size_t", name := cJoin h.base "valueSize", params := [cConstPtr h.base] }]
  | .data fixed =>
      { ret := cPlain "size_t", name := cJoin h.base "getValue", params := [cConstPtr h.base, { base := "uint8_t".toList, ptrs := 1 }, cPlain "size_t"] } ::
      { ret := cPlain "size_t", name := cJoin h.base "valueSize", params := [cConstPtr h.base] } ::
      if fixed then [] else
        [{ ret := cPlain "void", name := cJoin h.base "setValue",
           params := [cPtr h.base, { const := true, base := "uint8_t".toList, ptrs := 1 }, cPlain "size_t"] }]
  | .ref target => [{ ret := cPtr target, name := cJoin h.base "ref", params := [cPtr h.base] }]

/-- The functions declared for a list with elements `el`, CListField.cpp:95-142 -/
def headerList (n el : Str) : List CFunc := [
  { ret := cPtr el, name := cJoin n "at", params := [cPtr n, cPlain "size_t"] },
  { ret := cPlain "void", name := cJoin n "resize", params := [cPtr n, cPlain "size_t"] },
  { ret := cPlain "size_t", name := cJoin n "count", params := [cConstPtr n] },
  { ret := cPtr el, name := cJoin n "insert", params := [cPtr n, cPlain "size_t"] },
  { ret := cPtr el, name := cJoin n "append", params := [cPtr n] },
  { ret := cPlain "bool", name := cJoin n "remove", params := [cPtr n, cPlain "size_t"] }]

/-- The functions defined for a list, CListField.cpp:144-218 -/
def sourceList (n el : Str) : List CFunc := [
  { ret := cPtr el, name := cJoin n "at", params := [cPtr n, cPlain "size_t"] },
  { ret := cPlain "void", name := cJoin n "resize", params := [cPtr n, cPlain "size_t"] },
  { ret := cPlain "size_t", name := cJoin n "count", params := [cConstPtr n] },
  { ret := cPtr el, name := cJoin n "insert", params := [cPtr n, cPlain "size_t"] },
  { ret := cPtr el, name := cJoin n "append", params := [cPtr n] },
  { ret := cPlain "bool", name := cJoin n "remove", params := [cPtr n, cPlain "size_t"] }]

/-- Declaration and definition of the access to a member of a bundle, CBundleField.cpp:100-118, 134-153 -/
def memberFunc (n : Str) (m : CHead) : CFunc := { ret := cPtr m.name, name := cJoin n "field_" ++ m.acc, params := [cPtr n] }

/-- Access to a member of a variant, CVariantField.cpp:105-127 (declared), 190-222 (defined) -/
def variantFuncs (n : Str) (m : CHead) : List CFunc := [
  { ret := cPtr m.name, name := cJoin n "initField_" ++ m.acc, params := [cPtr n] },
  { ret := cPlain "void", name := cJoin n "deinitField_" ++ m.acc, params := [cPtr n] },
  { ret := cPtr m.name, name := cJoin n "accessField_" ++ m.acc, params := [cPtr n] }]

/-- The end of the header of a variant, CVariantField.cpp:135-178. The names of the two types have no suffix. -/
def headerVariant (h : CHead) : List CDecl := [
  .type (cJoin h.name "FieldIdx"),
  .func { ret := { base := cJoin h.name "FieldIdx" }, name := cJoin h.base "currentField", params := [cConstPtr h.base] },
  .func { ret := cPlain "void", name := cJoin h.base "selectField", params := [cPtr h.base, { base := cJoin h.name "FieldIdx" }] },
  .func { ret := cPlain "void", name := cJoin h.base "reset", params := [cPtr h.base] },
  .type (cJoin h.name "MemHandler"),
  .func { ret := cPlain "void", name := cJoin h.base "currFieldExec", params := [cPtr h.base, cPtr (cJoin h.name "MemHandler")] }]

/-- The end of the source of a variant, CVariantField.cpp:237-285 -/
def sourceVariant (h : CHead) : List CFunc := [
  { ret := { base := cJoin h.name "FieldIdx" }, name := cJoin h.base "currentField", params := [cConstPtr h.base] },
  { ret := cPlain "void", name := cJoin h.base "selectField", params := [cPtr h.base, { base := cJoin h.name "FieldIdx" }] },
  { ret := cPlain "void", name := cJoin h.base "reset", params := [cPtr h.base] },
  { ret := cPlain "void", name := cJoin h.base "currFieldExec", params := [cPtr h.base, cPtr (cJoin h.name "MemHandler")] }]

/-- `doCode` in `cHeaderCode`, CField.cpp:168-214: the code of the kind is in the inner part if there is one. -/
def headerWrap (st : Str) (h : CHead) (code : List CDecl) : List CDecl :=
  .type h.base :: code ++ (headerCommon st h.base).map .func ++
  if h.verOpt then .type h.name :: (headerOpt h.name h.base ++ headerCommon st h.name).map .func else []

/-- `cSourceCode`, CField.cpp:216-255 -/
def sourceWrap (st : Str) (h : CHead) (code : List CFunc) : List CFunc :=
  code ++ sourceCommon st h.name h.base ++ if h.verOpt then sourceOpt h.name h.base ++ sourceCommon st h.name h.name else []

mutual
/-- `cHeaderCode`, CField.cpp:168-214, with `cHeaderCodeImpl` of the kinds: CListField.cpp:95-142, COptionalField.cpp:85-131, CBundleField.cpp:91-123,
    CVariantField.cpp:95-179. -/
def CFld.header (st : Str) : CFld → List CDecl
  | .leaf h l => headerWrap st h (headerLeaf h l)
  | .list h ext => headerWrap st h ((headerList h.base ext).map .func)
  | .listOwn h el => headerWrap st h (el.header st ++ (headerList h.base el.head.name).map .func)
  | .optional h ext => headerWrap st h ((headerOpt h.base ext).map .func)
  | .optionalOwn h f => headerWrap st h (f.header st ++ (headerOpt h.base f.head.name).map .func)
  | .bundle h ms => headerWrap st h (headersOf st ms ++ (ms.map fun m => memberFunc h.base m.head).map .func)
  | .variant h ms => headerWrap st h (headersOf st ms ++ (ms.flatMap fun m => variantFuncs h.base m.head).map .func ++ headerVariant h)
/-- The members, CBundleField.cpp:96-98, CVariantField.cpp:102-103 -/
def headersOf (st : Str) : List CFld → List CDecl
  | [] => []
  | f :: fs => f.header st ++ headersOf st fs
end

mutual
/-- `cSourceCode`, CField.cpp:216-255, with `cSourceCodeImpl` of the kinds: CListField.cpp:144-218, COptionalField.cpp:133-195, CBundleField.cpp:125-161,
    CVariantField.cpp:181-279. -/
def CFld.source (st : Str) : CFld → List CFunc
  | .leaf h l => sourceWrap st h (sourceLeaf h l)
  | .list h ext => sourceWrap st h (sourceList h.base ext)
  | .listOwn h el => sourceWrap st h (el.source st ++ sourceList h.base el.head.name)
  | .optional h ext => sourceWrap st h (sourceOpt h.base ext)
  | .optionalOwn h f => sourceWrap st h (f.source st ++ sourceOpt h.base f.head.name)
  | .bundle h ms => sourceWrap st h (sourcesOf st ms ++ ms.map fun m => memberFunc h.base m.head)
  | .variant h ms => sourceWrap st h (sourcesOf st ms ++ (ms.flatMap fun m => variantFuncs h.base m.head) ++ sourceVariant h)
/-- The members, CBundleField.cpp:130-132, CVariantField.cpp:187-188 -/
def sourcesOf (st : Str) : List CFld → List CFunc
  | [] => []
  | f :: fs => f.source st ++ sourcesOf st fs
end

/-! ## The functions for elements of a list -/

/-- The storage of a list: its elements and the number it has room for (`capacity()`, fixed for static storage; for a `std::vector` it depends on what was done
    before). CListField.cpp:171-180 -/
structure CStore (α : Type) where
  elems : List α
  cap : Nat

/-- `LIST_at`: the index of the element the pointer leads to, `none` for a null pointer. CListField.cpp:148-155 -/
def CStore.at' {α : Type} (s : CStore α) (i : Nat) : Option Nat := if s.elems.length ≤ i then none else some i

/-- `LIST_insert`: the storage afterwards and the index of the element the pointer leads to; `new` is an element as it is constructed by `resize`.
    `idx + 1U` is taken without overflow. CListField.cpp:167-176 -/
def CStore.insert {α : Type} (new : α) (s : CStore α) (i : Nat) : CStore α × Option Nat :=
  let next := max (i + 1) (s.elems.length + 1)
  if s.cap ≤ next then (s, none)
  else ({ s with elems := s.elems ++ List.replicate (next - s.elems.length) new }, some i)

/-- `LIST_append`, CListField.cpp:178-182 -/
def CStore.append {α : Type} (new : α) (s : CStore α) : CStore α × Option Nat := s.insert new s.elems.length

/-- `LIST_remove`, CListField.cpp:184-193 -/
def CStore.remove {α : Type} (s : CStore α) (i : Nat) : CStore α × Bool :=
  if s.elems.length ≤ i then (s, false) else ({ s with elems := s.elems.eraseIdx i }, true)

end Commsdsl.Gen
