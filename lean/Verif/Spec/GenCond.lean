import Verif.Model.GenCond
import Verif.Model.GenSet
import Verif.Spec.Cond
import Verif.Spec.CondRef
import Verif.Spec.GenText
import Verif.Spec.GenScope
import Verif.Spec.GenSet
import Verif.Spec.IntField
/-!
# What a generated condition computes, what a condition says (C88 to C90)

The generated expression is read by the C++ grammar and evaluated on the field objects of the generated code. The condition of the protocol definition is about
the values of the fields. The two are connected by `Stores`: an object of the generated class holds a value.
-/
namespace Commsdsl.Spec
open Commsdsl Text Fld Gen

/-! ## Values of fields -/

/-- The value of a field: it may be missing; a number (int, enum, set), a text, a sequence of some length, or named values of members. An optional field
    that exists has one member, its field. -/
inductive FVal where
  | missing
  | num (x : Int)
  | text (s : Str)
  | seq (n : Nat)
  | members (ms : List (Str × FVal))
  | other

/-- The first entry of the name. -/
def entry {α : Type} (l : List (Str × α)) (n : Str) : Option α := (l.find? fun p => p.1 == n).map Prod.snd

/-- The value at the end of a path of names, `missing` if there is none. -/
def FVal.at : List Str → FVal → FVal
  | [], v => v
  | n :: p, .members ms => match entry ms n with
    | some v => FVal.at p v
    | none => .missing
  | _ :: _, _ => .missing

/-! ## Objects of the generated classes -/

/-- An object of a generated field class: a number with the C++ type of `getValue()`, a set with its access functions, a string, a sequence,
    `comms::field::Optional` with its mode and its field, a bundle or bitfield with its access functions. -/
inductive CObj where
  | num (ty : CppInt) (x : Int)
  | set (acc : BitAccess) (ty : CppInt) (x : Nat)
  | text (s : Str)
  | seq (n : Nat)
  | opt (there : Bool) (o : CObj)
  | tuple (ms : List (Str × CObj))
  | other

mutual
/-- `Stores g pl f o v`: an object `o` of the class generated for the field `f` at the place `pl` holds the value `v`. The class is wrapped in an optional one if
    not all supported versions have the field. -/
inductive Stores (g : GVer) : Place → Field → CObj → FVal → Prop where
  | plain {pl : Place} {f : Field} {o : CObj} {v : FVal} : versionOpt g pl f = false → StoresBody g pl f o v → Stores g pl f o v
  | there {pl : Place} {f : Field} {o : CObj} {v : FVal} : versionOpt g pl f = true → StoresBody g pl f o v → Stores g pl f (.opt true o) v
  | gone {pl : Place} {f : Field} {o : CObj} : versionOpt g pl f = true → Stores g pl f (.opt false o) .missing
/-- The same without the wrapper for versions. -/
inductive StoresBody (g : GVer) : Place → Field → CObj → FVal → Prop where
  | int {pl : Place} {c : Common} {st : IntF.State} {t : IntF.IntType} {x : Int} : st.type = some t → CppHolds (cppIntType t (IntF.maxLength st)) x →
      StoresBody g pl (.int c st) (.num (cppIntType t (IntF.maxLength st)) x) (.num x)
  | enum {pl : Place} {c : Common} {st : EnumF.State} {t : IntF.IntType} {x : Int} : st.num.type = some t →
      CppHolds (cppIntType t (IntF.maxLength st.num)) x → StoresBody g pl (.enum c st) (.num (cppIntType t (IntF.maxLength st.num)) x) (.num x)
  | set {pl : Place} {c : Common} {st : SetF.State} {w x : Nat} : 8 * st.length ≤ w → x < 2 ^ w →
      StoresBody g pl (.set c st) (.set (bitAccess st) (false, w) x) (.num x)
  | string {pl : Place} {c : Common} {st : SeqState Char} {p : Slot Field} {s : Str} : StoresBody g pl (.string c st p) (.text s) (.text s)
  | data {pl : Place} {c : Common} {st : SeqState Nat} {p : Slot Field} {n : Nat} : StoresBody g pl (.data c st p) (.seq n) (.seq n)
  | list {pl : Place} {c : Common} {st : ListState} {e p l el t : Slot Field} {n : Nat} : StoresBody g pl (.list c st e p l el t) (.seq n) (.seq n)
  | bitfield {pl : Place} {c : Common} {e : Option IntF.Endian} {ms : List Field} {cd : Option CondM.Cond} {os : List (Str × CObj)}
      {vs : List (Str × FVal)} : StoresMembers g (.field c.w.since pl) ms os vs → StoresBody g pl (.bitfield c e ms cd) (.tuple os) (.members vs)
  | bundle {pl : Place} {c : Common} {ms : List Field} {al : List Alias} {cd : Option CondM.Cond} {os : List (Str × CObj)}
      {vs : List (Str × FVal)} : StoresMembers g (.field c.w.since pl) ms os vs → StoresBody g pl (.bundle c ms al cd) (.tuple os) (.members vs)
  | ref {pl : Place} {c : Common} {b : Nat} {s : Slot Field} {t : Field} {o : CObj} {v : FVal} : t ∈ s.toList → Stores g .other t o v →
      StoresBody g pl (.ref c b s) o v
  | own {pl : Place} {c : Common} {st : OptState} {m : Field} {cd : Option CondM.Cond} {o : CObj} {v : FVal} :
      Stores g (.field c.w.since pl) m o v → StoresBody g pl (.optional c st (.own m) cd) (.opt true o) (.members [(m.name, v)])
  | ext {pl : Place} {c : Common} {st : OptState} {m : Field} {cd : Option CondM.Cond} {o : CObj} {v : FVal} :
      Stores g .other m o v → StoresBody g pl (.optional c st (.ext m) cd) (.opt true o) (.members [(m.name, v)])
  | none {pl : Place} {c : Common} {st : OptState} {s : Slot Field} {cd : Option CondM.Cond} {o : CObj} :
      StoresBody g pl (.optional c st s cd) (.opt false o) .missing
  | float {pl : Place} {c : Common} {st : FloatState} : StoresBody g pl (.float c st) .other .other
  | variant {pl : Place} {c : Common} {d : Nat} {ms : List Field} : StoresBody g pl (.variant c d ms) .other .other
/-- Members, with the names of their access functions and their names. The names of the access functions are distinct, otherwise the code does not compile. -/
inductive StoresMembers (g : GVer) : Place → List Field → List (Str × CObj) → List (Str × FVal) → Prop where
  | nil {pl : Place} : StoresMembers g pl [] [] []
  | cons {pl : Place} {m : Field} {ms : List Field} {o : CObj} {v : FVal} {os : List (Str × CObj)} {vs : List (Str × FVal)} :
      (∀ x ∈ ms, accessName x.name ≠ accessName m.name) → Stores g pl m o v → StoresMembers g pl ms os vs →
      StoresMembers g pl (m :: ms) ((accessName m.name, o) :: os) ((m.name, v) :: vs)
end

/-! ## C++ expressions -/

/-- Expressions: access to a field with a call at the end, casts, literals, operators. -/
inductive CExpr where
  | exists (a : Acc)
  | get (a : Acc) (last : Last)
  | empty (a : Acc)
  | number (s : Str)
  | quoted (s : Str)
  | cast (a : Acc) (e : CExpr)
  | castSize (e : CExpr)
  | not (e : CExpr)
  | cmp (op : Str) (l r : CExpr)
  | and (l r : CExpr)
  | or (l r : CExpr)

/-- Levels of the grammar, from the operators that bind the least. -/
inductive CLevel where
  | or
  | and
  | cmp
  | unary

/-- The tokens are an expression of the level. (Comparisons are not chained. `a && b && c` is read as `a && (b && c)`, `||` alike; for these operators there is no
    difference, not even in what is evaluated.) -/
inductive CParse : CLevel → List Tok → CExpr → Prop where
  | fromAnd {t : List Tok} {e : CExpr} : CParse .and t e → CParse .or t e
  | fromCmp {t : List Tok} {e : CExpr} : CParse .cmp t e → CParse .and t e
  | fromUnary {t : List Tok} {e : CExpr} : CParse .unary t e → CParse .cmp t e
  | or {t u : List Tok} {e k : CExpr} : CParse .and t e → CParse .or u k → CParse .or (t ++ .or :: u) (.or e k)
  | and {t u : List Tok} {e k : CExpr} : CParse .cmp t e → CParse .and u k → CParse .and (t ++ .and :: u) (.and e k)
  | cmp {op : Str} {t u : List Tok} {e k : CExpr} : CParse .unary t e → CParse .unary u k → CParse .cmp (t ++ .cmp op :: u) (.cmp op e k)
  | not {t : List Tok} {e : CExpr} : CParse .unary t e → CParse .unary (.not :: t) (.not e)
  | paren {t : List Tok} {e : CExpr} : CParse .or t e → CParse .unary (.lpar :: (t ++ [.rpar])) e
  | cast {a : Acc} {t : List Tok} {e : CExpr} : CParse .or t e → CParse .unary (.cast a :: (t ++ [.rpar])) (.cast a e)
  | castSize {t : List Tok} {e : CExpr} : CParse .or t e → CParse .unary (.castSize :: (t ++ [.rpar])) (.castSize e)
  | exists {a : Acc} : CParse .unary [.exists a] (.exists a)
  | get {a : Acc} {l : Last} : CParse .unary [.get a l] (.get a l)
  | empty {a : Acc} : CParse .unary [.empty a] (.empty a)
  | number {s : Str} : CParse .unary [.text s] (.number s)
  | quoted {s : Str} : CParse .unary [.quoted s] (.quoted s)

/-- `.field()` of an optional field, `.field_NAME()` of a bundle or bitfield. -/
def CObj.step : CObj → Step → Option CObj
  | .opt _ o, .field => some o
  | .tuple ms, .member n => entry ms n
  | _, _ => none

/-- One step after the other. -/
def CObj.walk : List Step → CObj → Option CObj
  | [], o => some o
  | s :: r, o => match o.step s with
    | some o' => CObj.walk r o'
    | none => none

/-- The object an access leads to. -/
def objAt (env : List (Str × CObj)) (a : Acc) : Option CObj :=
  match entry env a.name with
  | some o => CObj.walk a.steps o
  | none => none

/-- Values of expressions: `bool`, a number of a C++ type, the number of a literal, `std::size_t`, a string. -/
inductive CVal where
  | bool (b : Bool)
  | num (ty : CppInt) (x : Int)
  | literal (x : Int)
  | size (n : Nat)
  | text (s : Str)

/-- Conversion to a C++ integer type (a signed one has a bit for the sign): the number of the type that is equal modulo `2^w`. -/
def CppConv (ty : CppInt) (x y : Int) : Prop := (ty.1 = true → 0 < ty.2) ∧ CppHolds ty y ∧ ∃ k : Int, x = y + k * 2 ^ ty.2

/-- The comparison operators on numbers. -/
def CmpHolds (op : Str) (x y : Int) : Prop :=
  (op = "==".toList ∧ x = y) ∨ (op = "!=".toList ∧ x ≠ y) ∨ (op = "<".toList ∧ x < y) ∨ (op = "<=".toList ∧ x ≤ y) ∨ (op = ">".toList ∧ x > y) ∨
    (op = ">=".toList ∧ x ≥ y)

/-- The characters stand for themselves in a C++ string literal. -/
def PlainText (s : Str) : Prop := ∀ c ∈ s, c ≠ '"' ∧ c ≠ '\\' ∧ c ≠ '\n'

/-- Evaluation. The right side of `&&` is evaluated if the left one is true, that of `||` if it is false. Both sides of a comparison are of the same type. -/
inductive CEval (env : List (Str × CObj)) : CExpr → CVal → Prop where
  | exists {a : Acc} {b : Bool} {o : CObj} : objAt env a = some (.opt b o) → CEval env (.exists a) (.bool b)
  | getNum {a : Acc} {ty : CppInt} {x : Int} : objAt env a = some (.num ty x) → CEval env (.get a .value) (.num ty x)
  | getSet {a : Acc} {acc : BitAccess} {ty : CppInt} {x : Nat} : objAt env a = some (.set acc ty x) → CEval env (.get a .value) (.num ty x)
  | getText {a : Acc} {s : Str} : objAt env a = some (.text s) → CEval env (.get a .value) (.text s)
  | getBit {a : Acc} {acc : BitAccess} {ty : CppInt} {x i : Nat} {n : Str} : objAt env a = some (.set acc ty x) → AccessIdx acc n i →
      (∀ j, AccessIdx acc n j → j = i) → CEval env (.get a (.bit n)) (.bool (x.testBit i))
  | textSize {a : Acc} {s : Str} : objAt env a = some (.text s) → CEval env (.get a .size) (.size s.length)
  | seqSize {a : Acc} {n : Nat} : objAt env a = some (.seq n) → CEval env (.get a .size) (.size n)
  | textEmpty {a : Acc} {s : Str} : objAt env a = some (.text s) → CEval env (.empty a) (.bool (decide (s.length = 0)))
  | seqEmpty {a : Acc} {n : Nat} : objAt env a = some (.seq n) → CEval env (.empty a) (.bool (decide (n = 0)))
  | number {s : Str} {x : Int} : CppExpr s x → CEval env (.number s) (.literal x)
  | quoted {s : Str} : PlainText s → CEval env (.quoted s) (.text s)
  | castLiteral {a : Acc} {ty : CppInt} {e : CExpr} {x y z : Int} : objAt env a = some (.num ty z) → CEval env e (.literal x) → CppConv ty x y →
      CEval env (.cast a e) (.num ty y)
  | castNum {a : Acc} {ty ty' : CppInt} {e : CExpr} {x y z : Int} : objAt env a = some (.num ty z) → CEval env e (.num ty' x) → CppConv ty x y →
      CEval env (.cast a e) (.num ty y)
  | castSet {a : Acc} {acc : BitAccess} {ty : CppInt} {e : CExpr} {x y : Int} {z : Nat} : objAt env a = some (.set acc ty z) → CEval env e (.literal x) →
      CppConv ty x y → CEval env (.cast a e) (.num ty y)
  | castSize {e : CExpr} {x y : Int} : CEval env e (.literal x) → CppConv (false, 64) x y → CEval env (.castSize e) (.size y.toNat)
  | not {e : CExpr} {b : Bool} : CEval env e (.bool b) → CEval env (.not e) (.bool !b)
  | cmpNum {op : Str} {l r : CExpr} {ty : CppInt} {x y : Int} {b : Bool} : CEval env l (.num ty x) → CEval env r (.num ty y) →
      (b = true ↔ CmpHolds op x y) → CEval env (.cmp op l r) (.bool b)
  | cmpSize {op : Str} {l r : CExpr} {x y : Nat} {b : Bool} : CEval env l (.size x) → CEval env r (.size y) → (b = true ↔ CmpHolds op x y) →
      CEval env (.cmp op l r) (.bool b)
  | eqText {op : Str} {l r : CExpr} {s t : Str} {b : Bool} : op = "==".toList → CEval env l (.text s) → CEval env r (.text t) → (b = true ↔ s = t) →
      CEval env (.cmp op l r) (.bool b)
  | neText {op : Str} {l r : CExpr} {s t : Str} {b : Bool} : op = "!=".toList → CEval env l (.text s) → CEval env r (.text t) → (b = true ↔ s ≠ t) →
      CEval env (.cmp op l r) (.bool b)
  | andFalse {l r : CExpr} : CEval env l (.bool false) → CEval env (.and l r) (.bool false)
  | andTrue {l r : CExpr} {b : Bool} : CEval env l (.bool true) → CEval env r (.bool b) → CEval env (.and l r) (.bool b)
  | orTrue {l r : CExpr} : CEval env l (.bool true) → CEval env (.or l r) (.bool true)
  | orFalse {l r : CExpr} {b : Bool} : CEval env l (.bool false) → CEval env r (.bool b) → CEval env (.or l r) (.bool b)

/-- The tokens are an expression that evaluates to the truth value. -/
def Evaluates (env : List (Str × CObj)) (t : List Tok) (b : Bool) : Prop := ∃ e, CParse .or t e ∧ CEval env e (.bool b)

/-! ## What a condition says -/

/-- A path of names leads from a field to a field inside: into the members of a bitfield or bundle, through references, into an `<optional>`. Unlike in `Inside` the
    members of a variant cannot be reached: the generated code has no access to them. -/
inductive Path : Field → List Str → Field → Prop where
  | self {f : Field} : Path f [] f
  | member {f m h : Field} {n : Str} {p : List Str} : f.kind ≠ .variant → f.members.find? (fun x => x.name == n) = some m → Path m p h → Path f (n :: p) h
  | target {c : Common} {b : Nat} {s : Slot Field} {t h : Field} {p : List Str} : p ≠ [] → t ∈ s.toList → Path t p h → Path (.ref c b s) p h
  | optional {c : Common} {st : OptState} {m h : Field} {cd : Option CondM.Cond} {p : List Str} : Path m p h →
      Path (.optional c st (.own m) cd) (m.name :: p) h

/-- A path of names (proper ones) leads from one of the fields to the field `h`, and that is (perhaps by reference) the field `l`. -/
def PathTo (fs : List Field) (p : List Str) (h l : Field) : Prop :=
  (∀ n ∈ p, Identifier n) ∧ ∃ n q m, p = n :: q ∧ fs.find? (fun x => x.name == n) = some m ∧ Path m q h ∧ Follows h l

/-- The text is, for a field with the type and the named values, the number `x`: a number, or the name of a value
    (which is stored in 64 bits). -/
inductive IntText (t : IntF.IntType) (names : List (Str × IntF.SpecialInfo)) : Str → Int → Prop where
  | number {v : Str} {x : Int} : Denotes v x → IntText t names v x
  | name {v : Str} {i : IntF.SpecialInfo} : Identifier v → IntF.findSpecial names v = some i → (-2 ^ 63 ≤ i.value ∧ i.value < 2 ^ 63) →
      IntText t names v (interp t i.value)

/-- The operator of a condition on numbers. -/
def Compares (op : Str) (x y : Int) : Prop :=
  (op = "=".toList ∧ x = y) ∨ (op = "!=".toList ∧ x ≠ y) ∨ (op = "<".toList ∧ x < y) ∨ (op = "<=".toList ∧ x ≤ y) ∨ (op = ">".toList ∧ x > y) ∨
    (op = ">=".toList ∧ x ≥ y)

/-- The field is a number and its C++ type is the given one. -/
inductive NumField : Field → CppInt → Prop where
  | int {c : Common} {st : IntF.State} {t : IntF.IntType} : st.type = some t → NumField (.int c st) (cppIntType t (IntF.maxLength st))
  | enum {c : Common} {st : EnumF.State} {t : IntF.IntType} : st.num.type = some t → NumField (.enum c st) (cppIntType t (IntF.maxLength st.num))

/-- On the way from the field along the path there is a field that can be missing: an `<optional>`, or one that not all supported versions have. -/
inductive MayMiss (g : GVer) : Place → Field → List Str → Prop where
  | version {pl : Place} {f : Field} {p : List Str} : versionOpt g pl f = true → MayMiss g pl f p
  | optional {pl : Place} {c : Common} {st : OptState} {s : Slot Field} {cd : Option CondM.Cond} {p : List Str} : MayMiss g pl (.optional c st s cd) p
  | member {pl : Place} {f m : Field} {n : Str} {p : List Str} : f.kind ≠ .variant → f.members.find? (fun x => x.name == n) = some m →
      MayMiss g (.field f.since pl) m p → MayMiss g pl f (n :: p)
  | target {pl : Place} {c : Common} {b : Nat} {s : Slot Field} {t : Field} {p : List Str} : t ∈ s.toList → MayMiss g .other t p → MayMiss g pl (.ref c b s) p

/-- What one check or comparison says about the values of the fields `fs`. A comparison with a field that is missing, and a check of a bit of it, is false. The
    cases not listed are those in which the generated code is wrong or which are not modelled. -/
inductive Says (g : GVer) (pl : Place) (fs : List Field) : CondM.Expr → (FVal → Prop) → Prop where
  /-- `$path.bit` -/
  | bit {p : List Str} {h : Field} {c : Common} {st : SetF.State} {n : Str} {i : SetF.BitInfo} : PathTo fs p h (.set c st) → SetF.Accepted st →
      (n, i) ∈ st.bits → n ≠ [] → i.idx < 64 → (∀ q ∈ st.bits, q.2.idx < 64) →
      Says g pl fs ⟨[], [], '$' :: (joinDots p ++ '.' :: n)⟩ fun v => ∃ x : Nat, v.at p = .num x ∧ x.testBit i.idx = true
  /-- `!$path.bit` -/
  | noBit {p : List Str} {h : Field} {c : Common} {st : SetF.State} {n : Str} {i : SetF.BitInfo} : PathTo fs p h (.set c st) → SetF.Accepted st →
      (n, i) ∈ st.bits → n ≠ [] → i.idx < 64 → (∀ q ∈ st.bits, q.2.idx < 64) →
      Says g pl fs ⟨[], "!".toList, '$' :: (joinDots p ++ '.' :: n)⟩ fun v => ∃ x : Nat, v.at p = .num x ∧ x.testBit i.idx = false
  /-- `$?path` -/
  | exists {p : List Str} {n : Str} {q : List Str} {m h l : Field} : PathTo fs p h l → p = n :: q → fs.find? (fun x => x.name == n) = some m →
      MayMiss g pl m q → Says g pl fs ⟨[], [], '$' :: '?' :: joinDots p⟩ fun v => v.at p ≠ .missing
  /-- `!$?path` -/
  | missing {p : List Str} {n : Str} {q : List Str} {m h l : Field} : PathTo fs p h l → p = n :: q → fs.find? (fun x => x.name == n) = some m →
      MayMiss g pl m q → Says g pl fs ⟨[], "!".toList, '$' :: '?' :: joinDots p⟩ fun v => v.at p = .missing
  /-- `$path OP value`, an `<int>` -/
  | int {p : List Str} {h : Field} {c : Common} {st : IntF.State} {t : IntF.IntType} {op r : Str} {y : Int} : PathTo fs p h (.int c st) →
      st.type = some t → op ∈ condOps → IntText t st.specials r y → CppHolds (cppIntType t (IntF.maxLength st)) y → -2 ^ 63 < y →
      Says g pl fs ⟨'$' :: joinDots p, op, r⟩ fun v => ∃ x, v.at p = .num x ∧ Compares op x y
  /-- `$path OP value`, an `<enum>` -/
  | enum {p : List Str} {h : Field} {c : Common} {st : EnumF.State} {t : IntF.IntType} {op r : Str} {y : Int} : PathTo fs p h (.enum c st) →
      st.num.type = some t → op ∈ condOps → IntText t st.values r y → CppHolds (cppIntType t (IntF.maxLength st.num)) y → -2 ^ 63 < y → y < 2 ^ 63 →
      Says g pl fs ⟨'$' :: joinDots p, op, r⟩ fun v => ∃ x, v.at p = .num x ∧ Compares op x y
  /-- `$path OP number`, a `<set>` -/
  | set {p : List Str} {h : Field} {c : Common} {st : SetF.State} {op r : Str} {y : Nat} : PathTo fs p h (.set c st) → op ∈ condOps → DenotesU r y →
      y < 2 ^ 63 → y < 2 ^ (8 * st.length) → Says g pl fs ⟨'$' :: joinDots p, op, r⟩ fun v => ∃ x, v.at p = .num x ∧ Compares op x y
  /-- `$path = text` -/
  | textEq {p : List Str} {h : Field} {c : Common} {st : SeqState Char} {sl : Slot Field} {r : Str} : PathTo fs p h (.string c st sl) → PlainText r →
      '^' ∉ r → r.head? ≠ some '$' → r.head? ≠ some '%' → Says g pl fs ⟨'$' :: joinDots p, "=".toList, r⟩ fun v => v.at p = .text r
  /-- `$path != text` -/
  | textNe {p : List Str} {h : Field} {c : Common} {st : SeqState Char} {sl : Slot Field} {r : Str} : PathTo fs p h (.string c st sl) → PlainText r →
      '^' ∉ r → r.head? ≠ some '$' → r.head? ≠ some '%' → Says g pl fs ⟨'$' :: joinDots p, "!=".toList, r⟩ fun v => ∃ s, v.at p = .text s ∧ s ≠ r
  /-- `$path OP $path`, numbers; the type on the left holds all values of the type on the right -/
  | fields {p q : List Str} {h h' l l' : Field} {ty ty' : CppInt} {op : Str} : PathTo fs p h l → PathTo fs q h' l' → NumField l ty → NumField l' ty' →
      (∀ x, CppHolds ty' x → CppHolds ty x) → op ∈ condOps →
      Says g pl fs ⟨'$' :: joinDots p, op, '$' :: joinDots q⟩ fun v => ∃ x y, v.at p = .num x ∧ v.at q = .num y ∧ Compares op x y
  /-- `$#path OP number`, the length of a text, the number of bytes or elements -/
  | size {p : List Str} {h l : Field} {op r : Str} {y : Nat} : PathTo fs p h l → (l.kind = .string ∨ l.kind = .data ∨ l.kind = .list) → op ∈ condOps →
      DenotesU r y → y < 2 ^ 63 →
      Says g pl fs ⟨'$' :: '#' :: joinDots p, op, r⟩ fun v => ∃ n : Nat, (v.at p = .seq n ∨ ∃ s, v.at p = .text s ∧ s.length = n) ∧ Compares op n y

mutual
/-- What a condition says: all of a list, or some of it. -/
inductive SaysCond (g : GVer) (pl : Place) (fs : List Field) : CondM.Cond → (FVal → Prop) → Prop where
  | expr {e : CondM.Expr} {P : FVal → Prop} : Says g pl fs e P → SaysCond g pl fs (.expr e) P
  | all {cs : List CondM.Cond} {Ps : List (FVal → Prop)} : cs ≠ [] → SaysConds g pl fs cs Ps → SaysCond g pl fs (.list .and cs) fun v => ∀ P ∈ Ps, P v
  | some {cs : List CondM.Cond} {Ps : List (FVal → Prop)} : cs ≠ [] → SaysConds g pl fs cs Ps → SaysCond g pl fs (.list .or cs) fun v => ∃ P ∈ Ps, P v
/-- Condition by condition. -/
inductive SaysConds (g : GVer) (pl : Place) (fs : List Field) : List CondM.Cond → List (FVal → Prop) → Prop where
  | nil : SaysConds g pl fs [] []
  | cons {c : CondM.Cond} {cs : List CondM.Cond} {P : FVal → Prop} {Ps : List (FVal → Prop)} : SaysCond g pl fs c P → SaysConds g pl fs cs Ps →
      SaysConds g pl fs (c :: cs) (P :: Ps)
end

/-- Running the refresh function of an optional field, of which the field existed or not before: whether it exists then, and the result of the function, which tells
    whether that has changed. Without a function nothing happens. -/
inductive Refresh (env : List (Str × CObj)) : Option (List Tok) → Bool → Bool → Bool → Prop where
  | none {before : Bool} : Refresh env none before before false
  | some {t : List Tok} {before after : Bool} : Evaluates env t after → Refresh env (some t) before after (before != after)

/-- Running `valid()` of a bundle, bitfield or message, of which all fields are valid or not. -/
inductive ValidResult (env : List (Str × CObj)) : Option (List Tok) → Bool → Bool → Prop where
  | none {base : Bool} : ValidResult env none base base
  | invalid {t : List Tok} : ValidResult env (some t) false false
  | some {t : List Tok} {b : Bool} : Evaluates env t b → ValidResult env (some t) true b

end Commsdsl.Spec
