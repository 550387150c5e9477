import Verif.Model.GenIface
import Verif.Spec.GenCond
/-!
# Conditions on the fields of interfaces: what they say, what the statements of the constructor do (C123, C124)
-/
namespace Commsdsl.Spec
open Commsdsl Text Fld Gen

/-- No proper beginning of the dotted path leads to an `<optional>`: the path does not go through one. -/
def Outside (fs : List Field) (s : Str) : Prop :=
  ∀ p q h c st sl cd, s = joinDots (p ++ q) → q ≠ [] → ¬ PathTo fs p h (.optional c st sl cd)

mutual
/-- The first condition is the second one with `%`, a field of the interface, in place of `$`, a field beside. Left out: comparisons of two fields. -/
inductive IfaceOf (fs : List Field) : CondM.Cond → CondM.Cond → Prop where
  /-- `%path.bit` -/
  | bit {op s : Str} : s.head? ≠ some '?' → s.head? ≠ some '#' → Outside fs s → IfaceOf fs (.expr ⟨[], op, '%' :: s⟩) (.expr ⟨[], op, '$' :: s⟩)
  /-- `%?path` -/
  | exists {op s : Str} : Outside fs s → IfaceOf fs (.expr ⟨[], op, '%' :: '?' :: s⟩) (.expr ⟨[], op, '$' :: '?' :: s⟩)
  /-- `%path OP value` -/
  | value {op s r : Str} : s.head? ≠ some '?' → s.head? ≠ some '#' → Outside fs s → r.head? ≠ some '$' → r.head? ≠ some '%' →
      IfaceOf fs (.expr ⟨'%' :: s, op, r⟩) (.expr ⟨'$' :: s, op, r⟩)
  /-- `%#path OP number` -/
  | size {op s r : Str} : Outside fs s → IfaceOf fs (.expr ⟨'%' :: '#' :: s, op, r⟩) (.expr ⟨'$' :: '#' :: s, op, r⟩)
  | list {t : CondM.ListType} {cs ds : List CondM.Cond} : IfacesOf fs cs ds → IfaceOf fs (.list t cs) (.list t ds)
/-- Condition by condition. -/
inductive IfacesOf (fs : List Field) : List CondM.Cond → List CondM.Cond → Prop where
  | nil : IfacesOf fs [] []
  | cons {c d : CondM.Cond} {cs ds : List CondM.Cond} : IfaceOf fs c d → IfacesOf fs cs ds → IfacesOf fs (c :: cs) (d :: ds)
end

/-- The interfaces of the schema, one of them with the fields; fields of the same name are the same in all of them. -/
def Same (ifs : List (List Field)) (fs : List Field) : Prop := fs ∈ ifs ∧ ∀ fs' ∈ ifs, ∀ f ∈ fs', ∀ m ∈ fs, f.name = m.name → f = m

/-- Running the check at the beginning of the read function: the message is read or not. -/
inductive Admits (env : List (Str × CObj)) : Option (List Tok) → Bool → Prop where
  | none : Admits env none true
  | some {t : List Tok} {b : Bool} : Evaluates env t b → Admits env (some t) b

/-! ## Statements -/

/-- Puts another object in place of the first one of the name. -/
def setEntry {α : Type} (n : Str) (a : α) : List (Str × α) → List (Str × α)
  | [] => []
  | (k, b) :: l => if k = n then (k, a) :: l else (k, b) :: setEntry n a l

/-- Puts an object in place of the one to which the steps lead; the modes of optional fields stay. -/
def CObj.put : List Step → CObj → CObj → CObj
  | [], new, _ => new
  | .field :: r, new, .opt b o => .opt b (CObj.put r new o)
  | .member n :: r, new, .tuple ms => .tuple (setEntry n (match entry ms n with | some o => CObj.put r new o | none => .other) ms)
  | _ :: _, _, o => o

/-- The same among the fields of the message interface. -/
def putAt (env : List (Str × CObj)) (a : Acc) (new : CObj) : List (Str × CObj) :=
  match entry env a.name with
  | some o => setEntry a.name (CObj.put a.steps new o) env
  | none => env

/-- Running a statement: setting a bit, assigning a value. The value is cast to the type, which is that of the field. -/
inductive Exec (env : List (Str × CObj)) : Stmt → List (Str × CObj) → Prop where
  | bit {a : Acc} {n : Str} {b : Bool} {acc : BitAccess} {ty : CppInt} {x x' i : Nat} : objAt env a = some (.set acc ty x) → AccessIdx acc n i →
      (∀ j, AccessIdx acc n j → j = i) → (∀ j, x'.testBit j = if j = i then b else x.testBit j) →
      Exec env (.bit a n b) (putAt env a (.set acc ty x'))
  | num {a : Acc} {p : List Step} {v : Tok} {e : CExpr} {ty : CppInt} {x y : Int} : objAt env a = some (.num ty x) → CParse .or [v] e →
      CEval env (.cast ⟨a.name, p⟩ e) (.num ty y) → Exec env (.value a (some p) v) (putAt env a (.num ty y))
  | set {a : Acc} {p : List Step} {v : Tok} {e : CExpr} {acc : BitAccess} {ty : CppInt} {x : Nat} {y : Int} : objAt env a = some (.set acc ty x) →
      CParse .or [v] e → CEval env (.cast ⟨a.name, p⟩ e) (.num ty y) → Exec env (.value a (some p) v) (putAt env a (.set acc ty y.toNat))

/-- One statement after the other. -/
inductive ExecAll : List (Str × CObj) → List Stmt → List (Str × CObj) → Prop where
  | nil {env : List (Str × CObj)} : ExecAll env [] env
  | cons {env env' env'' : List (Str × CObj)} {s : Stmt} {ss : List Stmt} : Exec env s env' → ExecAll env' ss env'' → ExecAll env (s :: ss) env''

/-! ## What the constructor is asked for -/

/-- A bit of a `<set>` has a value, or a number has. -/
inductive Ask where
  | bit (i : Nat) (b : Bool)
  | num (y : Int)

/-- The value is as it was asked for. -/
def Ask.Holds : Ask → FVal → Prop
  | .bit i b, v => ∃ x : Nat, v = .num x ∧ x.testBit i = b
  | .num y, v => v = .num y

/-- What one check or comparison asks of the field at the end of a path of names; the fields are those of the interface. -/
inductive AsksOne (fs : List Field) : CondM.Expr → List Str → Ask → Prop where
  /-- `%path.bit` -/
  | bit {p : List Str} {h : Field} {c : Common} {st : SetF.State} {n : Str} {i : SetF.BitInfo} : PathTo fs p h (.set c st) → SetF.Accepted st →
      (n, i) ∈ st.bits → n ≠ [] → i.idx < 64 → (∀ q ∈ st.bits, q.2.idx < 64) → Outside fs (joinDots p ++ '.' :: n) →
      AsksOne fs ⟨[], [], '%' :: (joinDots p ++ '.' :: n)⟩ p (.bit i.idx true)
  /-- `!%path.bit` -/
  | noBit {p : List Str} {h : Field} {c : Common} {st : SetF.State} {n : Str} {i : SetF.BitInfo} : PathTo fs p h (.set c st) → SetF.Accepted st →
      (n, i) ∈ st.bits → n ≠ [] → i.idx < 64 → (∀ q ∈ st.bits, q.2.idx < 64) → Outside fs (joinDots p ++ '.' :: n) →
      AsksOne fs ⟨[], "!".toList, '%' :: (joinDots p ++ '.' :: n)⟩ p (.bit i.idx false)
  /-- `%path = value`, an `<int>` -/
  | int {p : List Str} {h : Field} {c : Common} {st : IntF.State} {t : IntF.IntType} {r : Str} {y : Int} : PathTo fs p h (.int c st) →
      st.type = some t → IntText t st.specials r y → CppHolds (cppIntType t (IntF.maxLength st)) y → -2 ^ 63 < y → Outside fs (joinDots p) →
      AsksOne fs ⟨'%' :: joinDots p, "=".toList, r⟩ p (.num y)
  /-- `%path = value`, an `<enum>` -/
  | enum {p : List Str} {h : Field} {c : Common} {st : EnumF.State} {t : IntF.IntType} {r : Str} {y : Int} : PathTo fs p h (.enum c st) →
      st.num.type = some t → IntText t st.values r y → CppHolds (cppIntType t (IntF.maxLength st.num)) y → -2 ^ 63 < y → y < 2 ^ 63 →
      Outside fs (joinDots p) → AsksOne fs ⟨'%' :: joinDots p, "=".toList, r⟩ p (.num y)
  /-- `%path = number`, a `<set>` -/
  | set {p : List Str} {h : Field} {c : Common} {st : SetF.State} {r : Str} {y : Nat} : PathTo fs p h (.set c st) → DenotesU r y →
      y < 2 ^ 63 → y < 2 ^ (8 * st.length) → Outside fs (joinDots p) → AsksOne fs ⟨'%' :: joinDots p, "=".toList, r⟩ p (.num y)

mutual
/-- All that a condition asks for. Left out: other kinds of fields, comparisons of two fields (see the witnesses). -/
inductive Asks (fs : List Field) : CondM.Cond → List (List Str × Ask) → Prop where
  | expr {e : CondM.Expr} {p : List Str} {a : Ask} : AsksOne fs e p a → Asks fs (.expr e) [(p, a)]
  | all {cs : List CondM.Cond} {l : List (List Str × Ask)} : cs ≠ [] → AsksAll fs cs l → Asks fs (.list .and cs) l
/-- Condition by condition. -/
inductive AsksAll (fs : List Field) : List CondM.Cond → List (List Str × Ask) → Prop where
  | nil : AsksAll fs [] []
  | cons {c : CondM.Cond} {cs : List CondM.Cond} {l l' : List (List Str × Ask)} : Asks fs c l → AsksAll fs cs l' → AsksAll fs (c :: cs) (l ++ l')
end

/-- All of it holds. -/
def Met (l : List (List Str × Ask)) (v : FVal) : Prop := ∀ k ∈ l, k.2.Holds (v.at k.1)

/-- The value at the path is not asked for: neither the number nor one of its bits. -/
def Unasked (l : List (List Str × Ask)) (q : List Str) : Prop := ∀ k ∈ l, k.1 ≠ q

/-- The bit at the path is not asked for, and the set neither as a number. -/
def NotAskedBit (l : List (List Str × Ask)) (q : List Str) (j : Nat) : Prop := ∀ k ∈ l, k.1 = q → ∃ i b, k.2 = .bit i b ∧ i ≠ j

end Commsdsl.Spec
