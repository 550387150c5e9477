import Verif.Props.GenCond
import Verif.Lemmas.Sample
/-!
# Examples and witnesses for conditions in the generated code (C88 to C90)
-/
namespace Commsdsl.Props
open Commsdsl Text Fld Gen Spec
open GCond

namespace CondSample

/-- Version 5, all versions from 0 are supported. -/
def g : GVer := { parsed := 5, versionDependent := true }
def pl : Place := .message 0
def int (n : String) (t : IntF.IntType) (len : Nat) (since : Nat := 0) : Field :=
  .int { name := n.toList, w := { since := since } } { type := some t, length := len }
def flags : SetF.State := GenSetSample.parsed [("length", "1")] [GenSetSample.bit "One" "1", GenSetSample.bit "Three" "3"]
def setF : Field := .set { name := "Flags".toList } flags
def text : Field := .string { name := "T".toList } {} .none
def inner : Field := .bundle { name := "x".toList } [int "M" .int8 1, text] [] none
def opt : Field := .optional { name := "O".toList } {} (.own (int "X" .uint8 1)) none
/-- An unsigned byte, a set, a field since version 2, an optional field, a reference to a bundle. -/
def fs : List Field := [int "A" .uint8 1, setF, int "V" .uint16 2 2, opt, .ref { name := "B".toList } 0 (.ext inner)]

def objs (o : CObj) : List (Str × CObj) :=
  [("a".toList, .num (false, 8) 7), ("flags".toList, .set (bitAccess flags) (false, 8) 8), ("v".toList, .opt true (.num (false, 16) 300)), ("o".toList, o),
    ("b".toList, .tuple [("m".toList, .num (true, 8) (-9)), ("t".toList, .text "hello".toList)])]
def vals (o : FVal) : List (Str × FVal) :=
  [("A".toList, .num 7), ("Flags".toList, .num 8), ("V".toList, .num 300), ("O".toList, o),
    ("B".toList, .members [("M".toList, .num (-9)), ("T".toList, .text "hello".toList)])]

theorem cons {g : GVer} {pl : Place} {m : Field} {ms : List Field} {n k : Str} {o : CObj} {v : FVal} {os : List (Str × CObj)} {vs : List (Str × FVal)}
    (h1 : accessName m.name = n) (h2 : m.name = k) (h : ∀ x ∈ ms.map Field.name, accessName x ≠ n) (hh : Stores g pl m o v) (ht : StoresMembers g pl ms os vs) :
    StoresMembers g pl (m :: ms) ((n, o) :: os) ((k, v) :: vs) := by
  subst h1; subst h2
  exact .cons (fun x hx => h x.name (List.mem_map.2 ⟨x, hx, rfl⟩)) hh ht

theorem intH {g : GVer} {pl : Place} {n : String} {t : IntF.IntType} {len s : Nat} {ty : CppInt} {x : Int} (h : cppIntType t len = ty) (hx : CppHolds ty x) :
    StoresBody g pl (int n t len s) (.num ty x) (.num x) := by
  subst h
  exact .int (c := { name := n.toList, w := { since := s } }) (st := { type := some t, length := len }) rfl hx

/-- The optional field is missing. -/
theorem holds {o : CObj} {v : FVal} (ho : Stores g pl opt o v) : StoresMembers g pl fs (objs o) (vals v) := by
  refine cons (by decide) (by decide) (by decide) (.plain (by decide) (intH (by decide) (by simp [CppHolds]))) ?_
  refine cons (by decide) (by decide) (by decide) (.plain (by decide +kernel) (.set (w := 8) (by decide +kernel) (by decide))) ?_
  refine cons (by decide) (by decide) (by decide) (.there (by decide) (intH (by decide) (by simp [CppHolds]))) ?_
  refine cons (by decide) (by decide) (by decide) ho ?_
  refine cons (by decide) (by decide) (by decide) (.plain (by decide) (.ref (t := inner) (by simp [Slot.toList]) (.plain (by decide) (.bundle ?_)))) .nil
  refine cons (by decide) (by decide) (by decide) (.plain (by decide) (intH (by decide) (by simp [CppHolds]))) ?_
  exact cons (by decide) (by decide) (by decide) (.plain (by decide) .string) .nil

theorem missing : Stores g pl opt (.opt false (.num (false, 8) 0)) .missing := .plain (by decide) .none

theorem there (x : Int) (h : 0 ≤ x ∧ x ≤ 255) : Stores g pl opt (.opt true (.num (false, 8) x)) (.members [("X".toList, .num x)]) :=
  .plain (by decide) (.own (.plain (by decide) (intH (by decide) (by simpa [CppHolds] using h))))

def e (l op r : String) : CondM.Cond := .expr ⟨l.toList, op.toList, r.toList⟩

theorem says {e e' : CondM.Expr} {P : FVal → Prop} (h : Says g pl fs e P) (he : e = e') : SaysCond g pl fs (.expr e') P := he ▸ .expr h

/-- Checks and comparisons of every kind, in two lists. -/
def cond : CondM.Cond := .list .and [e "" "" "$Flags.Three", .list .or [e "" "!" "$?O", e "$O.X" ">=" "0x3"], e "" "!" "$Flags.One", e "" "" "$?V", e "$V" "!=" "$A",
  e "$B.M" "<" "-5", e "$#B.T" ">" "0", e "$B.T" "=" "hello", e "$B.T" "!=" "no", e "$Flags" "<=" "8"]

theorem name (s : String) (h : isValidName s.toList = true) : Identifier s.toList := (C02_name_iff _).1 h

theorem one {s : String} {m : Field} (hs : Identifier s.toList) (hf : fs.find? (fun x => x.name == s.toList) = some m) (hk : m.kind ≠ .ref) :
    PathTo fs [s.toList] m m := ⟨by simpa using hs, _, _, m, rfl, hf, .self, .self hk⟩

theorem pathSet : PathTo fs ["Flags".toList] setF setF := one (name _ (by decide)) rfl (by decide)
theorem pathV : PathTo fs ["V".toList] (int "V" .uint16 2 2) (int "V" .uint16 2 2) := one (name _ (by decide)) rfl (by decide)
theorem pathA : PathTo fs ["A".toList] (int "A" .uint8 1) (int "A" .uint8 1) := one (name _ (by decide)) rfl (by decide)
theorem pathO : PathTo fs ["O".toList] opt opt := one (name _ (by decide)) rfl (by decide)
theorem pathX : PathTo fs ["O".toList, "X".toList] (int "X" .uint8 1) (int "X" .uint8 1) :=
  ⟨by rintro n hn; simp only [List.mem_cons, List.not_mem_nil, or_false] at hn; rcases hn with rfl | rfl <;> exact name _ (by decide),
    "O".toList, _, opt, rfl, rfl, .optional (m := int "X" .uint8 1) .self, .self (by decide)⟩
theorem pathM : PathTo fs ["B".toList, "M".toList] (int "M" .int8 1) (int "M" .int8 1) :=
  ⟨by rintro n hn; simp only [List.mem_cons, List.not_mem_nil, or_false] at hn; rcases hn with rfl | rfl <;> exact name _ (by decide),
    "B".toList, _, _, rfl, rfl, .target (t := inner) (by simp) (by simp [Slot.toList]) (.member (by decide) rfl .self), .self (by decide)⟩
theorem pathT : PathTo fs ["B".toList, "T".toList] text text :=
  ⟨by rintro n hn; simp only [List.mem_cons, List.not_mem_nil, or_false] at hn; rcases hn with rfl | rfl <;> exact name _ (by decide),
    "B".toList, _, _, rfl, rfl, .target (t := inner) (by simp) (by simp [Slot.toList]) (.member (by decide) rfl .self), .self (by decide)⟩

theorem flags_ok : SetF.Accepted flags := .fresh (GenSetSample.parsed_ok (by decide +kernel))
theorem plain (s : String) (h : (s.toList.all fun c => c != '"' && c != '\\' && c != '\n') = true) : PlainText s.toList := by
  intro c hc
  have := List.all_eq_true.1 h c hc
  simp at this
  exact ⟨this.1.1, this.1.2, this.2⟩

theorem dec (c : Char) (h : DecDigit c) (h0 : c ≠ '0') : DenotesU [c] (posVal 10 [c]) := .dec c [] h0 (by simpa using h)

theorem bit3 : ∃ i, ("Three".toList, i) ∈ flags.bits ∧ i.idx = 3 := by
  have : (flags.bits.any fun p => p.1 == "Three".toList && p.2.idx == 3) = true := by decide +kernel
  obtain ⟨p, h1, h2⟩ := List.any_eq_true.1 this
  simp only [Bool.and_eq_true, beq_iff_eq] at h2
  exact ⟨p.2, h2.1 ▸ h1, h2.2⟩

theorem bit1 : ∃ i, ("One".toList, i) ∈ flags.bits ∧ i.idx = 1 := by
  have : (flags.bits.any fun p => p.1 == "One".toList && p.2.idx == 1) = true := by decide +kernel
  obtain ⟨p, h1, h2⟩ := List.any_eq_true.1 this
  simp only [Bool.and_eq_true, beq_iff_eq] at h2
  exact ⟨p.2, h2.1 ▸ h1, h2.2⟩

theorem cond_says : ∃ P, SaysCond g pl fs cond P ∧ (∀ v, P (.members (vals v)) ↔ v = .missing ∨ ∃ x, v.at ["X".toList] = .num x ∧ 3 ≤ x) := by
  obtain ⟨i3, b3, e3⟩ := bit3
  obtain ⟨i1, b1, e1⟩ := bit1
  refine ⟨_, .all (by simp) (.cons (says (.bit (n := "Three".toList) pathSet flags_ok b3 (by decide) (by omega) (by decide +kernel)) (by rfl))
    (.cons (.some (by simp) (.cons (says (.missing pathO rfl rfl .optional) (by rfl)) (.cons (says (.int (t := .uint8) (op := ">=".toList) (r := "0x3".toList) pathX rfl (by decide)
      (.number (.plain (.hex 'x' ['3'] (.inl rfl) (by simp) (by simp [HexDigit])))) (by simp [CppHolds]; decide) (by decide)) (by rfl)) .nil)))
    (.cons (says (.noBit (n := "One".toList) pathSet flags_ok b1 (by decide) (by omega) (by decide +kernel)) (by rfl))
    (.cons (says (.exists pathV rfl rfl (.version (by decide))) (by rfl))
    (.cons (says (.fields (op := "!=".toList) pathV pathA (.int rfl) (.int rfl) (by simp [CppHolds, cppIntType]; omega) (by decide)) (by rfl))
    (.cons (says (.int (t := .int8) (op := "<".toList) (r := "-5".toList) pathM rfl (by decide) (.number (.minus (dec '5' (by decide) (by decide)))) (by simp [CppHolds]; decide) (by decide)) (by rfl))
    (.cons (says (.size (op := ">".toList) (r := "0".toList) pathT (.inl rfl) (by decide) (.oct [] (by simp)) (by decide)) (by rfl))
    (.cons (says (.textEq (r := "hello".toList) pathT (plain _ (by decide)) (by decide) (by decide) (by decide)) (by rfl))
    (.cons (says (.textNe (r := "no".toList) pathT (plain _ (by decide)) (by decide) (by decide) (by decide)) (by rfl))
    (.cons (says (.set (op := "<=".toList) (r := "8".toList) pathSet (by decide) (dec '8' (by decide) (by decide)) (by decide) (by decide +kernel)) (by rfl)) .nil)))))))))), ?_⟩
  intro v
  have a1 : (FVal.members (vals v)).at ["Flags".toList] = .num 8 := rfl
  have a2 : (FVal.members (vals v)).at ["O".toList] = v := rfl
  have a3 : (FVal.members (vals v)).at ["O".toList, "X".toList] = v.at ["X".toList] := rfl
  have a4 : (FVal.members (vals v)).at ["V".toList] = .num 300 := rfl
  have a5 : (FVal.members (vals v)).at ["A".toList] = .num 7 := rfl
  have a6 : (FVal.members (vals v)).at ["B".toList, "M".toList] = .num (-9) := rfl
  have a7 : (FVal.members (vals v)).at ["B".toList, "T".toList] = .text "hello".toList := rfl
  have n8 : ∀ x : Nat, FVal.num 8 = FVal.num x ↔ x = 8 := by
    intro x
    constructor
    · intro h; injection h with h; omega
    · rintro rfl; rfl
  have c1 : ∀ x, Compares ">=".toList x 3 ↔ 3 ≤ x := by intro x; simp [Compares]
  have c2 : Compares "!=".toList 300 7 := by simp [Compares]
  have c3 : Compares "<".toList (-9) (-5) := by simp [Compares]
  have c4 : Compares ">".toList 5 0 := by simp [Compares]
  have c5 : Compares "<=".toList 8 8 := by simp [Compares]
  simp only [List.mem_cons, List.not_mem_nil, or_false, forall_eq_or_imp, forall_eq, exists_eq_or_imp, exists_eq_left, a1, a2, a3, a4, a5, a6, a7, n8, e1, e3]
  have p1 : posVal 16 ['3'] = 3 := by decide
  have p2 : posVal 10 ['5'] = 5 := by decide
  have p3 : posVal 8 [] = 0 := rfl
  have p4 : posVal 10 ['8'] = 8 := by decide
  rw [p1, p2, p3, p4]
  refine ⟨fun h => ?_, fun h => ⟨by decide, ?_, by decide, by simp, ⟨_, _, rfl, rfl, c2⟩, ⟨_, rfl, c3⟩, ⟨5, .inr ⟨_, rfl, by decide⟩, c4⟩, trivial,
    ⟨_, rfl, by decide⟩, ⟨_, rfl, c5⟩⟩⟩
  · rcases h.2.1 with h | ⟨x, h1, h2⟩
    · exact .inl h
    · exact .inr ⟨x, h1, (c1 x).1 h2⟩
  · rcases h with h | ⟨x, h1, h2⟩
    · exact .inl h
    · exact .inr ⟨x, h1, (c1 x).2 h2⟩

end CondSample
open CondSample

/-- The hypotheses of C88 to C90 are met: a condition with checks and comparisons of every kind holds if the optional field is missing or at least 3. -/
example : ∃ P, SaysCond g pl fs cond P ∧
    (StoresMembers g pl fs (objs (.opt false (.num (false, 8) 0))) (vals .missing) ∧ P (.members (vals .missing))) ∧
    (StoresMembers g pl fs (objs (.opt true (.num (false, 8) 4))) (vals (.members [("X".toList, .num 4)])) ∧ P (.members (vals (.members [("X".toList, .num 4)])))) ∧
    StoresMembers g pl fs (objs (.opt true (.num (false, 8) 2))) (vals (.members [("X".toList, .num 2)])) ∧ ¬ P (.members (vals (.members [("X".toList, .num 2)]))) := by
  obtain ⟨P, h, hP⟩ := cond_says
  refine ⟨P, h, ⟨holds missing, (hP _).2 (.inl rfl)⟩, ⟨holds (there 4 (by omega)), (hP _).2 (.inr ⟨4, rfl, by omega⟩)⟩, holds (there 2 (by omega)), ?_⟩
  rw [hP]
  rintro (h | ⟨x, h1, h2⟩)
  · simp at h
  · have : FVal.num 2 = .num x := h1
    cases this
    omega

/-- The text of a list in a list. -/
example : condToks ⟨g, pl, fun _ => none⟩ fs true (.list .and [e "" "" "$Flags.Three", .list .or [e "" "!" "$?O", e "$#B.T" "=" "0"]]) = .ok
    [.lpar, .lpar, .get ⟨"flags".toList, []⟩ (.bit "Three".toList), .rpar, .and,
      .lpar, .lpar, .lpar, .not, .lpar, .exists ⟨"o".toList, []⟩, .rpar, .rpar, .or,
        .lpar, .empty ⟨"b".toList, [.member "t".toList]⟩, .rpar, .rpar, .rpar, .rpar] := by
  decide +kernel

/-! ## Where the generated code is wrong -/

namespace CondSample
open Sample

def g0 : GVer := { parsed := 3, versionDependent := true }
def x0 : CondEnv := ⟨g0, .other, fun _ => none⟩

/-- The generated text. -/
def gives (f : Field) (t : List Tok) : Bool :=
  match f.validCond with
  | some c => match condToks x0 f.members true c with
    | .ok r => decide (r = t)
    | _ => false
  | none => false

theorem gives_spec {f : Field} {t : List Tok} (h : gives f t = true) : ∃ c, f.validCond = some c ∧ condToks x0 f.members true c = .ok t := by
  unfold gives at h
  split at h
  · rename_i c hc
    split at h
    · rename_i r hr
      exact ⟨c, hc, by rw [hr, of_decide_eq_true h]⟩
    · simp at h
  · simp at h

/-- The condition is a single expression. -/
def isExpr (f : Field) (l op r : String) : Bool :=
  match f.validCond with
  | some (.expr e) => decide (e = ⟨l.toList, op.toList, r.toList⟩)
  | _ => false

theorem isExpr_spec {f : Field} {l op r : String} (h : isExpr f l op r = true) : f.validCond = some (e l op r) := by
  unfold isExpr at h
  split at h
  · rename_i x hx
    rw [hx, of_decide_eq_true h]
    rfl
  · simp at h

/-- An int field of the name and type, which all versions have. -/
def isInt (m : Field) (n : String) (t : IntF.IntType) : Bool :=
  !versionOpt g0 .other m && match m with
  | .int c st => c.name == n.toList && decide (st.type = some t)
  | _ => false

theorem isInt_holds {m : Field} {n : String} {t : IntF.IntType} (h : isInt m n t = true) {ty : CppInt} (ht : ∀ k, cppIntType t k = ty) {x : Int} (hx : CppHolds ty x) :
    m.name = n.toList ∧ Stores g0 .other m (.num ty x) (.num x) := by
  unfold isInt at h
  rw [Bool.and_eq_true, Bool.not_eq_true'] at h
  obtain ⟨hv, h⟩ := h
  split at h
  · rename_i c st
    simp only [Bool.and_eq_true, beq_iff_eq, decide_eq_true_eq] at h
    refine ⟨h.1, .plain hv ?_⟩
    rw [← ht (IntF.maxLength st)] at hx ⊢
    exact .int h.2 hx
  · simp at h

end CondSample

/-- C88 is false for numbers the type of the field cannot hold: `$a = 300` for an unsigned byte is accepted, and the generated condition is true for 44. -/
theorem C88_wrap_witness : ∃ f, Accepted f ∧ f.validCond = some (e "$a" "=" "300") ∧ ∃ toks, condToks x0 f.members true (e "$a" "=" "300") = .ok toks ∧
    ∃ os vs, StoresMembers g0 .other f.members os vs ∧ (FVal.members vs).at ["a".toList] = .num 44 ∧ Evaluates os toks true := by
  obtain ⟨f, h1, h2⟩ := Sample.accepted Sample.env0_ok (parent := .top) (x := Sample.el "bundle" [("name", "b"), ("validCond", "$a = 300")] [
      Sample.el "int" [("name", "a"), ("type", "uint8")]])
    (p := fun f => isExpr f "$a" "=" "300" && (match f.members with | [m] => isInt m "a" .uint8 | _ => false)) (by decide +kernel)
  simp only [Bool.and_eq_true] at h2
  obtain ⟨h2, h4⟩ := h2
  refine ⟨f, h1, isExpr_spec h2, ?_⟩
  split at h4
  · rename_i m hm
    rw [hm]
    obtain ⟨e1, e2⟩ := isInt_holds h4 (ty := (false, 8)) (fun _ => rfl) (x := 44) (by simp [CppHolds])
    obtain ⟨c, st, rfl, ht⟩ : ∃ c st, m = .int c st ∧ st.type = some .uint8 := by
      unfold isInt at h4
      rw [Bool.and_eq_true] at h4
      obtain ⟨-, h4⟩ := h4
      split at h4
      · simp only [Bool.and_eq_true, beq_iff_eq, decide_eq_true_eq] at h4; exact ⟨_, _, rfl, h4.2⟩
      · simp at h4
    have hh : StoresMembers g0 .other [.int c st] _ _ := CondSample.cons (n := "a".toList) (by rw [e1]; decide) e1 (by simp) e2 .nil
    have hp : PathTo [.int c st] ["a".toList] (.int c st) (.int c st) :=
      ⟨by simpa using name "a" (by decide), _, _, _, rfl, by simp [e1], .self, .self (by simp [Field.kind])⟩
    obtain ⟨m, o, hs⟩ := sib_of hh hp [] (fun _ => none)
    have hprep : prepValue (fun _ => none) ("300".toList.length + 1) (.int c st) [] "300".toList = .ok (.text "300".toList) := by
      have a1 : intNumber .uint8 "300".toList = some (.ok "300".toList) := by decide +kernel
      rw [prepValue, intPrep, ht]
      dsimp only
      rw [if_neg (by decide), a1]
      rfl
    obtain ⟨toks, b, r1, r2, r3⟩ := valueComp_ok (op := "==".toList) (P := True) (ct := some []) hs (by simp [checksImpl]) (by simp [valueAccImpl]) (by simp [castImpl]) hprep .number
      (by
        intro pl' o' steps hb ho
        have hv : (FVal.members [("a".toList, .num 44)]).at ["a".toList] = .num 44 := rfl
        rw [hv] at hb
        cases hb with
        | @int _ _ _ t' x ht' hx =>
          rw [ht] at ht'; cases ht'
          refine ⟨true, ?_, by simp⟩
          simp only [Option.map_some, List.append_nil, castTok]
          exact cmp_cast (.getNum ho) lit_parse (.castLiteral ho (.number (expr_plain (n := 300) (.dec '3' "00".toList (by decide) (by decide)) (by decide)))
            (y := 44) ⟨by simp [cppIntType], by simp [CppHolds, cppIntType], 1, by simp [cppIntType]⟩) (by simp [CmpHolds]))
      (by intro h; cases h)
    refine ⟨toks, ?_, _, _, hh, rfl, ?_⟩
    · have := comp_value (op := "=".toList) (r := "300".toList) hp hs (by decide)
      rw [show e "$a" "=" "300" = .expr ⟨'$' :: joinDots ["a".toList], "=".toList, "300".toList⟩ from rfl, condToks]
      exact this.trans r1
    · rw [r3.2 trivial] at r2
      exact r2.evaluates
  · simp at h4

/-- C88 is false for the comparison of fields of different types: `$a = $b`, the one of 8 bits, the other of 16, is true for 0 and 256. -/
theorem C88_fields_witness : ∃ f, Accepted f ∧ f.validCond = some (e "$a" "=" "$b") ∧ ∃ toks, condToks x0 f.members true (e "$a" "=" "$b") = .ok toks ∧
    ∃ os vs, StoresMembers g0 .other f.members os vs ∧ (FVal.members vs).at ["a".toList] = .num 0 ∧ (FVal.members vs).at ["b".toList] = .num 256 ∧ Evaluates os toks true := by
  let toks : List Tok := [.get ⟨"a".toList, []⟩ .value, .cmp "==".toList, .cast ⟨"a".toList, []⟩, .get ⟨"b".toList, []⟩ .value, .rpar]
  obtain ⟨f, h1, h2⟩ := Sample.accepted Sample.env0_ok (parent := .top) (x := Sample.el "bundle" [("name", "b"), ("validCond", "$a = $b")] [
      Sample.el "int" [("name", "a"), ("type", "uint8")], Sample.el "int" [("name", "b"), ("type", "uint16")]])
    (p := fun f => isExpr f "$a" "=" "$b" && gives f toks && (match f.members with | [m, k] => isInt m "a" .uint8 && isInt k "b" .uint16 | _ => false)) (by decide +kernel)
  simp only [Bool.and_eq_true] at h2
  obtain ⟨⟨h2, h3⟩, h4⟩ := h2
  have hc := isExpr_spec h2
  obtain ⟨c, hc', ht⟩ := gives_spec h3
  rw [hc] at hc'; cases hc'
  refine ⟨f, h1, hc, toks, ht, ?_⟩
  split at h4
  · rename_i m k hm
    rw [hm]
    simp only [Bool.and_eq_true] at h4
    obtain ⟨e1, e2⟩ := isInt_holds h4.1 (ty := (false, 8)) (fun _ => rfl) (x := 0) (by simp [CppHolds])
    obtain ⟨e3, e4⟩ := isInt_holds h4.2 (ty := (false, 16)) (fun _ => rfl) (x := 256) (by simp [CppHolds])
    refine ⟨_, _, CondSample.cons (n := "a".toList) (by rw [e1]; decide) e1 (by rw [List.map_singleton, e3]; decide) e2 (CondSample.cons (n := "b".toList) (by rw [e3]; decide) e3 (by simp) e4 .nil), rfl, rfl, ?_⟩
    refine ⟨_, .fromAnd (cmp_parse (.cast (.fromAnd (.fromCmp (.fromUnary .get))))), .cmpNum (.getNum rfl) (.castNum rfl (.getNum rfl)
      (y := 0) ⟨by simp, by simp [CppHolds], 1, by decide⟩) ?_⟩
    simp [CmpHolds]
  · simp at h4

/-- C90 is false for a check whether a field exists that always does (a deprecated one that was not removed): `!$?a` never holds, but no condition is generated, and the bundle is valid. -/
theorem C90_exists_witness : ∃ f, Accepted f ∧ f.validCond = some (e "" "!" "$?a") ∧ validCondToks x0 f.members f.validCond = .ok none ∧
    (∃ os vs, StoresMembers g0 .other f.members os vs ∧ (FVal.members vs).at ["a".toList] ≠ .missing ∧ ValidResult os none true true) := by
  obtain ⟨f, h1, h2⟩ := Sample.accepted Sample.env0_ok (parent := .top) (x := Sample.el "bundle" [("name", "b"), ("validCond", "!$?a")] [
      Sample.el "int" [("name", "a"), ("type", "uint8"), ("deprecated", "2")]])
    (p := fun f => isExpr f "" "!" "$?a" && gives f [] && (match f.members with | [m] => isInt m "a" .uint8 | _ => false)) (by decide +kernel)
  simp only [Bool.and_eq_true] at h2
  obtain ⟨⟨h2, h3⟩, h4⟩ := h2
  have hc := isExpr_spec h2
  obtain ⟨c, hc', ht⟩ := gives_spec h3
  refine ⟨f, h1, hc, ?_, ?_⟩
  · rw [hc']
    unfold validCondToks
    dsimp only
    rw [ht]
    rfl
  · split at h4
    · rename_i m hm
      rw [hm]
      obtain ⟨e1, e2⟩ := isInt_holds h4 (ty := (false, 8)) (fun _ => rfl) (x := 44) (by simp [CppHolds])
      refine ⟨_, _, CondSample.cons (n := "a".toList) (by rw [e1]; decide) e1 (by simp) e2 .nil, ?_, .none⟩
      show FVal.num 44 ≠ _
      simp
    · simp at h4

namespace CondSample

theorem last_tok {l : CLevel} {t : List Tok} {e : CExpr} (h : CParse l t e) : ∃ a x, t = a ++ [x] ∧ x ≠ .and := by
  induction h with
  | fromAnd _ ih | fromCmp _ ih | fromUnary _ ih => exact ih
  | or _ _ _ ih | and _ _ _ ih | cmp _ _ _ ih => obtain ⟨a, x, rfl, h⟩ := ih; exact ⟨_, x, by rw [← List.cons_append, ← List.append_assoc], h⟩
  | not _ ih => obtain ⟨a, x, rfl, h⟩ := ih; exact ⟨.not :: a, x, rfl, h⟩
  | @paren t _ _ _ => exact ⟨.lpar :: t, _, rfl, by simp⟩
  | @cast a t _ _ _ => exact ⟨.cast a :: t, _, rfl, by simp⟩
  | @castSize t _ _ _ => exact ⟨.castSize :: t, _, rfl, by simp⟩
  | «exists» | get | empty | number | quoted => exact ⟨[], _, rfl, by simp⟩

end CondSample

/-- C88 is false for lists that end with such a check: the text ends with `&&`, it is no expression. -/
theorem C88_dangling_witness : ∃ f c, Accepted f ∧ f.validCond = some c ∧ ∃ toks, refreshCond x0 f.members (some c) = .ok (some toks) ∧ ∀ os b, ¬ Evaluates os toks b := by
  let toks : List Tok := [.lpar, .get ⟨"f".toList, []⟩ (.bit "x".toList), .rpar, .and]
  obtain ⟨f, h1, h2⟩ := Sample.accepted Sample.env0_ok (parent := .top) (x := Sample.el "bundle" [("name", "b")] [
      Sample.el "members" [] [Sample.el "int" [("name", "a"), ("type", "uint8"), ("deprecated", "2")], Sample.el "set" [("name", "f"), ("length", "1")] [Sample.el "bit" [("name", "x"), ("idx", "0")]]],
      Sample.el "validCond" [] [Sample.el "and" [] [Sample.el "validCond" [("value", "$f.x")], Sample.el "validCond" [("value", "$?a")]]]])
    (p := fun f => gives f (.lpar :: toks ++ [.rpar]) && (match f.validCond with
      | some c => (match condToks x0 f.members false c with | .ok r => decide (r = toks) | _ => false)
      | none => false)) (by decide +kernel)
  simp only [Bool.and_eq_true] at h2
  obtain ⟨h3, h4⟩ := h2
  split at h4
  · rename_i c hc
    split at h4
    · rename_i r hr
      have := of_decide_eq_true h4
      subst this
      refine ⟨f, c, h1, hc, toks, ?_, ?_⟩
      · unfold refreshCond
        dsimp only
        rw [hr]
        rfl
      · rintro os b ⟨e, hp, -⟩
        obtain ⟨a, x, h, hx⟩ := last_tok hp
        have := congrArg List.getLast? h
        rw [List.getLast?_append] at this
        simp [toks] at this
        exact hx this.symm
    · simp at h4
  · simp at h4

end Commsdsl.Props
