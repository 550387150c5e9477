import Verif.Props.GenIface
import Verif.Props.GenCondSample
/-!
# Examples and witnesses for conditions on the fields of interfaces (C123, C124)
-/
namespace Commsdsl.Props
open Commsdsl Text Fld Gen Spec
open GCond IfaceProofs CondSample

namespace IfaceSample

/-- Nothing in the field is an `<optional>`. -/
def NoOpt (m : Field) : Prop := ∀ p h c st sl cd, Path m p h → ¬ Follows h (.optional c st sl cd)

theorem simple {m : Field} (h1 : m.kind ≠ .optional) (h2 : m.kind ≠ .ref) (h3 : m.members = []) : NoOpt m := by
  intro p h c st sl cd hp hf
  cases hp with
  | self =>
    cases hf with
    | self => exact h1 rfl
    | ref => exact h2 rfl
  | member _ hf' => rw [h3] at hf'; cases hf'
  | target => exact h2 rfl
  | optional => exact h1 rfl

theorem inside {m : Field} (h1 : m.kind ≠ .optional) (h2 : m.kind ≠ .ref) (h3 : ∀ x ∈ m.members, NoOpt x) : NoOpt m := by
  intro p h c st sl cd hp hf
  cases hp with
  | self =>
    cases hf with
    | self => exact h1 rfl
    | ref => exact h2 rfl
  | member _ hf' hp' => exact h3 _ (List.mem_of_find?_eq_some hf') _ _ c st sl cd hp' hf
  | target => exact h2 rfl
  | optional => exact h1 rfl

theorem refer {c : Common} {b : Nat} {s : Slot Field} {t : Field} (ht : t ∈ s.toList) (h3 : NoOpt t) : NoOpt (.ref c b s) := by
  intro p h c st sl cd hp hf
  cases hp with
  | self =>
    cases hf with
    | ref ht' hf' => cases slot_mem ht ht'; exact h3 [] _ c st sl cd .self hf'
  | member _ hf' => simp [Field.members] at hf'
  | target _ ht' hp' => cases slot_mem ht ht'; exact h3 _ _ c st sl cd hp' hf

theorem outside {s n : String} {m : Field} (hb : beforeDot s.toList = n.toList) (hf : fs.find? (fun x => x.name == n.toList) = some m) (h : NoOpt m) :
    Outside fs s.toList := by
  rintro p q h' c st sl cd e hq ⟨h1, k, r, m', rfl, hf', hp, hl⟩
  have hk := plain_of (h1 k (by simp))
  have : beforeDot s.toList = k := by
    rw [e]
    cases q with
    | nil => exact absurd rfl hq
    | cons a q =>
      cases r with
      | nil =>
        have : joinDots ([k] ++ a :: q) = k ++ '.' :: joinDots (a :: q) := rfl
        rw [this]
        unfold beforeDot
        rw [List.takeWhile_append_of_pos (by
          intro x hx
          simp only [bne_iff_ne, ne_eq]
          rintro rfl
          exact hk.2.1 hx)]
        simp
      | cons b r =>
        have : joinDots (k :: b :: r ++ a :: q) = k ++ '.' :: joinDots (b :: r ++ a :: q) := rfl
        rw [this]
        unfold beforeDot
        rw [List.takeWhile_append_of_pos (by
          intro x hx
          simp only [bne_iff_ne, ne_eq]
          rintro rfl
          exact hk.2.1 hx)]
        simp
  rw [← this, hb, hf] at hf'
  cases hf'
  exact h _ _ c st sl cd hp hl

theorem noA : NoOpt (int "A" .uint8 1) := simple (by decide) (by decide) rfl
theorem noFlags : NoOpt setF := simple (by decide) (by decide) rfl
theorem noV : NoOpt (int "V" .uint16 2 2) := simple (by decide) (by decide) rfl
theorem noB : NoOpt (.ref { name := "B".toList } 0 (.ext inner)) := by
  refine refer (t := inner) (by simp [Slot.toList]) (inside (by decide) (by decide) ?_)
  intro x hx
  simp only [inner, Field.members, List.mem_cons, List.not_mem_nil, or_false] at hx
  rcases hx with rfl | rfl
  · exact simple (by decide) (by decide) rfl
  · exact simple (by decide) (by decide) rfl

/-- Two interfaces, that have a field in common. -/
def ifs : List (List Field) := [[int "A" .uint8 1, int "Other" .uint8 1], fs]

theorem same : Same ifs fs := by
  refine ⟨by simp [ifs], ?_⟩
  have hall : ∀ f ∈ ifs.flatten, ∀ m ∈ fs, f.name = m.name → f = m := by
    intro f hf m hm
    simp only [ifs, fs, List.flatten_cons, List.flatten_nil, List.append_nil, List.mem_append, List.mem_cons, List.not_mem_nil, or_false] at hf hm
    rcases hf with (rfl | rfl) | rfl | rfl | rfl | rfl | rfl <;> rcases hm with rfl | rfl | rfl | rfl | rfl <;> intro e <;> first | rfl | (exact absurd e (by decide))
  intro fs' h f hf m hm
  exact hall f (List.mem_flatten.2 ⟨fs', h, hf⟩) m hm

/-- A condition that can be read and constructed: two bits, a number, a number inside. -/
def cond : CondM.Cond := .list .and [e "" "" "%Flags.One", .list .and [e "" "!" "%Flags.Three", e "%A" "=" "5"], e "%B.M" "=" "-3"]

def asked : List (List Str × Ask) := [(["Flags".toList], .bit 1 true), (["Flags".toList], .bit 3 false), (["A".toList], .num 5), (["B".toList, "M".toList], .num (-3))]

theorem asks : Asks fs cond asked := by
  obtain ⟨i3, b3, e3⟩ := bit3
  obtain ⟨i1, b1, e1⟩ := bit1
  have a1 : AsksOne fs ⟨"".toList, "".toList, "%Flags.One".toList⟩ ["Flags".toList] (.bit 1 true) := by
    have := AsksOne.bit (n := "One".toList) pathSet flags_ok b1 (by decide) (by omega) (by decide +kernel) (outside (s := "Flags.One") (n := "Flags") (by rfl) rfl noFlags)
    rw [e1] at this
    exact this
  have a2 : AsksOne fs ⟨"".toList, "!".toList, "%Flags.Three".toList⟩ ["Flags".toList] (.bit 3 false) := by
    have := AsksOne.noBit (n := "Three".toList) pathSet flags_ok b3 (by decide) (by omega) (by decide +kernel)
      (outside (s := "Flags.Three") (n := "Flags") (by rfl) rfl noFlags)
    rw [e3] at this
    exact this
  have a3 : AsksOne fs ⟨"%A".toList, "=".toList, "5".toList⟩ ["A".toList] (.num 5) :=
    .int (t := .uint8) pathA rfl (.number (.plain (dec '5' (by decide) (by decide)))) (by simp [CppHolds, cppIntType]) (by decide) (outside (s := "A") (n := "A") (by rfl) rfl noA)
  have a4 : AsksOne fs ⟨"%B.M".toList, "=".toList, "-3".toList⟩ ["B".toList, "M".toList] (.num (-3)) :=
    .int (t := .int8) pathM rfl (.number (.minus (dec '3' (by decide) (by decide)))) (by simp [CppHolds, cppIntType]) (by decide)
      (outside (s := "B.M") (n := "B") (by rfl) rfl noB)
  exact .all (by simp) (.cons (.expr a1) (.cons (.all (by simp) (.cons (.expr a2) (.cons (.expr a3) .nil))) (.cons (.expr a4) .nil)))

theorem met : Met asked (.members [("Flags".toList, .num 2), ("A".toList, .num 5), ("B".toList, .members [("M".toList, .num (-3))])]) := by
  intro k hk
  simp only [asked, List.mem_cons, List.not_mem_nil, or_false] at hk
  rcases hk with rfl | rfl | rfl | rfl
  · exact ⟨2, rfl, by decide⟩
  · exact ⟨2, rfl, by decide⟩
  · rfl
  · rfl

theorem expr_of {x : CondEnv} {ifs : List (List Field)} {l op r : Str} {f : Field} {st : List Step} {t : Tok} (hf : findIfaceField ifs l = some f)
    (hs : fieldAcc x.g x.pl f (afterDot l) = .ok st) (hv : constructValue x ifs f (afterDot l) r = .ok (some t)) :
    constructExpr x ifs ⟨'%' :: l, op, r⟩ = .ok [.value ⟨accessName f.name, st⟩ (castType x.g x.pl f (afterDot l)) t] := by
  simp [constructExpr, hf, hs, hv, Res.bind]

theorem present : ∀ k ∈ asked, (FVal.members (vals .missing)).at k.1 ≠ .missing := by
  intro k hk
  simp only [asked, List.mem_cons, List.not_mem_nil, or_false] at hk
  rcases hk with rfl | rfl | rfl | rfl <;> exact fun h => nomatch h

def x : CondEnv := ⟨g, pl, fun _ => none⟩

end IfaceSample
open IfaceSample

/-- The hypotheses of C123 and C124 are met by a condition with bits and numbers, which before does not hold. -/
example : Same ifs fs ∧ Asks fs IfaceSample.cond asked ∧ StoresMembers g pl fs (objs (.opt false (.num (false, 8) 0))) (vals .missing) ∧
    (∀ k ∈ asked, (FVal.members (vals .missing)).at k.1 ≠ .missing) ∧ (∃ w, Met asked w) ∧ ¬ Met asked (.members (vals .missing)) ∧
    ∃ d P, IfaceOf fs IfaceSample.cond d ∧ SaysCond g pl fs d P ∧ ¬ P (.members (vals .missing)) := by
  have hno : ¬ Met asked (.members (vals .missing)) := by
    intro h
    have : FVal.num 7 = FVal.num 5 := h (["A".toList], .num 5) (by simp [asked])
    exact absurd (FVal.num.inj this) (by decide)
  obtain ⟨d, P, h1, h2, h3⟩ := asks_says g pl _ _ asks
  exact ⟨same, asks, holds missing, present, ⟨_, met⟩, hno, d, P, h1, h2, fun h => hno ((h3 _).1 h)⟩

/-- The statements for it. -/
example : constructCode x ifs (some IfaceSample.cond) = .ok [.bit ⟨"flags".toList, []⟩ "One".toList true, .bit ⟨"flags".toList, []⟩ "Three".toList false,
    .value ⟨"a".toList, []⟩ (some []) (.text "5".toList), .value ⟨"b".toList, [.member "m".toList]⟩ (some [.member "m".toList]) (.text "-3".toList)] := by
  have p5 : intPrep (fun _ => none) 2 { type := some .uint8, length := 1 } "5".toList = .ok "5".toList := by
    have : intNumber .uint8 "5".toList = some (.ok "5".toList) := by decide +kernel
    rw [intPrep]
    dsimp only
    rw [if_neg (by decide), this]
  have p3 : intPrep (fun _ => none) 3 { type := some .int8, length := 1 } "-3".toList = .ok "-3".toList := by
    have : intNumber .int8 "-3".toList = some (.ok "-3".toList) := by decide +kernel
    rw [intPrep]
    dsimp only
    rw [if_neg (by decide), this]
  have e1 : constructExpr x ifs ⟨"".toList, "".toList, "%Flags.One".toList⟩ = .ok [.bit ⟨"flags".toList, []⟩ "One".toList true] := by decide +kernel
  have e2 : constructExpr x ifs ⟨"".toList, "!".toList, "%Flags.Three".toList⟩ = .ok [.bit ⟨"flags".toList, []⟩ "Three".toList false] := by decide +kernel
  have e3 : constructExpr x ifs ⟨"%A".toList, "=".toList, "5".toList⟩ = .ok [.value ⟨"a".toList, []⟩ (some []) (.text "5".toList)] := by
    have hf : findIfaceField ifs "A".toList = some (int "A" .uint8 1) := by rfl
    have hv : constructValue x ifs (int "A" .uint8 1) [] "5".toList = .ok (some (.text "5".toList)) := by
      show (prepValue _ 2 (int "A" .uint8 1) [] "5".toList).bind _ = _
      rw [int, prepValue, show x.find = fun _ => none from rfl, p5]
      rfl
    exact (expr_of (l := "A".toList) hf rfl hv).trans rfl
  have e4 : constructExpr x ifs ⟨"%B.M".toList, "=".toList, "-3".toList⟩ =
      .ok [.value ⟨"b".toList, [.member "m".toList]⟩ (some [.member "m".toList]) (.text "-3".toList)] := by
    have hf : findIfaceField ifs "B.M".toList = some (.ref { name := "B".toList } 0 (.ext inner)) := by rfl
    have hv : constructValue x ifs (.ref { name := "B".toList } 0 (.ext inner)) "M".toList "-3".toList = .ok (some (.text "-3".toList)) := by
      show (prepValue _ 3 _ "M".toList "-3".toList).bind _ = _
      rw [prepValue, prepValueSlot, inner, prepValue, if_neg (by decide), prepValueIn, if_pos (by decide), int, prepValue, show x.find = fun _ => none from rfl, p3]
      rfl
    exact (expr_of (l := "B.M".toList) hf rfl hv).trans rfl
  simp only [constructCode, IfaceSample.cond, CondSample.e, constructStmts, constructList, e1, e2, e3, e4, Res.bind]
  rfl

/-! ## Where the generated code is wrong -/

namespace IfaceSample

/-- What reading a protocol with these interfaces sees. -/
def env : FEnv := { Sample.env0 with ifaceRefs := Proto.ifaceRefs (ifs.map fun l => ([], { fields := l })) }

theorem no_object {l : CLevel} {t : List Tok} {k : CExpr} (h : CParse l t k) : .and ∉ t → .or ∉ t → ∀ {env : List (Str × CObj)} {v : CVal}, CEval env k v →
    ∀ a, (.cast a ∈ t ∨ ∃ la, .get a la ∈ t) → objAt env a ≠ none := by
  induction h with
  | fromAnd _ ih | fromCmp _ ih | fromUnary _ ih => exact ih
  | or _ _ _ _ => intro _ h; simp at h
  | and _ _ _ _ => intro h; simp at h
  | @cmp op t u k1 k2 _ _ ih1 ih2 =>
    intro h1 h2 env v hv a ha
    simp only [List.mem_append, List.mem_cons, not_or] at h1 h2
    have hl : ∃ v, CEval env k1 v := by cases hv with | cmpNum h _ _ | cmpSize h _ _ | eqText _ h _ _ | neText _ h _ _ => exact ⟨_, h⟩
    have hr : ∃ v, CEval env k2 v := by cases hv with | cmpNum _ h _ | cmpSize _ h _ | eqText _ _ h _ | neText _ _ h _ => exact ⟨_, h⟩
    obtain ⟨_, hl⟩ := hl
    obtain ⟨_, hr⟩ := hr
    simp only [List.mem_append, List.mem_cons, reduceCtorEq, false_or] at ha
    rcases ha with (ha | ha) | ⟨la, ha | ha⟩
    · exact ih1 h1.1 h2.1 hl a (.inl ha)
    · exact ih2 h1.2.2 h2.2.2 hr a (.inl ha)
    · exact ih1 h1.1 h2.1 hl a (.inr ⟨la, ha⟩)
    · exact ih2 h1.2.2 h2.2.2 hr a (.inr ⟨la, ha⟩)
  | not _ ih =>
    intro h1 h2 env v hv a ha
    cases hv with
    | not hv => exact ih (by simpa using h1) (by simpa using h2) hv a (by simpa using ha)
  | paren _ ih =>
    intro h1 h2 env v hv a ha
    exact ih (by simpa using h1) (by simpa using h2) hv a (by simpa using ha)
  | @cast b t k _ ih =>
    intro h1 h2 env v hv a ha
    have : objAt env b ≠ none ∧ ∃ v, CEval env k v := by
      cases hv with | castLiteral h h' _ | castNum h h' _ | castSet h h' _ => exact ⟨by rw [h]; simp, _, h'⟩
    obtain ⟨hb, _, hk⟩ := this
    simp only [List.mem_append, List.mem_cons, List.not_mem_nil, reduceCtorEq, false_or, or_false, Tok.cast.injEq] at ha
    rcases ha with (rfl | ha) | ha
    · exact hb
    · exact ih (by simpa using h1) (by simpa using h2) hk a (.inl ha)
    · exact ih (by simpa using h1) (by simpa using h2) hk a (.inr ha)
  | castSize _ ih =>
    intro h1 h2 env v hv a ha
    cases hv with
    | castSize hv _ => exact ih (by simpa using h1) (by simpa using h2) hv a (by simpa using ha)
  | «exists» | empty | number | quoted => intro _ _ _ _ _ a ha; simp at ha
  | get =>
    intro _ _ env v hv a ha
    simp only [List.mem_cons, List.not_mem_nil, or_false, reduceCtorEq, false_or, Tok.get.injEq] at ha
    obtain ⟨la, rfl, rfl⟩ := ha
    cases hv with
    | getNum h | getSet h | getText h | getBit h _ _ | textSize h | seqSize h => rw [h]; simp

end IfaceSample

/-- C123 is false for the comparison of two fields: in `%A = %B.M` the cast is to the type of `TransportField_Field_a`, which does not exist. -/
theorem C123_fields_witness : ∃ c, verifyCond env [] c = .ok true ∧ c = e "%A" "=" "%B.M" ∧ ∃ t, readCheck x ifs (some c) = .ok (some t) ∧
    StoresMembers g pl fs (objs (.opt false (.num (false, 8) 0))) (vals .missing) ∧ ∀ r, ¬ Admits (objs (.opt false (.num (false, 8) 0))) (some t) r := by
  refine ⟨_, ?_, rfl, [.get ⟨"a".toList, []⟩ .value, .cmp "==".toList, .cast ⟨"Field_a".toList, []⟩, .get ⟨"b".toList, [.member "m".toList]⟩ .value, .rpar], ?_,
    holds missing, ?_⟩
  · decide +kernel
  · decide +kernel
  · rintro r (_ | ⟨k, h1, h2⟩)
    exact no_object h1 (by simp) (by simp) h2 ⟨"Field_a".toList, []⟩ (by simp) rfl

/-- C123 is false for fields in an `<optional>`: the condition `%O.X = 3` is accepted, but there is no check. -/
theorem C123_optional_witness : ∃ c, verifyCond env [] c = .ok true ∧ c = e "%O.X" "=" "3" ∧ readCheck x ifs (some c) = .ok none ∧ ∃ os vs,
    StoresMembers g pl fs os vs ∧ (FVal.members vs).at ["O".toList, "X".toList] = .num 4 ∧ Admits os none true :=
  ⟨_, by decide +kernel, rfl, by decide +kernel, _, _, holds (there 4 (by omega)), rfl, .none⟩

/-- C124 is false for a value that is another field: the access to it has no `Base::`, and `transportField_` twice. -/
theorem C124_fields_witness : ∃ c, verifyCond env [] c = .ok true ∧ Msg.constructOk c = true ∧ c = e "%A" "=" "%B.M" ∧ ∃ ss, constructCode x ifs (some c) = .ok ss ∧
    StoresMembers g pl fs (objs (.opt false (.num (false, 8) 0))) (vals .missing) ∧ ∀ r, ¬ ExecAll (objs (.opt false (.num (false, 8) 0))) ss r := by
  refine ⟨_, ?_, ?_, rfl, [.value ⟨"a".toList, []⟩ (some []) (.get ⟨"transportField_b".toList, [.member "m".toList]⟩ .value)], ?_, holds missing, ?_⟩
  · decide +kernel
  · decide +kernel
  · decide +kernel
  · intro r h
    cases h with
    | cons h _ =>
      have key : ∀ {k v}, CParse .or [.get ⟨"transportField_b".toList, [.member "m".toList]⟩ .value] k →
          CEval (objs (.opt false (.num (false, 8) 0))) (.cast ⟨"a".toList, []⟩ k) v → False := by
        intro k v h1 h2
        exact no_object (.cast h1) (by simp) (by simp) h2 ⟨"transportField_b".toList, [.member "m".toList]⟩ (.inr ⟨.value, by simp⟩) rfl
      cases h with
      | num _ h1 h2 => exact key h1 h2
      | set _ h1 h2 => exact key h1 h2

/-- C124 is false for texts: `%B.T = hello` gives a cast to a type without a name. -/
theorem C124_text_witness : ∃ c, verifyCond env [] c = .ok true ∧ Msg.constructOk c = true ∧ c = e "%B.T" "=" "hello" ∧ ∃ ss, constructCode x ifs (some c) = .ok ss ∧
    StoresMembers g pl fs (objs (.opt false (.num (false, 8) 0))) (vals .missing) ∧ ∀ r, ¬ ExecAll (objs (.opt false (.num (false, 8) 0))) ss r := by
  refine ⟨_, by decide +kernel, by decide +kernel, rfl, [.value ⟨"b".toList, [.member "t".toList]⟩ none (.quoted "hello".toList)], ?_, holds missing, ?_⟩
  · have hf : findIfaceField ifs "B.T".toList = some (.ref { name := "B".toList } 0 (.ext inner)) := by rfl
    have hv : constructValue x ifs (.ref { name := "B".toList } 0 (.ext inner)) "T".toList "hello".toList = .ok (some (.quoted "hello".toList)) := by
      show (prepValue _ 6 _ "T".toList "hello".toList).bind _ = _
      rw [prepValue, prepValueSlot, inner, prepValue, if_neg (by decide), prepValueIn, if_neg (by decide), prepValueIn, if_pos (by decide), text, prepValue]
      decide +kernel
    exact (expr_of (l := "B.T".toList) hf rfl hv).trans rfl
  · intro r h
    cases h with
    | cons h _ => cases h

/-- C124 is false for fields in an `<optional>` and for sizes: `%O.X = 3` and `%#B.T = 3` are accepted, but there is no statement. -/
theorem C124_nothing_witness : ∀ c ∈ [e "%O.X" "=" "3", e "%#B.T" "=" "3"], verifyCond env [] c = .ok true ∧ Msg.constructOk c = true ∧ constructCode x ifs (some c) = .ok [] := by
  decide +kernel

end Commsdsl.Props
