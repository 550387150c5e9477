import Verif.Lemmas.GenIfacePut
/-!
# Conditions on the fields of interfaces (C123, C124)
-/
namespace Commsdsl.Props
open Commsdsl Text Fld Gen Spec

namespace IfaceProofs
open GCond
open CondProofs (J J_ne J_nil J_value J_split)

section Read
variable {g : GVer} {pl : Place} {find : Str → Option Field} {fs : List Field} {ifs : List (List Field)}

theorem single_eq {op t : Str} (h : findIface ifs (operand ('$' :: t)).2 = findSib fs (operand ('$' :: t)).2) :
    ifaceToks ⟨g, pl, find⟩ ifs true (.expr ⟨[], op, '%' :: t⟩) = condToks ⟨g, pl, find⟩ fs true (.expr ⟨[], op, '$' :: t⟩) := by
  rw [ifaceToks, condToks, exprToks]
  simp only [List.isEmpty_nil, if_true]
  have e : operand ('%' :: t) = operand ('$' :: t) := rfl
  simp only [ifaceSingle, singleToks, operandField, e, h]
  cases findSib fs (operand ('$' :: t)).2 <;> rfl

theorem comp_eq {op t r : Str} (h : findIface ifs (operand ('$' :: t)).2 = findSib fs (operand ('$' :: t)).2) (h1 : (operand ('$' :: t)).1 = '#' ∨ r.head? ≠ some '$')
    (h2 : (operand ('$' :: t)).1 = '#' ∨ r.head? ≠ some '%') :
    ifaceToks ⟨g, pl, find⟩ ifs true (.expr ⟨'%' :: t, op, r⟩) = condToks ⟨g, pl, find⟩ fs true (.expr ⟨'$' :: t, op, r⟩) := by
  rw [ifaceToks, condToks, exprToks]
  have e : operand ('%' :: t) = operand ('$' :: t) := rfl
  simp only [List.isEmpty_cons, Bool.false_eq_true, if_false, ifaceComp, compToks, operandField, e, h]
  cases findSib fs (operand ('$' :: t)).2 with
  | none => rfl
  | some f =>
    dsimp only
    by_cases hc : (operand ('$' :: t)).1 = '#'
    · rw [if_pos hc, if_pos hc]
    · rw [if_neg hc, if_neg hc, if_neg (by rintro (h | h); exact h2.resolve_left hc h; exact h1.resolve_left hc h)]
      split
      · exact absurd rfl (h1.resolve_left hc)
      · rfl

theorem verify_bit {c : Common} {st : SetF.State} {n : Str} {i : SetF.BitInfo} (hb : (n, i) ∈ st.bits) : verifyInner (.set c st) n = true := by
  have : (SetF.findBit st.bits n).isSome = true := CondProofs.names_find (List.mem_map.2 ⟨_, hb, rfl⟩)
  rw [verifyInner, verifyImpl, this, Bool.or_true]

theorem expr_wrap {x : CondEnv} {w w' : Bool} {e : CondM.Expr} : ifaceToks x ifs w (.expr e) = ifaceToks x ifs w' (.expr e) := by
  rw [ifaceToks, ifaceToks]

theorem cond_wrap {x : CondEnv} {w w' : Bool} {e : CondM.Expr} : condToks x fs w (.expr e) = condToks x fs w' (.expr e) := by rw [condToks, condToks]

theorem size_operand (t : Str) : operand ('$' :: '#' :: t) = ('#', t) := rfl
theorem exists_operand (t : Str) : operand ('$' :: '?' :: t) = ('?', t) := rfl

theorem expr_eq (hs : Same ifs fs) {e e' : CondM.Expr} {P : FVal → Prop} (hi : IfaceOf fs (.expr e) (.expr e')) (h : Says g pl fs e' P) :
    ifaceToks ⟨g, pl, find⟩ ifs true (.expr e) = condToks ⟨g, pl, find⟩ fs true (.expr e') := by
  cases hi with
  | @bit op s h1 h2 ho =>
    refine single_eq ?_
    cases h with
    | @bit p h c st n i hp _ hb hn =>
      obtain ⟨i1, i2, -⟩ := pathTo_parts hp
      rw [← J_value hn i2, operand_path i1 i2]
      exact find_path_inner hs hp hn (verify_bit hb) ho
    | @noBit p h c st n i hp _ hb hn =>
      obtain ⟨i1, i2, -⟩ := pathTo_parts hp
      rw [← J_value hn i2, operand_path i1 i2]
      exact find_path_inner hs hp hn (verify_bit hb) ho
    | «exists» => simp at h1
    | missing => simp at h1
  | @«exists» op s ho =>
    refine single_eq ?_
    rw [exists_operand]
    have key : ∀ {p : List Str} {h l : Field}, PathTo fs p h l → s = joinDots p → findIface ifs s = findSib fs s := by
      rintro p h l hp rfl
      rw [← J_nil (pathTo_parts hp).2.2.1]
      exact find_path hs hp ho
    generalize hx : '$' :: '?' :: s = t at h
    cases h with
    | «exists» hp => simp only [List.cons.injEq, true_and] at hx; exact key hp hx
    | missing hp => simp only [List.cons.injEq, true_and] at hx; exact key hp hx
    | @bit p h c st n i hp _ hb hn =>
      obtain ⟨i1, i2, -⟩ := pathTo_parts hp
      rw [← J_value hn i2] at hx
      have := operand_path i1 i2 n
      rw [← hx] at this
      exact absurd (congrArg Prod.fst this) (by simp [operand])
    | @noBit p h c st n i hp _ hb hn =>
      obtain ⟨i1, i2, -⟩ := pathTo_parts hp
      rw [← J_value hn i2] at hx
      have := operand_path i1 i2 n
      rw [← hx] at this
      exact absurd (congrArg Prod.fst this) (by simp [operand])
  | @value op s r h1 h2 ho hr1 hr2 =>
    refine comp_eq ?_ (.inr hr1) (.inr hr2)
    have key : ∀ {p : List Str} {h l : Field}, PathTo fs p h l → s = joinDots p → findIface ifs (operand ('$' :: s)).2 = findSib fs (operand ('$' :: s)).2 := by
      rintro p h l hp rfl
      obtain ⟨i1, i2, i3, -⟩ := pathTo_parts hp
      rw [← J_nil i3, operand_path i1 i2]
      exact find_path hs hp ho
    generalize hx : '$' :: s = t at h
    cases h with
    | int hp => simp only [List.cons.injEq, true_and] at hx; subst hx; exact key hp rfl
    | enum hp => simp only [List.cons.injEq, true_and] at hx; subst hx; exact key hp rfl
    | set hp => simp only [List.cons.injEq, true_and] at hx; subst hx; exact key hp rfl
    | textEq hp => simp only [List.cons.injEq, true_and] at hx; subst hx; exact key hp rfl
    | textNe hp => simp only [List.cons.injEq, true_and] at hx; subst hx; exact key hp rfl
    | fields => exact absurd rfl hr1
    | size => simp only [List.cons.injEq, true_and] at hx; subst hx; simp at h2
    | _ => cases hx
  | @size op s r ho =>
    refine comp_eq ?_ (.inl rfl) (.inl rfl)
    rw [size_operand]
    generalize hx : '$' :: '#' :: s = t at h
    have no : ∀ {p : List Str} {h l : Field}, PathTo fs p h l → '#' :: s = joinDots p → findIface ifs s = findSib fs s := by
      rintro p h l hp hx
      obtain ⟨i1, i2, i3, -⟩ := pathTo_parts hp
      rw [← J_nil i3] at hx
      have := operand_path i1 i2 []
      rw [← hx] at this
      exact absurd (congrArg Prod.fst this) (by simp [operand])
    cases h with
    | size hp =>
      simp only [List.cons.injEq, true_and] at hx
      subst hx
      rw [← J_nil (pathTo_parts hp).2.2.1]
      exact find_path hs hp ho
    | int hp => simp only [List.cons.injEq, true_and] at hx; exact no hp hx
    | enum hp => simp only [List.cons.injEq, true_and] at hx; exact no hp hx
    | set hp => simp only [List.cons.injEq, true_and] at hx; exact no hp hx
    | textEq hp => simp only [List.cons.injEq, true_and] at hx; exact no hp hx
    | textNe hp => simp only [List.cons.injEq, true_and] at hx; exact no hp hx
    | fields hp => simp only [List.cons.injEq, true_and] at hx; exact no hp hx
    | _ => cases hx

mutual
theorem toks_eq (hs : Same ifs fs) (wrap : Bool) : ∀ (c d : CondM.Cond) (P : FVal → Prop), IfaceOf fs c d → SaysCond g pl fs d P →
    ifaceToks ⟨g, pl, find⟩ ifs wrap c = condToks ⟨g, pl, find⟩ fs wrap d
  | .expr e, .expr e', P, hi, h => by
    cases h with
    | expr h => rw [expr_wrap (w' := true), cond_wrap (w' := true)]; exact expr_eq hs hi h
  | .list t cs, .list t' ds, P, hi, h => by
    cases hi with
    | list hi =>
      cases h with
      | all _ h => rw [ifaceToks, condToks, list_eq hs _ cs ds _ hi h]
      | some _ h => rw [ifaceToks, condToks, list_eq hs _ cs ds _ hi h]
  | .expr _, .list _ _, _, hi, _ => by cases hi
  | .list _ _, .expr _, _, hi, _ => by cases hi
  termination_by c => sizeOf c
theorem list_eq (hs : Same ifs fs) (op : Tok) : ∀ (cs ds : List CondM.Cond) (Ps : List (FVal → Prop)), IfacesOf fs cs ds → SaysConds g pl fs ds Ps →
    ifaceList ⟨g, pl, find⟩ ifs op cs = listToks ⟨g, pl, find⟩ fs op ds
  | [], ds, Ps, hi, h => by cases hi; rw [ifaceList, listToks]
  | c :: cs, ds, Ps, hi, h => by
    cases hi with
    | @cons _ d _ ds h1 h2 =>
      cases h with
      | cons g1 g2 =>
        have he : cs.isEmpty = ds.isEmpty := by cases h2 <;> rfl
        rw [ifaceList, listToks, toks_eq hs true c d _ h1 g1, list_eq hs op cs ds _ h2 g2, he]
  termination_by cs => sizeOf cs
end

end Read

/-! ## The constructor -/

section Construct
variable {g : GVer} {pl : Place} {find : Str → Option Field} {fs : List Field} {ifs : List (List Field)}

/-- What a statement leaves. -/
structure Done (fs : List Field) (p : List Str) (a : Ask) (os os' : List (Str × CObj)) (vs vs' : List (Str × FVal)) (x y : Int) : Prop where
  was : (FVal.members vs).at p = .num x
  now : (FVal.members vs').at p = .num y
  met : a.Holds (.num y)
  keeps : ∀ a' : Ask, (∃ z, a.Holds (.num z) ∧ a'.Holds (.num z)) → a'.Holds (.num x) → a'.Holds (.num y)
  other : ∀ q z, p ≠ q → (FVal.members vs).at q = .num z → (FVal.members vs').at q = .num z

theorem keeps_num {y : Int} {a' : Ask} (h : ∃ z, (Ask.num y).Holds (.num z) ∧ a'.Holds (.num z)) : a'.Holds (.num y) := by
  obtain ⟨z, h1, h2⟩ := h
  simp only [Ask.Holds, FVal.num.injEq] at h1
  exact h1 ▸ h2

theorem keeps_bit {x x' i : Nat} {b : Bool} (hx : ∀ j, x'.testBit j = if j = i then b else x.testBit j) {a' : Ask}
    (h : ∃ z, (Ask.bit i b).Holds (.num z) ∧ a'.Holds (.num z)) (h' : a'.Holds (.num (x : Int))) : a'.Holds (.num (x' : Int)) := by
  obtain ⟨z, ⟨w, e, hw⟩, h2⟩ := h
  simp only [FVal.num.injEq] at e
  subst e
  cases a' with
  | num y =>
    simp only [Ask.Holds, FVal.num.injEq] at h' h2 ⊢
    have hwx : w = x := by exact_mod_cast h2.trans h'.symm
    subst hwx
    have : x' = w := Nat.eq_of_testBit_eq fun j => by
      rw [hx]
      split
      · rename_i e; rw [e, hw]
      · rfl
    rw [this, h']
  | bit j c =>
    obtain ⟨k, e1, h1⟩ := h'
    obtain ⟨k2, e2, h2⟩ := h2
    simp only [FVal.num.injEq, Int.natCast_inj] at e1 e2
    subst e1 e2
    refine ⟨x', rfl, ?_⟩
    rw [hx]
    split
    · rename_i e; rw [← h2, e, hw]
    · exact h1

theorem outside_less {p : List Str} {n : Str} (hp : p ≠ []) (ho : Outside fs (joinDots p ++ '.' :: n)) : Outside fs (joinDots p) := by
  intro p' q h c st sl cd e hq
  refine ho p' (q ++ [n]) h c st sl cd ?_ (by simp)
  rw [e, join_snoc (by simp [hq])]
  simp

theorem one_ok (hs : Same ifs fs) {e : CondM.Expr} {p : List Str} {a : Ask} (ha : AsksOne fs e p a) {os : List (Str × CObj)} {vs : List (Str × FVal)}
    (hm : StoresMembers g pl fs os vs) (hv : (FVal.members vs).at p ≠ .missing) :
    ∃ s os' vs' x y, constructExpr ⟨g, pl, find⟩ ifs e = .ok [s] ∧ Exec os s os' ∧ StoresMembers g pl fs os' vs' ∧ Done fs p a os os' vs vs' x y := by
  have bitCase : ∀ {h : Field} {c : Common} {st : SetF.State} {n : Str} {i : SetF.BitInfo} {op : Str} {b : Bool}, PathTo fs p h (.set c st) → SetF.Accepted st →
      (n, i) ∈ st.bits → n ≠ [] → (∀ q ∈ st.bits, q.2.idx < 64) → Outside fs (joinDots p) → op.isEmpty = b →
      ∃ s os' vs' x y, constructExpr ⟨g, pl, find⟩ ifs ⟨[], op, '%' :: (joinDots p ++ '.' :: n)⟩ = .ok [s] ∧ Exec os s os' ∧ StoresMembers g pl fs os' vs' ∧
        Done fs p (.bit i.idx b) os os' vs vs' x y := by
    intro h c st n i op b hp hacc hb hn h64 ho hop
    obtain ⟨m, pl', steps, o', h1, h2, h3, h4, h5, h6, h7⟩ := upd_root hs hm hp ho hv
    have hdot : '.' ∉ n := (plain_of ((C02_name_iff _).1 (C18_names_valid st hacc _ hb))).2.1
    have hx := (C83_access_partial st hacc h64 n i.idx).2 ⟨_, hb, rfl, rfl⟩
    simp only [valueAccImpl, List.isEmpty_nil, if_true, List.append_nil] at h2
    generalize hvp : (FVal.members vs).at p = v at h6
    cases h6 with
    | @set _ _ _ w x hw hxw =>
      obtain ⟨x', hx', hbit⟩ := set_bit x i.idx w b hxw (Nat.lt_of_lt_of_le ((C18_indices_in_bytes st hacc).1 _ hb) hw)
      obtain ⟨vs', h8, h9⟩ := h7 _ _ (.set (c := c) (st := st) hw hx')
      refine ⟨.bit ⟨accessName m.name, steps⟩ n b, _, vs', x, x', ?_, .bit h5 hx (bit_one hacc h64 hb) hbit, h8, hvp, ?_, ⟨x', rfl, by rw [hbit, if_pos rfl]⟩,
        fun a' => keeps_bit hbit, ?_⟩
      · rw [constructExpr]
        simp only [List.isEmpty_nil, if_true, constructBool]
        rw [if_neg (by simp)]
        simp only [List.drop_succ_cons, List.drop_zero, splitLast_dot hdot, h1, fieldAcc, h2, Res.bind, hop]
      · rw [h9, at_put_eq hv]
      · intro q z hq hz
        rw [h9]
        exact at_put_ne hq hvp hz
  have valCase : ∀ {h l : Field} {r lit : Str} {y : Int}, PathTo fs p h l → Outside fs (joinDots p) → (∀ pl, valueAccImpl g pl l [] = ([], .value)) →
      (∀ pl, castImpl g pl l [] = some []) → r.head? ≠ some '%' → prepValue find (r.length + 1) l [] r = .ok (.text lit) → CppExpr lit y →
      (∀ pl' o' v, StoresBody g pl' l o' v → ∃ x, v = .num x ∧ ((∃ ty, o' = .num ty x ∧ CppConv ty y y ∧ StoresBody g pl' l (.num ty y) (.num y)) ∨
        ∃ acc ty, ∃ k : Nat, o' = .set acc ty k ∧ CppConv ty y y ∧ StoresBody g pl' l (.set acc ty y.toNat) (.num y))) →
      ∃ s os' vs' x y', constructExpr ⟨g, pl, find⟩ ifs ⟨'%' :: joinDots p, "=".toList, r⟩ = .ok [s] ∧ Exec os s os' ∧ StoresMembers g pl fs os' vs' ∧
        Done fs p (.num y) os os' vs vs' x y' := by
    intro h l r lit y hp ho hva hca hr hprep hlit hbody
    obtain ⟨m, pl', steps, o', h1, h2, h3, h4, h5, h6, h7⟩ := upd_root hs hm hp ho hv
    simp only [hva, hca, List.append_nil, Option.map_some] at h2 h3
    obtain ⟨x, hvp, hcase⟩ := hbody _ _ _ h6
    have hcode : constructExpr ⟨g, pl, find⟩ ifs ⟨'%' :: joinDots p, "=".toList, r⟩ = .ok [.value ⟨accessName m.name, steps⟩ (some steps) (.text lit)] := by
      rw [constructExpr]
      simp only [List.isEmpty_cons, Bool.false_eq_true, if_false, List.drop_succ_cons, List.drop_zero, h1, fieldAcc, h2, Res.bind, h3]
      have : constructValue ⟨g, pl, find⟩ ifs m (afterDot (joinDots p)) r = .ok (some (.text lit)) := by
        unfold constructValue
        split
        · exact absurd rfl hr
        · simp only [h4, hprep, Res.bind]
      simp only [this]
    have fin : ∀ {o2 : CObj} {s : Stmt}, constructExpr ⟨g, pl, find⟩ ifs ⟨'%' :: joinDots p, "=".toList, r⟩ = .ok [s] → StoresBody g pl' l o2 (.num y) →
        Exec os s (putAt os ⟨accessName m.name, steps⟩ o2) →
        ∃ s os' vs' x y', constructExpr ⟨g, pl, find⟩ ifs ⟨'%' :: joinDots p, "=".toList, r⟩ = .ok [s] ∧ Exec os s os' ∧ StoresMembers g pl fs os' vs' ∧
          Done fs p (.num y) os os' vs vs' x y' := by
      intro o2 s hcs hb he
      obtain ⟨vs', h8, h9⟩ := h7 _ _ hb
      refine ⟨s, _, vs', x, y, hcs, he, h8, hvp, ?_, rfl, fun a' h _ => keeps_num h, ?_⟩
      · rw [h9, at_put_eq hv]
      · intro q z hq hz
        rw [h9]
        exact at_put_ne hq hvp hz
    rcases hcase with ⟨ty, rfl, hconv, hb⟩ | ⟨acc, ty, k, rfl, hconv, hb⟩
    · exact fin hcode hb (.num h5 lit_parse (.castLiteral h5 (.number hlit) hconv))
    · exact fin hcode hb (.set h5 lit_parse (.castSet h5 (.number hlit) hconv))
  cases ha with
  | bit hp hacc hb hn _ h64 ho => exact bitCase hp hacc hb hn h64 (outside_less (pathTo_parts hp).2.1 ho) rfl
  | noBit hp hacc hb hn _ h64 ho => exact bitCase hp hacc hb hn h64 (outside_less (pathTo_parts hp).2.1 ho) rfl
  | @int _ h c st t r y hp ht hr hy hm2 ho =>
    obtain ⟨lit, hl1, hl2⟩ := int_prep (find := find) (k := r.length + 1) ht hr hy hm2
    refine valCase hp ho (by simp [valueAccImpl]) (by simp [castImpl]) (text_head hr).2 (by rw [prepValue, hl1]; rfl) hl2 ?_
    intro pl' o' v hb
    cases hb with
    | @int _ _ _ t' x ht' hx =>
      rw [ht] at ht'; cases ht'
      exact ⟨x, rfl, .inl ⟨_, rfl, conv_self hy fun _ => width.2.1, .int ht hy⟩⟩
  | @enum _ h c st t r y hp ht hr hy hm2 hm3 ho =>
    obtain ⟨lit, hl1, hl2⟩ := enum_prep (find := find) hr hm2 hm3
    refine valCase hp ho (by simp [valueAccImpl]) (by simp [castImpl]) (text_head hr).2 (by rw [prepValue, hl1]; rfl) hl2 ?_
    intro pl' o' v hb
    cases hb with
    | @enum _ _ _ t' x ht' hx =>
      rw [ht] at ht'; cases ht'
      exact ⟨x, rfl, .inl ⟨_, rfl, conv_self hy fun _ => width.2.1, .enum ht hy⟩⟩
  | @set _ h c st r y hp hr hy hy2 ho =>
    refine valCase hp ho (by simp [valueAccImpl]) (by simp [castImpl]) (denotes_head (.plain hr)).2 (by rw [prepValue]) (expr_plain hr hy) ?_
    intro pl' o' v hb
    cases hb with
    | @set _ _ _ w x hw hx =>
      have h2 : y < 2 ^ w := Nat.lt_of_lt_of_le hy2 (Nat.pow_le_pow_right (by decide) hw)
      have hc : CppHolds (false, w) (y : Int) := by
        unfold CppHolds
        simp only [Bool.false_eq_true, if_false]
        have h3 : (y : Int) < ((2 ^ w : Nat) : Int) := by exact_mod_cast h2
        push_cast at h3
        omega
      exact ⟨x, rfl, .inr ⟨_, _, x, rfl, conv_self hc (by simp), by rw [Int.toNat_natCast]; exact .set hw h2⟩⟩

/-- What all statements together leave. -/
structure Result (l : List (List Str × Ask)) (vs vs' : List (Str × FVal)) : Prop where
  met : Met l (.members vs')
  keeps : ∀ (q : List Str) (a : Ask), (∃ w : FVal, Met l w ∧ a.Holds (w.at q)) → a.Holds ((FVal.members vs).at q) → a.Holds ((FVal.members vs').at q)
  nums : ∀ q x, (FVal.members vs).at q = .num x → ∃ y, (FVal.members vs').at q = .num y
  other : ∀ q z, Unasked l q → (FVal.members vs).at q = .num z → (FVal.members vs').at q = .num z

theorem holds_num {a : Ask} {v : FVal} (h : a.Holds v) : ∃ x, v = .num x := by
  cases a with
  | bit i b => obtain ⟨x, h, -⟩ := h; exact ⟨x, h⟩
  | num y => exact ⟨y, h⟩

theorem Done.result {p : List Str} {a : Ask} {os os' : List (Str × CObj)} {vs vs' : List (Str × FVal)} {x y : Int} (h : Done fs p a os os' vs vs' x y) :
    Result [(p, a)] vs vs' := by
  refine ⟨fun k hk => ?_, fun q a' ⟨w, hw, hq⟩ hv => ?_, fun q z hz => ?_, fun q z hu hz => ?_⟩
  · rw [List.mem_singleton.1 hk]; rw [h.now]; exact h.met
  · by_cases e : p = q
    · subst e
      rw [h.was] at hv
      rw [h.now]
      have hwp := hw (p, a) (by simp)
      obtain ⟨z, hz⟩ := holds_num hwp
      dsimp only at hwp hz
      rw [hz] at hwp hq
      exact h.keeps a' ⟨z, hwp, hq⟩ hv
    · obtain ⟨z, hz⟩ := holds_num hv
      rw [hz] at hv
      rw [h.other q z e hz]
      exact hv
  · by_cases e : p = q
    · subst e; exact ⟨_, h.now⟩
    · exact ⟨_, h.other q z e hz⟩
  · exact h.other q z (hu (p, a) (by simp)) hz

theorem Result.append {l l' : List (List Str × Ask)} {v1 v2 v3 : List (Str × FVal)} (hc : ∃ w, Met (l ++ l') w) (h1 : Result l v1 v2) (h2 : Result l' v2 v3) :
    Result (l ++ l') v1 v3 := by
  obtain ⟨w, hw⟩ := hc
  refine ⟨fun k hk => ?_, fun q a ⟨w', hw', hq⟩ hv => ?_, fun q x hx => ?_, fun q z hu hz => ?_⟩
  · rcases List.mem_append.1 hk with hk | hk
    · exact h2.keeps k.1 k.2 ⟨w, fun j hj => hw j (List.mem_append_right _ hj), hw k (List.mem_append_left _ hk)⟩ (h1.met k hk)
    · exact h2.met k hk
  · exact h2.keeps q a ⟨w', fun j hj => hw' j (List.mem_append_right _ hj), hq⟩
      (h1.keeps q a ⟨w', fun j hj => hw' j (List.mem_append_left _ hj), hq⟩ hv)
  · obtain ⟨y, hy⟩ := h1.nums q x hx
    exact h2.nums q y hy
  · exact h2.other q z (fun k hk => hu k (List.mem_append_right _ hk)) (h1.other q z (fun k hk => hu k (List.mem_append_left _ hk)) hz)

theorem Result.bit {l : List (List Str × Ask)} {v1 v2 : List (Str × FVal)} (h : Result l v1 v2) (hw : ∃ w, Met l w) {q : List Str} {j : Nat} {b : Bool}
    (hq : NotAskedBit l q j) (hb : (Ask.bit j b).Holds ((FVal.members v1).at q)) : (Ask.bit j b).Holds ((FVal.members v2).at q) := by
  by_cases hu : Unasked l q
  · obtain ⟨x, hx, hxb⟩ := hb
    exact ⟨x, h.other q x hu hx, hxb⟩
  · obtain ⟨w, hw⟩ := hw
    have hex : ∃ k ∈ l, k.1 = q := by simpa [Unasked] using hu
    obtain ⟨k, hk, rfl⟩ := hex
    have hwk := hw k hk
    obtain ⟨i, b', hki, hij⟩ := hq k hk rfl
    rw [hki] at hwk
    obtain ⟨x, hx, hxb⟩ := hwk
    obtain ⟨x', -, hx'⟩ := set_bit x j (x + j + 1) b (Nat.lt_of_lt_of_le Nat.lt_two_pow_self (Nat.pow_le_pow_right (by decide) (by omega))) (by omega)
    have hat : (putV k.1 (.num x') w).at k.1 = .num x' := at_put_eq (by rw [hx]; simp)
    refine h.keeps k.1 (.bit j b) ⟨putV k.1 (.num x') w, fun m hm => ?_, by rw [hat]; exact ⟨x', rfl, by rw [hx', if_pos rfl]⟩⟩ hb
    have hwm := hw m hm
    by_cases e : k.1 = m.1
    · obtain ⟨i2, b2, hm2, hne⟩ := hq m hm e.symm
      rw [hm2] at hwm ⊢
      obtain ⟨y, hy, hyb⟩ := hwm
      rw [← e] at hy ⊢
      rw [hx] at hy
      simp only [FVal.num.injEq, Int.natCast_inj] at hy
      rw [hat]
      exact ⟨x', rfl, by rw [hx', if_neg hne, hy]; exact hyb⟩
    · obtain ⟨z, hz⟩ := holds_num hwm
      rw [at_put_ne e hx hz, ← hz]
      exact hwm

mutual
theorem stmts_ok (hs : Same ifs fs) : ∀ (c : CondM.Cond) (l : List (List Str × Ask)), Asks fs c l → ∀ (os : List (Str × CObj)) (vs : List (Str × FVal)),
    StoresMembers g pl fs os vs → (∀ k ∈ l, ∃ x, (FVal.members vs).at k.1 = .num x) → (∃ w, Met l w) →
    ∃ ss os' vs', constructStmts ⟨g, pl, find⟩ ifs c = .ok ss ∧ ExecAll os ss os' ∧ StoresMembers g pl fs os' vs' ∧ Result l vs vs'
  | .expr e, l, h, os, vs, hm, hn, hw => by
    cases h with
    | @expr _ p a h =>
      obtain ⟨x, hx⟩ := hn (p, a) (by simp)
      obtain ⟨s, os', vs', x, y, h1, h2, h3, h4⟩ := one_ok (find := find) hs h hm (by rw [hx]; simp)
      exact ⟨[s], os', vs', by rw [constructStmts, h1], .cons h2 .nil, h3, h4.result⟩
  | .list t cs, l, h, os, vs, hm, hn, hw => by
    cases h with
    | all _ h => rw [constructStmts]; exact list_ok hs cs l h os vs hm hn hw
  termination_by c => sizeOf c
theorem list_ok (hs : Same ifs fs) : ∀ (cs : List CondM.Cond) (l : List (List Str × Ask)), AsksAll fs cs l → ∀ (os : List (Str × CObj)) (vs : List (Str × FVal)),
    StoresMembers g pl fs os vs → (∀ k ∈ l, ∃ x, (FVal.members vs).at k.1 = .num x) → (∃ w, Met l w) →
    ∃ ss os' vs', constructList ⟨g, pl, find⟩ ifs cs = .ok ss ∧ ExecAll os ss os' ∧ StoresMembers g pl fs os' vs' ∧ Result l vs vs'
  | [], l, h, os, vs, hm, hn, hw => by
    cases h
    exact ⟨[], os, vs, by rw [constructList], .nil, hm, by simp [Met], fun _ _ _ h => h, fun q x h => ⟨x, h⟩, fun _ _ _ h => h⟩
  | c :: cs, l, h, os, vs, hm, hn, hw => by
    cases h with
    | @cons _ _ l l' h1 h2 =>
      obtain ⟨w, hw'⟩ := hw
      obtain ⟨s1, os1, vs1, a1, a2, a3, a4⟩ := stmts_ok hs c l h1 os vs hm (fun k hk => hn k (List.mem_append_left _ hk))
        ⟨w, fun j hj => hw' j (List.mem_append_left _ hj)⟩
      obtain ⟨s2, os2, vs2, b1, b2, b3, b4⟩ := list_ok hs cs l' h2 os1 vs1 a3
        (fun k hk => by obtain ⟨x, hx⟩ := hn k (List.mem_append_right _ hk); exact a4.nums _ _ hx) ⟨w, fun j hj => hw' j (List.mem_append_right _ hj)⟩
      exact ⟨s1 ++ s2, os2, vs2, by rw [constructList, a1]; simp only [Res.bind, b1], execAll_append a2 b2, b3, a4.append ⟨w, hw'⟩ b4⟩
  termination_by cs => sizeOf cs
end

/-- A field that is there has a number. -/
theorem one_num (hs : Same ifs fs) {e : CondM.Expr} {p : List Str} {a : Ask} (ha : AsksOne fs e p a) {os : List (Str × CObj)} {vs : List (Str × FVal)}
    (hm : StoresMembers g pl fs os vs) (hv : (FVal.members vs).at p ≠ .missing) : ∃ x, (FVal.members vs).at p = .num x := by
  obtain ⟨s, os', vs', x, y, -, -, -, h⟩ := one_ok (find := fun _ => none) hs ha hm hv
  exact ⟨x, h.was⟩

mutual
theorem nums_of (hs : Same ifs fs) {os : List (Str × CObj)} {vs : List (Str × FVal)} (hm : StoresMembers g pl fs os vs) : ∀ (c : CondM.Cond)
    (l : List (List Str × Ask)), Asks fs c l → (∀ k ∈ l, (FVal.members vs).at k.1 ≠ .missing) → ∀ k ∈ l, ∃ x, (FVal.members vs).at k.1 = .num x
  | .expr e, l, h, hv => by
    cases h with
    | @expr _ p a h =>
      intro k hk
      rw [List.mem_singleton.1 hk]
      exact one_num hs h hm (hv (p, a) (by simp))
  | .list t cs, l, h, hv => by
    cases h with
    | all _ h => exact nums_list hs hm cs l h hv
  termination_by c => sizeOf c
theorem nums_list (hs : Same ifs fs) {os : List (Str × CObj)} {vs : List (Str × FVal)} (hm : StoresMembers g pl fs os vs) : ∀ (cs : List CondM.Cond)
    (l : List (List Str × Ask)), AsksAll fs cs l → (∀ k ∈ l, (FVal.members vs).at k.1 ≠ .missing) → ∀ k ∈ l, ∃ x, (FVal.members vs).at k.1 = .num x
  | [], l, h, hv => by cases h; simp
  | c :: cs, l, h, hv => by
    cases h with
    | @cons _ _ l l' h1 h2 =>
      intro k hk
      rcases List.mem_append.1 hk with hk | hk
      · exact nums_of hs hm c l h1 (fun k hk => hv k (List.mem_append_left _ hk)) k hk
      · exact nums_list hs hm cs l' h2 (fun k hk => hv k (List.mem_append_right _ hk)) k hk
  termination_by cs => sizeOf cs
end

/-! ### The same condition, checked when a message is read -/

theorem path_head {p : List Str} (h1 : ∀ n ∈ p, Identifier n) (h2 : p ≠ []) (w : Str) : (J p w).head? ≠ some '?' ∧ (J p w).head? ≠ some '#' := by
  cases p with
  | nil => exact absurd rfl h2
  | cons n q =>
    have hn := plain_of (h1 n (by simp))
    obtain ⟨-, -, r, e⟩ := J_split (q := q) (w := w) hn
    rw [e]
    cases n with
    | nil => exact absurd rfl hn.1
    | cons a as =>
      simp only [List.cons_append, List.head?_cons, ne_eq, Option.some.injEq]
      exact ⟨fun e => hn.2.2.2 (by simp [e]), fun e => hn.2.2.1 (by simp [e])⟩

theorem compares_eq {p : List Str} {y : Int} {v : FVal} : (∃ x, v.at p = .num x ∧ Compares "=".toList x y) ↔ (Ask.num y).Holds (v.at p) := by
  constructor
  · rintro ⟨x, h, hc⟩
    have : x = y := by
      rcases hc with ⟨-, h⟩ | ⟨h, -⟩ | ⟨h, -⟩ | ⟨h, -⟩ | ⟨h, -⟩ | ⟨h, -⟩
      · exact h
      all_goals exact absurd h (by decide)
    rw [h, this]
    rfl
  · intro h
    exact ⟨y, h, .inl ⟨rfl, rfl⟩⟩

theorem one_says (g : GVer) (pl : Place) {e : CondM.Expr} {p : List Str} {a : Ask} (ha : AsksOne fs e p a) :
    ∃ d P, IfaceOf fs (.expr e) d ∧ SaysCond g pl fs d P ∧ ∀ v, P v ↔ a.Holds (v.at p) := by
  have eqOp : "=".toList ∈ condOps := by decide
  cases ha with
  | bit hp hacc hb hn hi h64 ho =>
    obtain ⟨i1, i2, i3, -⟩ := pathTo_parts hp
    obtain ⟨q1, q2⟩ := path_head i1 i2 _
    rw [J_value hn i2] at q1 q2
    exact ⟨_, _, .bit q1 q2 ho, .expr (.bit hp hacc hb hn hi h64), fun v => Iff.rfl⟩
  | noBit hp hacc hb hn hi h64 ho =>
    obtain ⟨i1, i2, i3, -⟩ := pathTo_parts hp
    obtain ⟨q1, q2⟩ := path_head i1 i2 _
    rw [J_value hn i2] at q1 q2
    exact ⟨_, _, .bit q1 q2 ho, .expr (.noBit hp hacc hb hn hi h64), fun v => Iff.rfl⟩
  | int hp ht hr hy hm2 ho =>
    obtain ⟨i1, i2, i3, -⟩ := pathTo_parts hp
    obtain ⟨q1, q2⟩ := path_head i1 i2 []
    rw [J_nil i3] at q1 q2
    exact ⟨_, _, .value q1 q2 ho (text_head hr).1 (text_head hr).2, .expr (.int hp ht eqOp hr hy hm2), fun v => compares_eq⟩
  | enum hp ht hr hy hm2 hm3 ho =>
    obtain ⟨i1, i2, i3, -⟩ := pathTo_parts hp
    obtain ⟨q1, q2⟩ := path_head i1 i2 []
    rw [J_nil i3] at q1 q2
    exact ⟨_, _, .value q1 q2 ho (text_head hr).1 (text_head hr).2, .expr (.enum hp ht eqOp hr hy hm2 hm3), fun v => compares_eq⟩
  | set hp hr hy hy2 ho =>
    obtain ⟨i1, i2, i3, -⟩ := pathTo_parts hp
    obtain ⟨q1, q2⟩ := path_head i1 i2 []
    rw [J_nil i3] at q1 q2
    have hd := denotes_head (.plain hr)
    exact ⟨_, _, .value q1 q2 ho hd.1 hd.2, .expr (.set hp eqOp hr hy hy2), fun v => compares_eq⟩

mutual
theorem asks_says (g : GVer) (pl : Place) : ∀ (c : CondM.Cond) (l : List (List Str × Ask)), Asks fs c l →
    ∃ d P, IfaceOf fs c d ∧ SaysCond g pl fs d P ∧ ∀ v, P v ↔ Met l v
  | .expr e, l, h => by
    cases h with
    | @expr _ p a h =>
      obtain ⟨d, P, h1, h2, h3⟩ := one_says g pl h
      exact ⟨d, P, h1, h2, fun v => by rw [h3]; simp [Met]⟩
  | .list t cs, l, h => by
    cases h with
    | all hne h =>
      obtain ⟨ds, Ps, h1, h2, h3⟩ := asks_list g pl cs l h
      exact ⟨.list .and ds, _, .list h1, .all (by rintro rfl; cases h1; exact hne rfl) h2, h3⟩
  termination_by c => sizeOf c
theorem asks_list (g : GVer) (pl : Place) : ∀ (cs : List CondM.Cond) (l : List (List Str × Ask)), AsksAll fs cs l →
    ∃ ds Ps, IfacesOf fs cs ds ∧ SaysConds g pl fs ds Ps ∧ ∀ v, (∀ P ∈ Ps, P v) ↔ Met l v
  | [], l, h => by
    cases h
    exact ⟨[], [], .nil, .nil, fun v => by simp [Met]⟩
  | c :: cs, l, h => by
    cases h with
    | @cons _ _ l l' h1 h2 =>
      obtain ⟨d, P, a1, a2, a3⟩ := asks_says g pl c l h1
      obtain ⟨ds, Ps, b1, b2, b3⟩ := asks_list g pl cs l' h2
      refine ⟨d :: ds, P :: Ps, .cons a1 b1, .cons a2 b2, fun v => ?_⟩
      rw [List.forall_mem_cons, a3, b3]
      simp only [Met, List.mem_append]
      exact ⟨fun ⟨x, y⟩ k hk => hk.elim (x k) (y k), fun h => ⟨fun k hk => h k (.inl hk), fun k hk => h k (.inr hk)⟩⟩
  termination_by cs => sizeOf cs
end

end Construct
end IfaceProofs
open IfaceProofs

/-- C123. A message with a condition on the fields of its interface is read if and only if the condition holds for the values of these fields, whatever they are; the
    check has exactly one result. Left out: comparisons of two fields and what goes through an `<optional>` (see the witnesses), and what `Says` leaves out. -/
theorem C123_read_partial (g : GVer) (pl : Place) (find : Str → Option Field) (fs : List Field) (ifs : List (List Field)) (c d : CondM.Cond) (P : FVal → Prop)
    (os : List (Str × CObj)) (vs : List (Str × FVal)) (hs : Same ifs fs) (hi : IfaceOf fs c d) (h : SaysCond g pl fs d P) (hm : StoresMembers g pl fs os vs) :
    ∃ fn, readCheck ⟨g, pl, find⟩ ifs (some c) = .ok fn ∧ (∃ r, Admits os fn r) ∧ ∀ r, Admits os fn r → (r = true ↔ P (.members vs)) := by
  obtain ⟨toks, b, h1, h2, h3, h4⟩ := C88_condition_partial g pl find fs d P true os vs h hm
  refine ⟨some toks, ?_, ⟨b, .some ((h3 b).2 rfl)⟩, ?_⟩
  · rw [readCheck, toks_eq hs true c d P hi h, h1]
    simp [Res.bind, h2]
  · intro r hr
    cases hr with
    | some he => rw [(h3 r).1 he]; exact h4

/-- C123. Without a condition every message is read. -/
theorem C123_unconditional (x : CondEnv) (ifs : List (List Field)) (os : List (Str × CObj)) :
    ∃ fn, readCheck x ifs none = .ok fn ∧ ∀ r, Admits os fn r ↔ r = true := by
  refine ⟨none, rfl, fun r => ⟨fun h => ?_, ?_⟩⟩
  · cases h; rfl
  · rintro rfl; exact .none

/-- C124. The constructor of a message with a condition on the fields of its interface: if nothing that is asked for is missing and the condition can be met at all, the
    statements run, with exactly one result, and leave fields for which all that was asked for holds; other fields with a number keep it, and so do
    bits of a set that are not asked for. -/
theorem C124_construct_partial (g : GVer) (pl : Place) (find : Str → Option Field) (fs : List Field) (ifs : List (List Field)) (c : CondM.Cond)
    (l : List (List Str × Ask)) (os : List (Str × CObj)) (vs : List (Str × FVal)) (hs : Same ifs fs) (h : Asks fs c l) (hm : StoresMembers g pl fs os vs)
    (hv : ∀ k ∈ l, (FVal.members vs).at k.1 ≠ .missing) (hw : ∃ w, Met l w) :
    ∃ ss os' vs', constructCode ⟨g, pl, find⟩ ifs (some c) = .ok ss ∧ (∀ r, ExecAll os ss r ↔ r = os') ∧ StoresMembers g pl fs os' vs' ∧
      Met l (.members vs') ∧ (∀ q z, Unasked l q → (FVal.members vs).at q = .num z → (FVal.members vs').at q = .num z) ∧
      ∀ q j b, NotAskedBit l q j → (Ask.bit j b).Holds ((FVal.members vs).at q) → (Ask.bit j b).Holds ((FVal.members vs').at q) := by
  obtain ⟨ss, os', vs', h1, h2, h3, h4⟩ := stmts_ok (find := find) hs c l h os vs hm (nums_of hs hm c l h hv) hw
  exact ⟨ss, os', vs', h1, fun r => ⟨fun hr => execAll_one hr h2, fun e => e ▸ h2⟩, h3, h4.met, h4.other, fun q j b hq hb =>
    h4.bit hw hq hb⟩

/-- C124. If the condition is also the one checked when a message is read, the message that was constructed passes the check. -/
theorem C124_read_own_partial (g : GVer) (pl : Place) (find : Str → Option Field) (fs : List Field) (ifs : List (List Field)) (c : CondM.Cond)
    (l : List (List Str × Ask)) (os : List (Str × CObj)) (vs : List (Str × FVal)) (hs : Same ifs fs) (h : Asks fs c l) (hm : StoresMembers g pl fs os vs)
    (hv : ∀ k ∈ l, (FVal.members vs).at k.1 ≠ .missing) (hw : ∃ w, Met l w) :
    ∃ ss fn, constructCode ⟨g, pl, find⟩ ifs (some c) = .ok ss ∧ readCheck ⟨g, pl, find⟩ ifs (some c) = .ok fn ∧
      ∀ os', ExecAll os ss os' → ∀ r, Admits os' fn r ↔ r = true := by
  obtain ⟨ss, os', vs', h1, h2, h3, h4, -, -⟩ := C124_construct_partial g pl find fs ifs c l os vs hs h hm hv hw
  obtain ⟨d, P, i1, i2, i3⟩ := asks_says g pl c l h
  obtain ⟨fn, r1, ⟨r0, hr0⟩, r2⟩ := C123_read_partial g pl find fs ifs c d P os' vs' hs i1 i2 h3
  refine ⟨ss, fn, h1, r1, fun os2 he r => ?_⟩
  cases (h2 os2).1 he
  have ht : ∀ {r}, Admits os' fn r → r = true := fun hr => (r2 _ hr).2 ((i3 _).2 h4)
  exact ⟨ht, fun e => by rw [e, ← ht hr0]; exact hr0⟩

/-- C124. Without a condition the constructor changes nothing. -/
theorem C124_unconditional (x : CondEnv) (ifs : List (List Field)) (os : List (Str × CObj)) :
    ∃ ss, constructCode x ifs none = .ok ss ∧ ∀ r, ExecAll os ss r ↔ r = os := by
  refine ⟨[], rfl, fun r => ⟨fun h => ?_, ?_⟩⟩
  · cases h; rfl
  · rintro rfl; exact .nil

end Commsdsl.Props
