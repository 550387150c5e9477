import Verif.Lemmas.GenCond
import Verif.Lemmas.GenCondEval
/-!
# Conditions in the generated code (C88 to C90)
-/
namespace Commsdsl.Props
open Commsdsl Text Fld Gen Spec

namespace GCond
open CondProofs (J J_ne J_nil J_value J_split)

/-! ## Expressions -/

/-- An expression of `&&` that evaluates to the truth value. -/
def EvA (env : List (Str × CObj)) (t : List Tok) (b : Bool) : Prop := ∃ e, CParse .and t e ∧ CEval env e (.bool b)

theorem EvA.evaluates {env : List (Str × CObj)} {t : List Tok} {b : Bool} (h : EvA env t b) : Evaluates env t b := by
  obtain ⟨e, h1, h2⟩ := h
  exact ⟨e, .fromAnd h1, h2⟩

theorem ev_paren {env : List (Str × CObj)} {t : List Tok} {b : Bool} (h : Evaluates env t b) :
    ∃ e, CParse .cmp (.lpar :: (t ++ [.rpar])) e ∧ CEval env e (.bool b) := by
  obtain ⟨e, h1, h2⟩ := h
  exact ⟨e, .fromUnary (.paren h1), h2⟩

theorem EvA.paren {env : List (Str × CObj)} {t : List Tok} {b : Bool} (h : Evaluates env t b) : EvA env (.lpar :: (t ++ [.rpar])) b := by
  obtain ⟨e, h1, h2⟩ := ev_paren h
  exact ⟨e, .fromCmp h1, h2⟩

def Alls (env : List (Str × CObj)) (name : Str) (cs : List (List Step)) : Prop := ∀ c ∈ cs, ∃ i, objAt env ⟨name, c⟩ = some (.opt true i)

def Stops (env : List (Str × CObj)) (name : Str) (cs : List (List Step)) : Prop :=
  ∃ a c b i, cs = a ++ c :: b ∧ Alls env name a ∧ objAt env ⟨name, c⟩ = some (.opt false i)

theorem chain_cons {name : Str} {c : List Step} {cs : List (List Step)} {T : List Tok} :
    ∃ R, checkToks name (c :: cs) ++ .and :: T = [.exists ⟨name, c⟩] ++ .and :: R ∧ R = (if cs = [] then T else checkToks name cs ++ .and :: T) := by
  cases cs with
  | nil => exact ⟨T, rfl, rfl⟩
  | cons d cs => exact ⟨_, rfl, rfl⟩

theorem exists_parse {a : Acc} : CParse .cmp [.exists a] (.exists a) := .fromUnary .exists

theorem chain_parse {name : Str} {cs : List (List Step)} {T : List Tok} {e : CExpr} (h : CParse .and T e) :
    ∃ e', CParse .and (if cs = [] then T else checkToks name cs ++ .and :: T) e' := by
  induction cs with
  | nil => exact ⟨e, h⟩
  | cons c cs ih =>
    obtain ⟨e', h'⟩ := ih
    obtain ⟨R, h1, h2⟩ := chain_cons (name := name) (c := c) (cs := cs) (T := T)
    rw [if_neg (by simp), h1]
    rw [← h2] at h'
    exact ⟨_, .and exists_parse h'⟩

theorem chain_true {env : List (Str × CObj)} {name : Str} {cs : List (List Step)} {T : List Tok} {b : Bool} (ha : Alls env name cs) (h : EvA env T b) :
    EvA env (if cs = [] then T else checkToks name cs ++ .and :: T) b := by
  induction cs with
  | nil => exact h
  | cons c cs ih =>
    obtain ⟨e', h', hv⟩ := ih (fun d hd => ha d (by simp [hd]))
    obtain ⟨R, h1, h2⟩ := chain_cons (name := name) (c := c) (cs := cs) (T := T)
    rw [if_neg (by simp), h1]
    rw [← h2] at h'
    obtain ⟨i, hi⟩ := ha c (by simp)
    exact ⟨_, .and exists_parse h', .andTrue (.exists hi) hv⟩

theorem chain_false {env : List (Str × CObj)} {name : Str} {cs : List (List Step)} {T : List Tok} {e : CExpr} (ha : Stops env name cs) (h : CParse .and T e) :
    EvA env (checkToks name cs ++ .and :: T) false := by
  obtain ⟨a, c, r, i, rfl, h1, h2⟩ := ha
  induction a with
  | nil =>
    obtain ⟨R, g1, g2⟩ := chain_cons (name := name) (c := c) (cs := r) (T := T)
    obtain ⟨e', h'⟩ := chain_parse (name := name) (cs := r) h
    rw [← g2] at h'
    rw [List.nil_append, g1]
    exact ⟨_, .and exists_parse h', .andFalse (.exists h2)⟩
  | cons d a ih =>
    obtain ⟨e', h', hv⟩ := ih (fun d hd => h1 d (by simp [hd]))
    obtain ⟨R, g1, g2⟩ := chain_cons (name := name) (c := d) (cs := a ++ c :: r) (T := T)
    rw [if_neg (by simp)] at g2
    rw [← g2] at h'
    rw [List.cons_append, g1]
    obtain ⟨i, hi⟩ := h1 d (by simp)
    exact ⟨_, .and exists_parse h', .andTrue (.exists hi) hv⟩

theorem checkToks_empty {name : Str} {cs : List (List Step)} : (checkToks name cs).isEmpty = true ↔ cs = [] := by
  cases cs with
  | nil => simp [checkToks]
  | cons c cs => cases cs <;> simp [checkToks]

theorem guarded_eq {name : Str} {cs : List (List Step)} {x : List Tok} :
    guarded (checkToks name cs) x = if cs = [] then x else checkToks name cs ++ .and :: (.lpar :: (x ++ [.rpar])) := by
  unfold guarded
  by_cases h : cs = []
  · rw [if_pos (checkToks_empty.2 h), if_pos h]
  · rw [if_neg (fun e => h (checkToks_empty.1 e)), if_neg h]; simp

theorem paren_parse {t : List Tok} {e : CExpr} (h : CParse .and t e) : CParse .and (.lpar :: (t ++ [.rpar])) e :=
  .fromCmp (.fromUnary (.paren (.fromAnd h)))

theorem guard_true {env : List (Str × CObj)} {name : Str} {cs : List (List Step)} {x : List Tok} {b : Bool} (ha : Alls env name cs) (h : EvA env x b) :
    EvA env (guarded (checkToks name cs) x) b := by
  rw [guarded_eq]
  by_cases hc : cs = []
  · rw [if_pos hc]; exact h
  · have := chain_true (T := .lpar :: (x ++ [.rpar])) ha (.paren h.evaluates)
    rw [if_neg hc] at this ⊢
    exact this

theorem guard_false {env : List (Str × CObj)} {name : Str} {cs : List (List Step)} {x : List Tok} {e : CExpr} (ha : Stops env name cs)
    (h : CParse .and x e) : EvA env (guarded (checkToks name cs) x) false := by
  have hc : cs ≠ [] := by obtain ⟨a, c, b, i, rfl, _⟩ := ha; simp
  rw [guarded_eq, if_neg hc]
  exact chain_false ha (paren_parse h)

/-- Only the checks. -/
theorem checks_all {env : List (Str × CObj)} {name : Str} {cs : List (List Step)} (hc : cs ≠ []) (ha : Alls env name cs) : EvA env (checkToks name cs) true := by
  induction cs with
  | nil => exact absurd rfl hc
  | cons c cs ih =>
    obtain ⟨i, hi⟩ := ha c (by simp)
    cases cs with
    | nil => exact ⟨_, .fromCmp exists_parse, .exists hi⟩
    | cons d cs =>
      obtain ⟨e, h1, h2⟩ := ih (by simp) (fun d hd => ha d (by simp [hd]))
      exact ⟨_, .and (t := [.exists ⟨name, c⟩]) exists_parse h1, .andTrue (.exists hi) h2⟩

theorem checks_parse {name : Str} {cs : List (List Step)} (hc : cs ≠ []) : ∃ e, CParse .and (checkToks name cs) e := by
  induction cs with
  | nil => exact absurd rfl hc
  | cons c cs ih =>
    cases cs with
    | nil => exact ⟨_, .fromCmp exists_parse⟩
    | cons d cs =>
      obtain ⟨e, h1⟩ := ih (by simp)
      exact ⟨_, .and (t := [.exists ⟨name, c⟩]) exists_parse h1⟩

theorem checks_stop {env : List (Str × CObj)} {name : Str} {cs : List (List Step)} (ha : Stops env name cs) : EvA env (checkToks name cs) false := by
  obtain ⟨a, c, r, i, rfl, h1, h2⟩ := ha
  induction a with
  | nil =>
    cases r with
    | nil => exact ⟨_, .fromCmp exists_parse, .exists h2⟩
    | cons d r =>
      obtain ⟨e, h⟩ := checks_parse (name := name) (cs := d :: r) (by simp)
      exact ⟨_, .and (t := [.exists ⟨name, c⟩]) exists_parse h, .andFalse (.exists h2)⟩
  | cons d a ih =>
    obtain ⟨e, h', hv⟩ := ih (fun d hd => h1 d (by simp [hd]))
    obtain ⟨i, hi⟩ := h1 d (by simp)
    have : checkToks name (d :: a ++ c :: r) = [.exists ⟨name, d⟩] ++ .and :: checkToks name (a ++ c :: r) := by
      cases a <;> rfl
    rw [this]
    exact ⟨_, .and exists_parse h', .andTrue (.exists hi) hv⟩

/-! ## Fields among siblings -/

theorem plain_of {n : Str} (h : Identifier n) : CondProofs.Plain n := by
  obtain ⟨c, cs, rfl, h1, h2⟩ := h
  have key : ∀ x : Char, ¬ NameStart x → ¬ NameRest x → x ∉ c :: cs := by
    intro x a b hx
    rcases List.mem_cons.1 hx with rfl | hx
    · exact a h1
    · exact b (h2 x hx)
  exact ⟨by simp, key _ (by unfold NameStart; decide) (by unfold NameRest; decide), key _ (by unfold NameStart; decide) (by unfold NameRest; decide),
    key _ (by unfold NameStart; decide) (by unfold NameRest; decide)⟩

/-- The field that is meant, from the siblings. -/
structure Sib (g : GVer) (pl : Place) (fs : List Field) (os : List (Str × CObj)) (v : FVal) (s : Str) (l : Field) (w : Str) (find : Str → Option Field)
    (m : Field) (o : CObj) : Prop where
  sib : findSib fs s = some m
  obj : entry os (accessName m.name) = some o
  there : There g pl m (afterDot s) o l w v ∨ (v = .missing ∧ Stop g pl m (afterDot s) o)
  prep : ∀ n r, prepValue find n m (afterDot s) r = prepValue find n l w r

theorem sib_of {g : GVer} {pl : Place} {fs : List Field} {os : List (Str × CObj)} {vs : List (Str × FVal)} {p : List Str} {h l : Field}
    (hm : StoresMembers g pl fs os vs) (hp : PathTo fs p h l) (w : Str) (find : Str → Option Field) :
    ∃ m o, Sib g pl fs os ((FVal.members vs).at p) (J p w) l w find m o := by
  obtain ⟨h1, n, q, m, rfl, hf, hpa, hl⟩ := hp
  have hq : ∀ x ∈ n :: q, CondProofs.Plain x := fun x hx => plain_of (h1 x hx)
  obtain ⟨e1, e2, -⟩ := J_split (q := q) (w := w) (hq n (by simp))
  obtain ⟨e3, o, v, hh, ho, hv⟩ := members_find hf hm
  have hq' : ∀ x ∈ q, CondProofs.Plain x := fun x hx => hq x (by simp [hx])
  refine ⟨m, o, ?_, ho, ?_, ?_⟩
  · rw [findSib, e1, hf]
  · have : (FVal.members vs).at (n :: q) = v.at q := by simp only [FVal.at, hv]
    rw [this, e2]
    exact nav_all hh hpa hq' hl w
  · intro k r
    rw [e2]
    exact prep_all hpa hq' hl w k r

theorem alls_of {os : List (Str × CObj)} {name : Str} {o : CObj} {cs : List (List Step)} (ho : entry os name = some o) (h : AllThere o cs) : Alls os name cs := by
  intro c hc
  obtain ⟨i, hi⟩ := h c hc
  exact ⟨i, by simp only [objAt, ho, hi]⟩

theorem stops_of {g : GVer} {pl : Place} {m : Field} {s : Str} {os : List (Str × CObj)} {name : Str} {o : CObj} (ho : entry os name = some o)
    (h : Stop g pl m s o) : Stops os name (checks g pl m s []) := by
  obtain ⟨cs, c, i, h1, h2, h3⟩ := h
  obtain ⟨rest, e⟩ := h3 []
  refine ⟨cs, c, rest, i, ?_, alls_of ho h1, by simp only [objAt, ho, h2]⟩
  rw [e]; simp

/-- The field that is meant has no checks of its own: all that is needed to evaluate an access. -/
theorem reach {g : GVer} {pl : Place} {m l : Field} {s w : Str} {o : CObj} {v : FVal} {os : List (Str × CObj)} {name : Str} (ho : entry os name = some o)
    (hk : ∀ pl pre, checksImpl g pl l w pre = []) (h : There g pl m s o l w v) :
    ∃ pl' steps o', StoresBody g pl' l o' v ∧ objAt os ⟨name, steps⟩ = some o' ∧ Alls os name (checks g pl m s []) ∧
      valueAcc g pl m s = (steps ++ (valueAccImpl g pl' l w).1, (valueAccImpl g pl' l w).2) ∧
      sizeAcc g pl m s = ((sizeAccImpl g pl' l w).map fun r => (steps ++ r.1, r.2)) ∧ castType g pl m s = (castImpl g pl' l w).map (steps ++ ·) := by
  obtain ⟨steps, cs, pl', o', n, h1, h2, h3⟩ := h
  refine ⟨pl', steps, o', h1, by simp only [objAt, ho, h3], ?_, n.val, n.size, n.cast⟩
  have : checks g pl m s [] = cs := by rw [n.chk, hk]; simp
  rw [this]
  exact alls_of ho h2

/-! ## Operators and literals -/

theorem cppOp_holds {op : Str} (h : op ∈ condOps) (x y : Int) : CmpHolds (cppOp op) x y ↔ Compares op x y := by
  simp only [condOps, List.mem_cons, List.not_mem_nil, or_false] at h
  rcases h with rfl | rfl | rfl | rfl | rfl | rfl <;> simp [CmpHolds, Compares, cppOp]

theorem conv_self {ty : CppInt} {x : Int} (h : CppHolds ty x) (hw : ty.1 = true → 0 < ty.2) : CppConv ty x x := ⟨hw, h, 0, by simp⟩

theorem width {t : IntF.IntType} {n : Nat} : (cppIntType t n).2 ≤ 64 ∧ 1 ≤ (cppIntType t n).2 ∧ (cppIntType t n).1 = !IntF.isUnsigned t := by
  cases t <;> simp [cppIntType, IntF.isUnsigned] <;> (split <;> try split) <;> omega

theorem holds_bounds {t : IntF.IntType} {n : Nat} {y : Int} (h : CppHolds (cppIntType t n) y) :
    if IntF.isUnsigned t = true then 0 ≤ y ∧ y < 2 ^ 64 else -2 ^ 63 ≤ y ∧ y < 2 ^ 63 := by
  obtain ⟨w1, w2, w3⟩ := width (t := t) (n := n)
  unfold CppHolds at h
  rw [w3] at h
  cases hu : IntF.isUnsigned t with
  | true =>
    rw [hu] at h
    simp only [Bool.not_true, Bool.false_eq_true, if_false] at h
    have : (2 : Nat) ^ (cppIntType t n).2 ≤ 2 ^ 64 := Nat.pow_le_pow_right (by decide) w1
    have h' : ((2 : Nat) ^ (cppIntType t n).2 : Int) ≤ ((2 : Nat) ^ 64 : Int) := by exact_mod_cast this
    simp only [if_true]
    have h2 := h.2
    push_cast at h'
    omega
  | false =>
    rw [hu] at h
    simp only [Bool.not_false, if_true] at h
    have : (2 : Nat) ^ ((cppIntType t n).2 - 1) ≤ 2 ^ 63 := Nat.pow_le_pow_right (by decide) (by omega)
    have h' : ((2 : Nat) ^ ((cppIntType t n).2 - 1) : Int) ≤ ((2 : Nat) ^ 63 : Int) := by exact_mod_cast this
    simp only [Bool.false_eq_true, if_false]
    obtain ⟨h1, h2⟩ := h
    push_cast at h'
    omega

theorem expr_unsigned {n : Nat} (h : n < 2 ^ 64) : CppExpr (numToStringU n 0) n := by
  obtain ⟨s, hs⟩ := C51_unsigned n 0 h
  exact .inl ⟨n, s, hs, rfl⟩

theorem expr_plain {r : Str} {n : Nat} (h : DenotesU r n) (hn : n < 2 ^ 63) : CppExpr r n := by
  have key : ∃ p : Bool × Nat, (litTypes (r.head? != some '0') []).find? (fun t => decide (n ≤ t.2)) = some p := by
    rw [← Option.isSome_iff_exists, List.find?_isSome]
    refine ⟨(true, 2 ^ 63 - 1), ?_, by simp only [decide_eq_true_eq]; omega⟩
    simp only [litTypes, if_true]
    split <;> simp
  obtain ⟨⟨s, m⟩, hk⟩ := key
  exact .inl ⟨n, s, ⟨r, [], m, by simp, h, hk⟩, rfl⟩

theorem name_scan {r : Str} (h : Identifier r) : scanNumber r = none := by
  obtain ⟨c, cs, rfl, h1, -⟩ := h
  have key : ∀ c ∈ "abcdefghijklmnopqrstuvwxyzABCDEFGHIJKLMNOPQRSTUVWXYZ_".toList, isSpace c = false ∧ c ≠ '-' ∧ c ≠ '+' ∧ c ≠ '0' ∧ ¬ digitVal c < 10 := by decide
  obtain ⟨a1, a2, a3, a4, a5⟩ := key c h1
  unfold scanNumber
  rw [List.dropWhile_cons_of_neg (by simp [a1])]
  have : scanMagnitude (c :: cs) = none := by
    unfold scanMagnitude
    split
    · rename_i e; cases e; exact absurd rfl a4
    · rename_i e; cases e; exact absurd rfl a4
    · rename_i e; cases e; rw [if_neg a5]
    · rename_i e; cases e
  split
  · rename_i e; cases e; exact absurd rfl a2
  · rename_i e; cases e; exact absurd rfl a3
  · rw [this]; rfl

theorem denotes_ne {r : Str} {y : Int} (h : Denotes r y) : r ≠ [] := by
  cases h with
  | plain h => cases h <;> simp
  | plus h => simp
  | minus h => simp

theorem digit_head {c : Char} {cs : Str} {n : Nat} (h : DenotesU (c :: cs) n) : c ≠ '$' ∧ c ≠ '%' := by
  cases h with
  | dec _ _ _ h =>
    have := h c (by simp)
    constructor <;> (rintro rfl; revert this; unfold DecDigit; decide)
  | oct => decide
  | hex => decide

theorem denotes_head {r : Str} {y : Int} (h : Denotes r y) : r.head? ≠ some '$' ∧ r.head? ≠ some '%' := by
  cases h with
  | @plain r n h =>
    cases r with
    | nil => simp
    | cons c cs => simpa using digit_head h
  | plus h => simp
  | minus h => simp

theorem name_head {r : Str} (h : Identifier r) : r.head? ≠ some '$' ∧ r.head? ≠ some '%' := by
  obtain ⟨c, cs, rfl, h1, -⟩ := h
  have key : ∀ c ∈ "abcdefghijklmnopqrstuvwxyzABCDEFGHIJKLMNOPQRSTUVWXYZ_".toList, c ≠ '$' ∧ c ≠ '%' := by decide
  simpa using key c h1

theorem text_head {t : IntF.IntType} {l : List (Str × IntF.SpecialInfo)} {r : Str} {y : Int} (h : IntText t l r y) : r.head? ≠ some '$' ∧ r.head? ≠ some '%' := by
  cases h with
  | number h => exact denotes_head h
  | name h => exact name_head h

theorem stoll_of {r : Str} {y : Int} (h : Denotes r y) (h1 : -2 ^ 63 ≤ y) (h2 : y < 2 ^ 63) : stoll r = some y := C01_intmax_exact r y h h1 h2

theorem stoull_of {r : Str} {y : Int} (h : Denotes r y) (h1 : 0 ≤ y) (h2 : y < 2 ^ 64) : stoull r = some y.toNat := by
  obtain ⟨neg, m, e, hy⟩ := scanNumber_denotes h
  have hu : u64Max = 18446744073709551615 := rfl
  unfold stoull
  rw [e]
  cases neg with
  | false =>
    simp only [Bool.false_eq_true, if_false] at hy ⊢
    rw [if_neg (by omega)]
    subst hy
    rfl
  | true =>
    simp only [if_true] at hy ⊢
    have hm : m = 0 := by omega
    subst hm
    rw [if_neg (by omega)]
    subst hy
    rfl

theorem stoll_name {r : Str} (h : Identifier r) : stoll r = none ∧ stoull r = none := by
  constructor
  · unfold stoll; rw [name_scan h]
  · unfold stoull; rw [name_scan h]

theorem ident_ne {r : Str} (h : Identifier r) : r.isEmpty = false := by
  obtain ⟨c, cs, rfl, -⟩ := h
  rfl

theorem castU64_self {x : Int} (h : 0 ≤ x) (h2 : x < 2 ^ 64) : castU64 x = x.toNat := by unfold castU64; omega

/-- The literal for a value of an `<int>` field. -/
theorem int_prep {find : Str → Option Field} {k : Nat} {st : IntF.State} {t : IntF.IntType} {r : Str} {y : Int} (ht : st.type = some t)
    (hr : IntText t st.specials r y) (hy : CppHolds (cppIntType t (IntF.maxLength st)) y) (hm : -2 ^ 63 < y) :
    ∃ s, intPrep find k st r = .ok s ∧ CppExpr s y := by
  have hb := holds_bounds hy
  rw [intPrep, ht]
  simp only
  cases hu : IntF.isUnsigned t with
  | true =>
    rw [hu] at hb
    simp only [if_true] at hb
    have hn : (y.toNat : Int) = y := by omega
    have hx := expr_unsigned (n := y.toNat) (by omega)
    rw [hn] at hx
    cases hr with
    | number hd =>
      rw [if_neg (by simpa using denotes_ne hd)]
      simp only [intNumber, hu, if_true, stoull_of hd hb.1 hb.2, Option.map_some]
      exact ⟨_, rfl, hx⟩
    | @name i hi hf hi2 =>
      rw [if_neg (by simp [ident_ne hi])]
      simp only [intNumber, hu, if_true, (stoll_name hi).2, Option.map_none, hf, intText]
      refine ⟨_, rfl, ?_⟩
      have : castU64 i.value = (interp t i.value).toNat := by
        unfold interp at hb ⊢
        unfold castU64
        split at hb <;> rename_i e
        · rw [if_pos e]; rfl
        · rw [if_neg e]; omega
      rw [this]
      exact hx
  | false =>
    rw [hu] at hb
    simp only [Bool.false_eq_true, if_false] at hb
    obtain ⟨s, e1, e2⟩ := C51_signed_partial y hm hb.2
    cases hr with
    | number hd =>
      rw [if_neg (by simpa using denotes_ne hd)]
      simp only [intNumber, hu, Bool.false_eq_true, if_false, stoll_of hd hb.1 hb.2, Option.map_some]
      exact ⟨s, e1, e2⟩
    | @name i hi hf hi2 =>
      rw [if_neg (by simp [ident_ne hi])]
      simp only [intNumber, hu, Bool.false_eq_true, if_false, (stoll_name hi).1, Option.map_none, hf, intText]
      have : interp t i.value = i.value := by
        unfold interp
        rw [if_neg]
        rintro (rfl | rfl) <;> simp [IntF.isUnsigned] at hu
      rw [this] at e1 e2 ⊢
      exact ⟨s, e1, e2⟩

/-- The literal for a value of an `<enum>` field. -/
theorem enum_prep {find : Str → Option Field} {st : EnumF.State} {t : IntF.IntType} {r : Str} {y : Int} (hr : IntText t st.values r y)
    (hm : -2 ^ 63 < y) (hm2 : y < 2 ^ 63) : ∃ s, enumPrep find st r = .ok s ∧ CppExpr s y := by
  obtain ⟨s, e1, e2⟩ := C51_signed_partial y hm hm2
  unfold enumPrep
  cases hr with
  | number hd =>
    rw [if_neg (by simpa using denotes_ne hd)]
    simp only [stoll_of hd (by omega) hm2]
    exact ⟨s, e1, e2⟩
  | @name i hi hf hi2 =>
    rw [if_neg (by simp [ident_ne hi])]
    simp only [(stoll_name hi).1, hf]
    have : interp t i.value = i.value := by
      unfold interp at hm hm2 ⊢
      split at hm <;> rename_i e
      · rw [if_pos e] at hm2 ⊢; omega
      · rw [if_neg e]
    rw [this] at e1 e2 ⊢
    exact ⟨s, e1, e2⟩

theorem parse_ne {l : CLevel} {t : List Tok} {e : CExpr} (h : CParse l t e) : t ≠ [] := by
  induction h <;> simp_all

theorem EvA.ne {env : List (Str × CObj)} {t : List Tok} {b : Bool} (h : EvA env t b) : t ≠ [] := by
  obtain ⟨e, h1, -⟩ := h
  exact parse_ne h1

/-! ## Values -/

theorem cast_parse {name : Str} {ct : Option (List Step)} {tok : Tok} {e : CExpr} (h : CParse .unary [tok] e) : ∃ e', CParse .unary (castTok name ct tok) e' := by
  cases ct with
  | none => exact ⟨e, h⟩
  | some p => exact ⟨_, .cast (t := [tok]) (.fromAnd (.fromCmp (.fromUnary h)))⟩

theorem cmp_parse {a : Acc} {last : Last} {op : Str} {u : List Tok} {e : CExpr} (h : CParse .unary u e) :
    CParse .and (.get a last :: .cmp op :: u) (.cmp op (.get a last) e) := .fromCmp (.cmp (t := [.get a last]) .get h)

/-- A comparison of an access with something cast to its type. -/
theorem cmp_cast {env : List (Str × CObj)} {a : Acc} {ty : CppInt} {x y : Int} {op : Str} {t : List Tok} {e : CExpr} {b : Bool}
    (hg : CEval env (.get a .value) (.num ty x)) (hp : CParse .or t e) (he : CEval env (.cast a e) (.num ty y)) (hb : b = true ↔ CmpHolds op x y) :
    EvA env (.get a .value :: .cmp op :: .cast a :: (t ++ [.rpar])) b :=
  ⟨_, cmp_parse (.cast hp), .cmpNum hg he hb⟩

theorem lit_parse {l : Str} : CParse .or [.text l] (.number l) := .fromAnd (.fromCmp (.fromUnary .number))

section Value
variable {g : GVer} {pl : Place} {fs : List Field} {os : List (Str × CObj)} {find : Str → Option Field} {v : FVal} {s : Str} {m l : Field} {o : CObj}

theorem valueComp_ok {op r : Str} {tok : Tok} {etok : CExpr} {ct : Option (List Step)} {P : Prop} (hs : Sib g pl fs os v s l [] find m o)
    (hk : ∀ pl pre, checksImpl g pl l [] pre = []) (ha : ∀ pl, valueAccImpl g pl l [] = ([], .value)) (hc : ∀ pl, castImpl g pl l [] = ct)
    (hp : prepValue find (r.length + 1) l [] r = .ok tok) (ht : CParse .unary [tok] etok)
    (hev : ∀ pl' o' steps, StoresBody g pl' l o' v → objAt os ⟨accessName m.name, steps⟩ = some o' →
      ∃ b, EvA os (.get ⟨accessName m.name, steps⟩ .value :: .cmp op :: castTok (accessName m.name) (ct.map (steps ++ ·)) tok) b ∧ (b = true ↔ P))
    (hmiss : v = .missing → ¬ P) : ∃ toks b, valueComp ⟨g, pl, find⟩ m (afterDot s) op r = .ok toks ∧ EvA os toks b ∧ (b = true ↔ P) := by
  simp only [valueComp, hs.prep, hp, Res.bind_ok, Res.pure_eq]
  rcases hs.there with h | ⟨h1, h2⟩
  · obtain ⟨pl', steps, o', hb, ho, hal, e1, -, e3⟩ := reach hs.obj hk h
    obtain ⟨b, h1, h2⟩ := hev pl' o' steps hb ho
    rw [ha, List.append_nil] at e1
    rw [hc] at e3
    refine ⟨_, b, rfl, ?_, h2⟩
    rw [e1, e3]
    exact guard_true hal h1
  · obtain ⟨e', hp'⟩ := cast_parse (name := accessName m.name) (ct := castType g pl m (afterDot s)) ht
    exact ⟨_, false, rfl, guard_false (stops_of hs.obj h2) (cmp_parse hp'), by simp [hmiss h1]⟩

theorem bit_ok {n : Str} {op : Str} {c : Common} {st : SetF.State} {P : Prop} (neg : Bool) (hop : op.isEmpty = !neg)
    (hs : Sib g pl fs os v s (.set c st) n find m o) (hn : n ≠ []) (hf : (SetF.findBit st.bits n).isSome = true)
    (hev : ∀ o', StoresBody g pl (.set c st) o' v → ∃ i x, o' = .set (bitAccess st) i x ∧ ∃ k, AccessIdx (bitAccess st) n k ∧ (∀ j, AccessIdx (bitAccess st) n j → j = k) ∧ ((x.testBit k != neg) = true ↔ P))
    (hmiss : v = .missing → ¬ P) : ∃ b, EvA os (bitCheck ⟨g, pl, find⟩ m (afterDot s) op) b ∧ (b = true ↔ P) := by
  have hne : n.isEmpty = false := by simpa using hn
  have hjoin : ∀ cs T, joinAnd (checkToks (accessName m.name) cs) (T : List Tok) = if cs = [] then T else if T = [] then checkToks (accessName m.name) cs else checkToks (accessName m.name) cs ++ .and :: T := by
    intro cs T
    unfold joinAnd
    by_cases hc : cs = []
    · rw [if_pos (checkToks_empty.2 hc), if_pos hc]
    · rw [if_neg (fun e => hc (checkToks_empty.1 e)), if_neg hc]
      by_cases hT : T = [] <;> simp [hT]
  unfold bitCheck
  simp only [hop]
  have hT : ∀ a : Acc, ∀ la : Last, ((if (!neg) = true then [] else [Tok.not]) ++ [Tok.get a la]) ≠ [] := by simp
  have hpar : ∀ a : Acc, ∀ la : Last, CParse .and ((if (!neg) = true then [] else [Tok.not]) ++ [Tok.get a la]) (if neg then .not (.get a la) else .get a la) := by
    intro a la
    cases neg
    · exact .fromCmp (.fromUnary .get)
    · exact .fromCmp (.fromUnary (.not .get))
  rcases hs.there with h | ⟨h1, h2⟩
  · obtain ⟨pl', steps, o', hb, ho, hal, e1, -, -⟩ := reach hs.obj (by intros; simp [checksImpl]) h
    have hb' : StoresBody g pl (.set c st) o' v := by
      cases hb with
      | set h1 h2 => exact .set h1 h2
    obtain ⟨ty, x, rfl, k, hk, hk1, hP⟩ := hev o' hb'
    have e2 : ∀ pl, valueAccImpl g pl (.set c st) n = ([], .bit n) := by
      intro pl; simp [valueAccImpl, hne, hf]
    rw [e2, List.append_nil] at e1
    rw [e1]
    have hE : EvA os ((if (!neg) = true then [] else [Tok.not]) ++ [Tok.get ⟨accessName m.name, steps⟩ (.bit n)]) (x.testBit k != neg) := by
      refine ⟨_, hpar _ _, ?_⟩
      have := CEval.getBit ho hk hk1
      cases neg
      · simpa using this
      · simpa using CEval.not this
    refine ⟨_, ?_, hP⟩
    rw [hjoin]
    simp only
    have := chain_true hal hE
    by_cases hc : checks g pl m (afterDot s) [] = []
    · rw [if_pos hc] at this ⊢; exact this
    · rw [if_neg hc] at this ⊢; rw [if_neg (hT _ _)]; exact this
  · have hst := stops_of hs.obj h2
    have hc : checks g pl m (afterDot s) [] ≠ [] := by obtain ⟨a, c, b, i, e, _⟩ := hst; rw [e]; simp
    refine ⟨false, ?_, by simp [hmiss h1]⟩
    rw [hjoin, if_neg hc, if_neg (hT _ _)]
    exact chain_false hst (hpar _ _)

theorem fieldComp_ok {op : Str} {s' : Str} {m' l' : Field} {o' : CObj} {v' : FVal} {P : Prop} (hs : Sib g pl fs os v s l [] find m o) (hs' : Sib g pl fs os v' s' l' [] find m' o')
    (hk : ∀ pl pre, checksImpl g pl l [] pre = []) (ha : ∀ pl, valueAccImpl g pl l [] = ([], .value)) (hc : ∀ pl, castImpl g pl l [] = some [])
    (hk' : ∀ pl pre, checksImpl g pl l' [] pre = []) (ha' : ∀ pl, valueAccImpl g pl l' [] = ([], .value))
    (hev : ∀ pl1 pl2 o1 o2, StoresBody g pl1 l o1 v → StoresBody g pl2 l' o2 v' → ∃ ty ty' x y, o1 = .num ty x ∧ o2 = .num ty' y ∧ (CppHolds ty y ∧ (ty.1 = true → 0 < ty.2)) ∧ (CmpHolds op x y ↔ P))
    (hmiss : v = .missing ∨ v' = .missing → ¬ P) : ∃ b, EvA os (fieldComp ⟨g, pl, find⟩ m (afterDot s) op m' (afterDot s')) b ∧ (b = true ↔ P) := by
  have hguard : ∀ X : List Tok, guarded (joinAnd (checkToks (accessName m.name) (checks g pl m (afterDot s) [])) (checkToks (accessName m'.name) (checks g pl m' (afterDot s') []))) X =
      if checks g pl m (afterDot s) [] = [] then guarded (checkToks (accessName m'.name) (checks g pl m' (afterDot s') [])) X
      else checkToks (accessName m.name) (checks g pl m (afterDot s) []) ++ .and ::
        (if checks g pl m' (afterDot s') [] = [] then .lpar :: (X ++ [.rpar]) else checkToks (accessName m'.name) (checks g pl m' (afterDot s') []) ++ .and :: (.lpar :: (X ++ [.rpar]))) := by
    intro X
    unfold joinAnd
    by_cases c1 : checks g pl m (afterDot s) [] = []
    · rw [if_pos (checkToks_empty.2 c1), if_pos c1]
    · rw [if_neg (fun e => c1 (checkToks_empty.1 e)), if_neg c1]
      by_cases c2 : checks g pl m' (afterDot s') [] = []
      · rw [if_pos (checkToks_empty.2 c2), if_pos c2, guarded_eq, if_neg c1]
      · rw [if_neg (fun e => c2 (checkToks_empty.1 e)), if_neg c2]
        unfold guarded
        rw [if_neg (by simp)]
        simp
  unfold fieldComp
  simp only
  rw [hguard]
  have hpar : ∀ {a a' : Acc} {la la' : Last} {ct}, ∃ e, CParse .and (.get a la :: .cmp op :: castTok (accessName m.name) ct (.get a' la')) e := by
    intro a a' la la' ct
    obtain ⟨e, he⟩ := cast_parse (name := accessName m.name) (ct := ct) (tok := .get a' la') .get
    exact ⟨_, cmp_parse he⟩
  -- the left field is not there
  rcases hs.there with h | ⟨h1, h2⟩
  · obtain ⟨pl1, st1, o1, hb1, ho1, hal1, e1, -, e3⟩ := reach hs.obj hk h
    rcases hs'.there with h' | ⟨h1', h2'⟩
    · obtain ⟨pl2, st2, o2, hb2, ho2, hal2, e1', -, -⟩ := reach hs'.obj hk' h'
      obtain ⟨ty, ty', x, y, rfl, rfl, hy, hP⟩ := hev pl1 pl2 o1 o2 hb1 hb2
      rw [ha, List.append_nil] at e1
      rw [ha', List.append_nil] at e1'
      rw [hc] at e3
      simp only [Option.map_some, List.append_nil] at e3
      rw [e1, e1', e3]
      simp only [castTok]
      have hE : EvA os (.get ⟨accessName m.name, st1⟩ .value :: .cmp op :: .cast ⟨accessName m.name, st1⟩ :: ([.get ⟨accessName m'.name, st2⟩ .value] ++ [.rpar])) (@decide (CmpHolds op x y) (Classical.propDecidable _)) :=
        cmp_cast (CEval.getNum ho1) (.fromAnd (.fromCmp (.fromUnary .get))) (.castNum ho1 (.getNum ho2) (conv_self hy.1 hy.2)) (by simp)
      refine ⟨_, ?_, (by simp [hP] : @decide (CmpHolds op x y) (Classical.propDecidable _) = true ↔ P)⟩
      have inner := chain_true (T := .lpar :: ((.get ⟨accessName m.name, st1⟩ .value :: .cmp op :: .cast ⟨accessName m.name, st1⟩ :: ([.get ⟨accessName m'.name, st2⟩ .value] ++ [.rpar])) ++ [.rpar])) hal2 (.paren hE.evaluates)
      by_cases c1 : checks g pl m (afterDot s) [] = []
      · rw [if_pos c1]; exact guard_true hal2 hE
      · have := chain_true hal1 inner
        rw [if_neg c1] at this ⊢
        exact this
    · have hst := stops_of hs'.obj h2'
      have c2 : checks g pl m' (afterDot s') [] ≠ [] := by obtain ⟨a, c, b, i, e, _⟩ := hst; rw [e]; simp
      refine ⟨false, ?_, by simp [hmiss (.inr h1')]⟩
      obtain ⟨e, he⟩ := hpar (a := ⟨accessName m.name, (valueAcc g pl m (afterDot s)).1⟩) (a' := ⟨accessName m'.name, (valueAcc g pl m' (afterDot s')).1⟩) (la := (valueAcc g pl m (afterDot s)).2)
        (la' := (valueAcc g pl m' (afterDot s')).2) (ct := castType g pl m (afterDot s))
      by_cases c1 : checks g pl m (afterDot s) [] = []
      · rw [if_pos c1]; exact guard_false hst he
      · rw [if_neg c1, if_neg c2]
        have := chain_true hal1 (chain_false hst (paren_parse he))
        rw [if_neg c1] at this
        exact this
  · have hst := stops_of hs.obj h2
    have c1 : checks g pl m (afterDot s) [] ≠ [] := by obtain ⟨a, c, b, i, e, _⟩ := hst; rw [e]; simp
    refine ⟨false, ?_, by simp [hmiss (.inl h1)]⟩
    obtain ⟨e, he⟩ := hpar (a := ⟨accessName m.name, (valueAcc g pl m (afterDot s)).1⟩) (a' := ⟨accessName m'.name, (valueAcc g pl m' (afterDot s')).1⟩) (la := (valueAcc g pl m (afterDot s)).2)
      (la' := (valueAcc g pl m' (afterDot s')).2) (ct := castType g pl m (afterDot s))
    obtain ⟨e', he'⟩ := chain_parse (name := accessName m'.name) (cs := checks g pl m' (afterDot s') []) (paren_parse he)
    rw [if_neg c1]
    exact chain_false hst he'

theorem sizeComp_ok {op r : Str} {P : Prop} (hs : Sib g pl fs os v s l [] find m o) (hk : ∀ pl pre, checksImpl g pl l [] pre = [])
    (ha : ∀ pl, sizeAccImpl g pl l [] = some ([], .size))
    (hev : ∀ pl' o' steps, StoresBody g pl' l o' v → objAt os ⟨accessName m.name, steps⟩ = some o' →
      ∃ b, EvA os (sizeExpr ⟨accessName m.name, steps⟩ .size op r) b ∧ (b = true ↔ P))
    (hmiss : v = .missing → ¬ P) : ∃ b, EvA os (sizeComp ⟨g, pl, find⟩ m (afterDot s) op r) b ∧ (b = true ↔ P) := by
  unfold sizeComp
  simp only
  rcases hs.there with h | ⟨h1, h2⟩
  · obtain ⟨pl', steps, o', hb, ho, hal, -, e2, -⟩ := reach hs.obj hk h
    obtain ⟨b, h1, h2⟩ := hev pl' o' steps hb ho
    rw [ha] at e2
    simp only [Option.map_some, List.append_nil] at e2
    rw [e2]
    exact ⟨b, guard_true hal h1, h2⟩
  · have : ∀ a la, ∃ e, CParse .and (sizeExpr a la op r) e := by
      intro a la
      unfold sizeExpr
      split
      · exact ⟨_, .fromCmp (.fromUnary .empty)⟩
      · split
        · exact ⟨_, .fromCmp (.fromUnary (.not .empty))⟩
        · exact ⟨_, cmp_parse (.castSize (t := [.text r]) lit_parse)⟩
    obtain ⟨e, he⟩ := this ⟨accessName m.name, ((sizeAcc g pl m (afterDot s)).getD ([], .unexpected)).1⟩ ((sizeAcc g pl m (afterDot s)).getD ([], .unexpected)).2
    exact ⟨false, guard_false (stops_of hs.obj h2) he, by simp [hmiss h1]⟩

/-- Existence. -/
theorem exists_ok {op : Str} (neg : Bool) (hop : op.isEmpty = !neg) (hs : Sib g pl fs os v s l [] find m o) (hl : l.kind ≠ .ref) (hne : checks g pl m (afterDot s) [] ≠ []) :
    ∃ b, EvA os (existsComp ⟨g, pl, find⟩ m (afterDot s) op) b ∧ (b = true ↔ if neg then v = .missing else v ≠ .missing) := by
  have key : ∃ b, EvA os (checkToks (accessName m.name) (checks g pl m (afterDot s) [])) b ∧ (b = true ↔ v ≠ .missing) := by
    rcases hs.there with ⟨steps, cs, pl', o', n, h1, h2, h3⟩ | ⟨h1, h2⟩
    · have hobj : objAt os ⟨accessName m.name, steps⟩ = some o' := by simp only [objAt, hs.obj, h3]
      have e : checks g pl m (afterDot s) [] = cs ++ checksImpl g pl' l [] steps := by rw [n.chk]; simp
      by_cases ho : ∃ c st sl cd, l = .optional c st sl cd
      · obtain ⟨c, st, sl, cd, rfl⟩ := ho
        have e2 : checks g pl m (afterDot s) [] = cs ++ [steps] := by rw [e]; simp [checksImpl]
        have hall : ∀ i, o' = .opt true i → Alls os (accessName m.name) (checks g pl m (afterDot s) []) := by
          rintro i rfl
          rw [e2]
          intro c hc
          rcases List.mem_append.1 hc with hc | hc
          · exact alls_of hs.obj h2 c hc
          · simp only [List.mem_singleton] at hc
            subst hc
            exact ⟨i, hobj⟩
        cases h1 with
        | own => exact ⟨true, checks_all hne (hall _ rfl), by simp⟩
        | ext => exact ⟨true, checks_all hne (hall _ rfl), by simp⟩
        | none =>
          rename_i i
          exact ⟨false, checks_stop ⟨cs, steps, [], i, e2, alls_of hs.obj h2, hobj⟩, by simp⟩
      · have e2 : checks g pl m (afterDot s) [] = cs := by
          rw [e]
          cases l with
          | optional => exact absurd ⟨_, _, _, _, rfl⟩ ho
          | ref => exact absurd rfl hl
          | _ => simp [checksImpl]
        refine ⟨true, checks_all hne (by rw [e2]; exact alls_of hs.obj h2), ?_⟩
        have : v ≠ .missing := by
          cases h1 with
          | none => exact absurd ⟨_, _, _, _, rfl⟩ ho
          | ref => exact absurd rfl hl
          | _ => simp
        simp [this]
    · exact ⟨false, checks_stop (stops_of hs.obj h2), by simp [h1]⟩
  obtain ⟨b, hb, hv⟩ := key
  have hc := hb.ne
  unfold existsComp
  cases hx : checkToks (accessName m.name) (checks g pl m (afterDot s) []) with
  | nil => exact absurd hx hc
  | cons t ts =>
    simp only [hop]
    rw [hx] at hb
    cases neg with
    | false => exact ⟨b, by simpa using hb, by simpa using hv⟩
    | true =>
      obtain ⟨e, h1, h2⟩ := hb
      refine ⟨!b, ?_, ?_⟩
      · exact ⟨_, .fromCmp (.fromUnary (.not (.paren (.fromAnd h1)))), .not h2⟩
      · cases b <;> simp_all

end Value

/-- What can be missing is checked. -/
theorem mayMiss_checks {g : GVer} {pl : Place} {m : Field} {q : List Str} (h : MayMiss g pl m q) (hq : ∀ x ∈ q, CondProofs.Plain x) (pre : List Step) :
    checks g pl m (J q []) pre ≠ [] := by
  induction h generalizing pre with
  | version h => simp [checks, h]
  | optional => simp [checks, checksImpl]
  | @member pl f m n p hk hf _ ih =>
    have hn := hq n (by simp)
    obtain ⟨e1, e2, -⟩ := J_split (q := p) (w := []) hn
    have hne : (J (n :: p) []).isEmpty = false := by simpa using J_ne (q := p) (w := []) hn.1
    have ih := ih (fun x hx => hq x (by simp [hx]))
    have key : ∀ pre, checksImpl g pl f (J (n :: p) []) pre = checksIn g (inField pl f) f.members (J (n :: p) []) pre := by
      intro pre
      cases f with
      | bitfield => simp [checksImpl, hne, Field.members]
      | bundle => simp [checksImpl, hne, Field.members]
      | variant => exact absurd rfl hk
      | _ => simp [Field.members] at hf
    simp only [checks, key, checksIn_eq e1 hf, e2]
    exact List.append_ne_nil_of_right_ne_nil _ (ih _)
  | target ht _ ih =>
    simp only [checks, (ref_eqs ht).2.2.2.1]
    exact List.append_ne_nil_of_right_ne_nil _ (ih hq _)

/-! ## Checks and comparisons -/

theorem operand_path {p : List Str} (hp : ∀ n ∈ p, Identifier n) (hne : p ≠ []) (w : Str) : operand ('$' :: J p w) = ('.', J p w) := by
  cases p with
  | nil => exact absurd rfl hne
  | cons n q =>
    have hn := plain_of (hp n (by simp))
    obtain ⟨-, -, r, e⟩ := J_split (q := q) (w := w) hn
    rw [e]
    cases n with
    | nil => exact absurd rfl hn.1
    | cons a as =>
      unfold operand
      simp only [List.drop_succ_cons, List.drop_zero, List.cons_append]
      split
      · rename_i h; cases h; exact absurd List.mem_cons_self hn.2.2.1
      · rename_i h; cases h; exact absurd List.mem_cons_self hn.2.2.2
      · rfl

theorem num_bit (x k : Nat) (b neg : Bool) (hb : b = !neg) : ((x.testBit k != neg) = true) ↔ ∃ y : Nat, FVal.num (x : Int) = .num y ∧ y.testBit k = b := by
  subst hb
  constructor
  · intro h
    refine ⟨x, rfl, ?_⟩
    revert h
    cases x.testBit k <;> cases neg <;> simp
  · rintro ⟨y, e, h⟩
    have : x = y := by injection e with e; exact_mod_cast e
    subst this
    rw [h]
    cases neg <;> rfl

section Main
variable {g : GVer} {pl : Place} {fs : List Field} {os : List (Str × CObj)} {find : Str → Option Field} {vs : List (Str × FVal)}

theorem pathTo_parts {p : List Str} {h l : Field} (hp : PathTo fs p h l) : (∀ n ∈ p, Identifier n) ∧ p ≠ [] ∧ (∀ n ∈ p, CondProofs.Plain n) ∧ l.kind ≠ .ref := by
  obtain ⟨h1, n, q, m, rfl, _, hpa, hf⟩ := hp
  clear hpa
  refine ⟨h1, by simp, fun n hn => plain_of (h1 n hn), ?_⟩
  induction hf with
  | self h => exact h
  | ref _ _ ih => exact ih

theorem comp_value {p : List Str} {h l : Field} {op r : Str} {m : Field} {o : CObj} {v : FVal} (hp : PathTo fs p h l)
    (hs : Sib g pl fs os v (J p []) l [] find m o) (hr : r.head? ≠ some '$') :
    exprToks ⟨g, pl, find⟩ fs ⟨'$' :: joinDots p, op, r⟩ = valueComp ⟨g, pl, find⟩ m (afterDot (J p [])) (cppOp op) r := by
  obtain ⟨h1, h2, h3, -⟩ := pathTo_parts hp
  rw [← J_nil h3]
  unfold exprToks
  rw [if_neg (by simp)]
  unfold compToks
  simp only [operand_path h1 h2, hs.sib]
  rw [if_neg (by decide)]
  split
  · exact absurd rfl hr
  · rfl

theorem bit_one {st : SetF.State} {n : Str} {i : SetF.BitInfo} (hacc : SetF.Accepted st) (h64 : ∀ q ∈ st.bits, q.2.idx < 64) (hb : (n, i) ∈ st.bits) (j : Nat)
    (h : AccessIdx (bitAccess st) n j) : j = i.idx := by
  obtain ⟨p, hp, e1, e2⟩ := (C83_access_partial st hacc h64 n j).1 h
  have h1 := SetProofs.find_some (C18_names_unique st hacc) hp
  have h2 := SetProofs.find_some (C18_names_unique st hacc) hb
  rw [e1, h2] at h1
  rw [← e2, ← Option.some.inj h1]

theorem expr_ok {e : CondM.Expr} {P : FVal → Prop} (hm : StoresMembers g pl fs os vs) (h : Says g pl fs e P) :
    ∃ toks b, exprToks ⟨g, pl, find⟩ fs e = .ok toks ∧ EvA os toks b ∧ (b = true ↔ P (.members vs)) := by
  cases h with
  | @bit p h c st n i hp hacc hb hn hi h64 =>
    obtain ⟨h1, h2, h3, -⟩ := pathTo_parts hp
    obtain ⟨m, o, hs⟩ := sib_of hm hp n find
    have hx := (C83_access_partial st hacc h64 n i.idx).2 ⟨_, hb, rfl, rfl⟩
    obtain ⟨b, hb1, hb2⟩ := bit_ok (op := []) (P := ∃ x : Nat, (FVal.members vs).at p = .num x ∧ x.testBit i.idx = true) false rfl hs hn
      (CondProofs.names_find (List.mem_map.2 ⟨_, hb, rfl⟩))
      (by
        intro o' ho
        generalize (FVal.members vs).at p = v at ho ⊢
        cases ho with
        | @set _ _ _ w x _ _ => exact ⟨_, x, rfl, i.idx, hx, bit_one hacc h64 hb, num_bit x i.idx _ _ rfl⟩)
      (by intro e; simp only [e]; simp)
    refine ⟨_, b, ?_, hb1, hb2⟩
    rw [← J_value hn h2]
    unfold exprToks
    rw [if_pos (by rfl)]
    unfold singleToks
    simp only [operand_path h1 h2, hs.sib]
    rw [if_neg (by decide)]
  | @noBit p h c st n i hp hacc hb hn hi h64 =>
    obtain ⟨h1, h2, h3, -⟩ := pathTo_parts hp
    obtain ⟨m, o, hs⟩ := sib_of hm hp n find
    have hx := (C83_access_partial st hacc h64 n i.idx).2 ⟨_, hb, rfl, rfl⟩
    obtain ⟨b, hb1, hb2⟩ := bit_ok (op := "!".toList) (P := ∃ x : Nat, (FVal.members vs).at p = .num x ∧ x.testBit i.idx = false) true rfl hs hn
      (CondProofs.names_find (List.mem_map.2 ⟨_, hb, rfl⟩))
      (by
        intro o' ho
        generalize (FVal.members vs).at p = v at ho ⊢
        cases ho with
        | @set _ _ _ w x _ _ => exact ⟨_, x, rfl, i.idx, hx, bit_one hacc h64 hb, num_bit x i.idx _ _ rfl⟩)
      (by intro e; simp only [e]; simp)
    refine ⟨_, b, ?_, hb1, hb2⟩
    rw [← J_value hn h2]
    unfold exprToks
    rw [if_pos (by rfl)]
    unfold singleToks
    simp only [operand_path h1 h2, hs.sib]
    rw [if_neg (by decide)]
  | @«exists» p n q m h l hp he hf hmm =>
    obtain ⟨h1, h2, h3, hr⟩ := pathTo_parts hp
    obtain ⟨m', o, hs⟩ := sib_of hm hp [] find
    subst he
    obtain ⟨e1, e2, -⟩ := J_split (q := q) (w := []) (h3 n (by simp))
    have hmm' : m' = m := by
      have := hs.sib
      rw [findSib, e1, hf] at this
      exact (Option.some.inj this).symm
    subst hmm'
    obtain ⟨b, hb1, hb2⟩ := exists_ok (op := []) false rfl hs hr (by rw [e2]; exact mayMiss_checks hmm (fun x hx => h3 x (by simp [hx])) [])
    refine ⟨_, b, ?_, hb1, by simpa using hb2⟩
    rw [← J_nil h3]
    unfold exprToks
    rw [if_pos (by rfl)]
    unfold singleToks
    have : operand ('$' :: '?' :: J (n :: q) []) = ('?', J (n :: q) []) := rfl
    simp only [this, hs.sib]
    rw [if_pos trivial]
  | @missing p n q m h l hp he hf hmm =>
    obtain ⟨h1, h2, h3, hr⟩ := pathTo_parts hp
    obtain ⟨m', o, hs⟩ := sib_of hm hp [] find
    subst he
    obtain ⟨e1, e2, -⟩ := J_split (q := q) (w := []) (h3 n (by simp))
    have hmm' : m' = m := by
      have := hs.sib
      rw [findSib, e1, hf] at this
      exact (Option.some.inj this).symm
    subst hmm'
    obtain ⟨b, hb1, hb2⟩ := exists_ok (op := "!".toList) true rfl hs hr (by rw [e2]; exact mayMiss_checks hmm (fun x hx => h3 x (by simp [hx])) [])
    refine ⟨_, b, ?_, hb1, by simpa using hb2⟩
    rw [← J_nil h3]
    unfold exprToks
    rw [if_pos (by rfl)]
    unfold singleToks
    have : operand ('$' :: '?' :: J (n :: q) []) = ('?', J (n :: q) []) := rfl
    simp only [this, hs.sib]
    rw [if_pos trivial]
  | @int p h c st t op r y hp ht hop hr hy hm2 =>
    obtain ⟨m, o, hs⟩ := sib_of hm hp [] find
    obtain ⟨lit, hl1, hl2⟩ := int_prep (find := find) (k := r.length + 1) ht hr hy hm2
    dsimp only
    rw [comp_value hp hs (text_head hr).1]
    refine valueComp_ok (tok := .text lit) (ct := some []) hs (by simp [checksImpl]) (by simp [valueAccImpl]) (by simp [castImpl])
      (by rw [prepValue, hl1]; rfl) .number ?_ (by intro e; simp only [e]; simp)
    intro pl' o' steps hb ho
    generalize (FVal.members vs).at p = v at hb ⊢
    cases hb with
    | @int _ _ _ t' x ht' hx =>
      rw [ht] at ht'; cases ht'
      refine ⟨@decide (CmpHolds (cppOp op) x y) (Classical.propDecidable _), ?_, ?_⟩
      · simp only [Option.map_some, List.append_nil, castTok]
        exact cmp_cast (.getNum ho) lit_parse (.castLiteral ho (.number hl2) (conv_self hy fun _ => width.2.1)) (by simp)
      · simp [cppOp_holds hop]
  | @enum p h c st t op r y hp ht hop hr hy hm2 hm3 =>
    obtain ⟨m, o, hs⟩ := sib_of hm hp [] find
    obtain ⟨lit, hl1, hl2⟩ := enum_prep (find := find) hr hm2 hm3
    dsimp only
    rw [comp_value hp hs (text_head hr).1]
    refine valueComp_ok (tok := .text lit) (ct := some []) hs (by simp [checksImpl]) (by simp [valueAccImpl]) (by simp [castImpl])
      (by rw [prepValue, hl1]; rfl) .number ?_ (by intro e; simp only [e]; simp)
    intro pl' o' steps hb ho
    generalize (FVal.members vs).at p = v at hb ⊢
    cases hb with
    | @enum _ _ _ t' x ht' hx =>
      rw [ht] at ht'; cases ht'
      refine ⟨@decide (CmpHolds (cppOp op) x y) (Classical.propDecidable _), ?_, ?_⟩
      · simp only [Option.map_some, List.append_nil, castTok]
        exact cmp_cast (.getNum ho) lit_parse (.castLiteral ho (.number hl2) (conv_self hy fun _ => width.2.1)) (by simp)
      · simp [cppOp_holds hop]
  | @set p h c st op r y hp hop hr hy hy2 =>
    obtain ⟨m, o, hs⟩ := sib_of hm hp [] find
    dsimp only
    rw [comp_value hp hs (denotes_head (.plain hr)).1]
    refine valueComp_ok (tok := .text r) (ct := some []) hs (by simp [checksImpl]) (by simp [valueAccImpl]) (by simp [castImpl])
      (by rw [prepValue]) .number ?_ (by intro e; simp only [e]; simp)
    intro pl' o' steps hb ho
    generalize (FVal.members vs).at p = v at hb ⊢
    cases hb with
    | @set _ _ _ w x hw hx =>
      have hc : CppHolds (false, w) (y : Int) := by
        unfold CppHolds
        simp only [Bool.false_eq_true, if_false]
        have h1 : 2 ^ (8 * st.length) ≤ 2 ^ w := Nat.pow_le_pow_right (by decide) hw
        have h2 : y < 2 ^ w := by omega
        have h3 : (y : Int) < ((2 ^ w : Nat) : Int) := by exact_mod_cast h2
        push_cast at h3
        omega
      refine ⟨@decide (CmpHolds (cppOp op) x y) (Classical.propDecidable _), ?_, ?_⟩
      · simp only [Option.map_some, List.append_nil, castTok]
        exact cmp_cast (.getSet ho) lit_parse (.castSet ho (.number (expr_plain hr hy)) (conv_self hc (by simp))) (by simp)
      · simp [cppOp_holds hop]
  | @textEq p h c st sl r hp ht hca hd hpc =>
    obtain ⟨m, o, hs⟩ := sib_of hm hp [] find
    dsimp only
    rw [comp_value hp hs hd]
    have hst : stringText find r = r := by
      unfold stringText
      split
      · exact absurd List.mem_cons_self hca
      · rw [if_neg (by simp [hca])]
    refine valueComp_ok (tok := .quoted r) (ct := none) hs (by simp [checksImpl]) (by simp [valueAccImpl]) (by simp [castImpl])
      (by rw [prepValue, hst]) .quoted ?_ (by intro e; simp only [e]; simp)
    intro pl' o' steps hb ho
    generalize (FVal.members vs).at p = v at hb ⊢
    cases hb with
    | @string _ _ _ _ x =>
      refine ⟨decide (x = r), ?_, by simp⟩
      exact ⟨_, cmp_parse .quoted, .eqText rfl (.getText ho) (.quoted ht) (by simp)⟩
  | @textNe p h c st sl r hp ht hca hd hpc =>
    obtain ⟨m, o, hs⟩ := sib_of hm hp [] find
    dsimp only
    rw [comp_value hp hs hd]
    have hst : stringText find r = r := by
      unfold stringText
      split
      · exact absurd List.mem_cons_self hca
      · rw [if_neg (by simp [hca])]
    refine valueComp_ok (tok := .quoted r) (ct := none) hs (by simp [checksImpl]) (by simp [valueAccImpl]) (by simp [castImpl])
      (by rw [prepValue, hst]) .quoted ?_ (by intro e; simp only [e]; simp)
    intro pl' o' steps hb ho
    generalize (FVal.members vs).at p = v at hb ⊢
    cases hb with
    | @string _ _ _ _ x =>
      refine ⟨decide (x ≠ r), ?_, by simp⟩
      exact ⟨_, cmp_parse .quoted, .neText rfl (.getText ho) (.quoted ht) (by simp)⟩
  | @fields p q h h' l l' ty ty' op hp hq hl hl' hfit hop =>
    obtain ⟨h1, h2, h3, -⟩ := pathTo_parts hp
    obtain ⟨g1, g2, g3, -⟩ := pathTo_parts hq
    obtain ⟨m, o, hs⟩ := sib_of hm hp [] find
    obtain ⟨m', o', hs'⟩ := sib_of hm hq [] find
    have leaf : ∀ {l : Field} {ty : CppInt}, NumField l ty → (∀ pl pre, checksImpl g pl l [] pre = []) ∧ (∀ pl, valueAccImpl g pl l [] = ([], .value)) ∧
        (∀ pl, castImpl g pl l [] = some []) ∧ ∀ pl o v, StoresBody g pl l o v → ∃ x, o = .num ty x ∧ v = .num x ∧ CppHolds ty x := by
      intro l ty hl
      cases hl with
      | int ht =>
        refine ⟨by simp [checksImpl], by simp [valueAccImpl], by simp [castImpl], fun pl o v hb => ?_⟩
        cases hb with
        | int ht' hx => rw [ht] at ht'; cases ht'; exact ⟨_, rfl, rfl, hx⟩
      | enum ht =>
        refine ⟨by simp [checksImpl], by simp [valueAccImpl], by simp [castImpl], fun pl o v hb => ?_⟩
        cases hb with
        | enum ht' hx => rw [ht] at ht'; cases ht'; exact ⟨_, rfl, rfl, hx⟩
    obtain ⟨a1, a2, a3, a4⟩ := leaf hl
    obtain ⟨b1, b2, b3, b4⟩ := leaf hl'
    obtain ⟨b, hb1, hb2⟩ := fieldComp_ok (op := cppOp op)
      (P := ∃ x y, (FVal.members vs).at p = .num x ∧ (FVal.members vs).at q = .num y ∧ Compares op x y) hs hs' a1 a2 a3 b1 b2
      (by
        intro pl1 pl2 o1 o2 x1 x2
        obtain ⟨x, rfl, e1, c1⟩ := a4 _ _ _ x1
        obtain ⟨y, rfl, e2, c2⟩ := b4 _ _ _ x2
        refine ⟨ty, ty', x, y, rfl, rfl, ⟨hfit y c2, fun _ => by cases hl <;> exact width.2.1⟩, ?_⟩
        rw [cppOp_holds hop, e1, e2]
        simp)
      (by
        rintro (e | e)
        · rw [e]; simp
        · rw [e]; simp)
    refine ⟨_, b, ?_, hb1, hb2⟩
    rw [← J_nil h3, ← J_nil g3]
    unfold exprToks
    rw [if_neg (by simp)]
    unfold compToks
    simp only [operand_path h1 h2, operand_path g1 g2, hs.sib, hs'.sib]
    rw [if_neg (by decide)]
  | @size p h l op r y hp hl hop hr hy =>
    obtain ⟨h1, h2, h3, -⟩ := pathTo_parts hp
    obtain ⟨m, o, hs⟩ := sib_of hm hp [] find
    have hval : ∀ (pl' : Place) (o' : CObj) (v : FVal), StoresBody g pl' l o' v → ∃ n : Nat,
        (∀ a, objAt os a = some o' → CEval os (.get a .size) (.size n) ∧ CEval os (.empty a) (.bool (decide (n = 0)))) ∧
        ∀ k : Nat, (v = .seq k ∨ ∃ s, v = .text s ∧ s.length = k) ↔ k = n := by
      intro pl' o' v hb
      cases hb <;> simp [Field.kind] at hl
      · rename_i s
        exact ⟨s.length, fun a ho => ⟨.textSize ho, .textEmpty ho⟩, by simp [eq_comm]⟩
      · rename_i n
        exact ⟨n, fun a ho => ⟨.seqSize ho, .seqEmpty ho⟩, by simp [eq_comm]⟩
      · rename_i n
        exact ⟨n, fun a ho => ⟨.seqSize ho, .seqEmpty ho⟩, by simp [eq_comm]⟩
    obtain ⟨b, hb1, hb2⟩ := sizeComp_ok (op := cppOp op) (r := r)
      (P := ∃ n : Nat, ((FVal.members vs).at p = .seq n ∨ ∃ s, (FVal.members vs).at p = .text s ∧ s.length = n) ∧ Compares op n y) hs
      (by cases l <;> simp [Field.kind] at hl <;> simp [checksImpl]) (by cases l <;> simp [Field.kind] at hl <;> simp [sizeAccImpl])
      (by
        intro pl' o' steps hb ho
        obtain ⟨n, hn, hk⟩ := hval _ _ _ hb
        obtain ⟨q1, q2⟩ := hn _ ho
        have hP : (∃ n : Nat, ((FVal.members vs).at p = .seq n ∨ ∃ s, (FVal.members vs).at p = .text s ∧ s.length = n) ∧ Compares op n y) ↔ Compares op n y := by
          simp only [hk, exists_eq_left]
        rw [hP, ← cppOp_holds hop]
        unfold sizeExpr
        split
        · rename_i e
          obtain ⟨eo, er, -⟩ := e
          rw [eo]
          have hy0 : y = 0 := by
            subst er
            cases hr with
            | dec _ _ hc _ => exact absurd rfl hc
            | oct => rfl
          subst hy0
          exact ⟨_, ⟨_, .fromCmp (.fromUnary .empty), q2⟩, by simp [CmpHolds]⟩
        · split
          · rename_i e
            obtain ⟨eo, er, -⟩ := e
            rw [eo]
            have hy0 : y = 0 := by
              subst er
              cases hr with
              | dec _ _ hc _ => exact absurd rfl hc
              | oct => rfl
            subst hy0
            exact ⟨_, ⟨_, .fromCmp (.fromUnary (.not .empty)), .not q2⟩, by simp [CmpHolds]⟩
          · refine ⟨@decide (CmpHolds (cppOp op) n y) (Classical.propDecidable _), ⟨_, cmp_parse (.castSize (t := [.text r]) lit_parse), ?_⟩, by simp⟩
            have hc : CppConv (false, 64) (y : Int) (y : Int) := conv_self (by unfold CppHolds; simp; omega) (by simp)
            have := CEval.castSize (env := os) (.number (expr_plain hr hy)) hc
            simp only [Int.toNat_natCast] at this
            exact .cmpSize q1 this (by simp))
      (by intro e; simp only [e]; simp)
    refine ⟨_, b, ?_, hb1, hb2⟩
    rw [← J_nil h3]
    unfold exprToks
    rw [if_neg (by simp)]
    unfold compToks
    have : operand ('$' :: '#' :: J p []) = ('#', J p []) := rfl
    simp only [this, hs.sib]
    rw [if_pos trivial]

mutual
theorem cond_ok (hm : StoresMembers g pl fs os vs) (wrap : Bool) : ∀ (c : CondM.Cond) (P : FVal → Prop), SaysCond g pl fs c P →
    ∃ toks b, condToks ⟨g, pl, find⟩ fs wrap c = .ok toks ∧ toks ≠ [] ∧ Evaluates os toks b ∧ (b = true ↔ P (.members vs))
  | .expr e, P, h => by
    cases h with
    | expr h =>
      obtain ⟨toks, b, h1, h2, h3⟩ := expr_ok (find := find) hm h
      exact ⟨toks, b, by rw [condToks]; exact h1, h2.ne, h2.evaluates, h3⟩
  | .list t cs, P, h => by
    have wrapped : ∀ {l : List Tok} {b : Bool}, Evaluates os l b → (if wrap = true then Tok.lpar :: l ++ [.rpar] else l) ≠ [] ∧
        Evaluates os (if wrap = true then Tok.lpar :: l ++ [.rpar] else l) b := by
      rintro l b ⟨e, h1, h2⟩
      cases wrap with
      | false => exact ⟨parse_ne h1, e, h1, h2⟩
      | true => exact ⟨by simp, e, .fromAnd (.fromCmp (.fromUnary (.paren h1))), h2⟩
    cases h with
    | @all _ Ps hne h =>
      obtain ⟨toks, b, h1, h2, h3⟩ := conds_all hm cs Ps h hne
      obtain ⟨w1, w2⟩ := wrapped h2.evaluates
      exact ⟨_, b, by rw [condToks, listTok, h1]; rfl, w1, w2, h3⟩
    | @some _ Ps hne h =>
      obtain ⟨toks, b, h1, h2, h3⟩ := conds_some hm cs Ps h hne
      obtain ⟨w1, w2⟩ := wrapped h2
      exact ⟨_, b, by rw [condToks, listTok, h1]; rfl, w1, w2, h3⟩
  termination_by c => sizeOf c
theorem conds_all (hm : StoresMembers g pl fs os vs) : ∀ (cs : List CondM.Cond) (Ps : List (FVal → Prop)), SaysConds g pl fs cs Ps → cs ≠ [] →
    ∃ toks b, listToks ⟨g, pl, find⟩ fs .and cs = .ok toks ∧ EvA os toks b ∧ (b = true ↔ ∀ P ∈ Ps, P (.members vs))
  | [], _, _, h => absurd rfl h
  | c :: cs, _, h, _ => by
    cases h with
    | @cons _ _ P Ps hc hcs =>
      obtain ⟨t, b, h1, h2, h3, h4⟩ := cond_ok hm true c P hc
      have ht : t.isEmpty = false := by simpa using h2
      obtain ⟨e, p1, p2⟩ := ev_paren h3
      by_cases hne : cs = []
      · subst hne
        cases hcs
        refine ⟨.lpar :: (t ++ [.rpar]), b, ?_, ⟨e, .fromCmp p1, p2⟩, by simp [h4]⟩
        rw [listToks, h1]
        simp [listToks, Res.bind, h2]
      · obtain ⟨r, b', g1, ⟨e', q1, q2⟩, g3⟩ := conds_all hm cs Ps hcs hne
        have hne' : cs.isEmpty = false := by simpa using hne
        refine ⟨(.lpar :: (t ++ [.rpar])) ++ .and :: r, b && b', ?_, ?_, ?_⟩
        · rw [listToks, h1]
          simp [g1, Res.bind, h2, hne']
        · refine ⟨_, .and p1 q1, ?_⟩
          cases b with
          | false => exact .andFalse p2
          | true => exact .andTrue p2 q2
        · simp [h4, g3]
  termination_by cs => sizeOf cs
theorem conds_some (hm : StoresMembers g pl fs os vs) : ∀ (cs : List CondM.Cond) (Ps : List (FVal → Prop)), SaysConds g pl fs cs Ps → cs ≠ [] →
    ∃ toks b, listToks ⟨g, pl, find⟩ fs .or cs = .ok toks ∧ Evaluates os toks b ∧ (b = true ↔ ∃ P ∈ Ps, P (.members vs))
  | [], _, _, h => absurd rfl h
  | c :: cs, _, h, _ => by
    cases h with
    | @cons _ _ P Ps hc hcs =>
      obtain ⟨t, b, h1, h2, h3, h4⟩ := cond_ok hm true c P hc
      have ht : t.isEmpty = false := by simpa using h2
      obtain ⟨e, p1, p2⟩ := ev_paren h3
      by_cases hne : cs = []
      · subst hne
        cases hcs
        refine ⟨.lpar :: (t ++ [.rpar]), b, ?_, ⟨e, .fromAnd (.fromCmp p1), p2⟩, by simp [h4]⟩
        rw [listToks, h1]
        simp [listToks, Res.bind, h2]
      · obtain ⟨r, b', g1, ⟨e', q1, q2⟩, g3⟩ := conds_some hm cs Ps hcs hne
        have hne' : cs.isEmpty = false := by simpa using hne
        refine ⟨(.lpar :: (t ++ [.rpar])) ++ .or :: r, b || b', ?_, ?_, ?_⟩
        · rw [listToks, h1]
          simp [g1, Res.bind, h2, hne']
        · refine ⟨_, .or (.fromCmp p1) q1, ?_⟩
          cases b with
          | false => exact .orFalse p2 q2
          | true => exact .orTrue p2
        · simp [h4, g3]
  termination_by cs => sizeOf cs
end

end Main
end GCond

open GCond

/-! ## The properties -/

/-- C88. The text generated for a condition is, for all contents of the fields, an expression with exactly one truth value, and that is what the condition says of
    the values of the fields. Left out: see `Says`. -/
theorem C88_condition_partial (g : GVer) (pl : Place) (find : Str → Option Field) (fs : List Field) (c : CondM.Cond) (P : FVal → Prop) (wrap : Bool)
    (os : List (Str × CObj)) (vs : List (Str × FVal)) (h : SaysCond g pl fs c P) (hm : StoresMembers g pl fs os vs) :
    ∃ toks b, condToks ⟨g, pl, find⟩ fs wrap c = .ok toks ∧ toks ≠ [] ∧ (∀ b', Evaluates os toks b' ↔ b' = b) ∧ (b = true ↔ P (.members vs)) := by
  obtain ⟨toks, b, h1, h2, h3, h4⟩ := cond_ok (find := find) hm wrap c P h
  exact ⟨toks, b, h1, h2, fun b' => ⟨fun h' => evaluates_one h' h3, fun e => e ▸ h3⟩, h4⟩

/-- C89. Refreshing an optional field with a condition: afterwards the field exists if and only if the condition holds, whatever was before, and the
    result tells whether that has changed. -/
theorem C89_refresh_partial (g : GVer) (pl : Place) (find : Str → Option Field) (fs : List Field) (c : CondM.Cond) (P : FVal → Prop) (os : List (Str × CObj))
    (vs : List (Str × FVal)) (h : SaysCond g pl fs c P) (hm : StoresMembers g pl fs os vs) (before : Bool) :
    ∃ fn, refreshCond ⟨g, pl, find⟩ fs (some c) = .ok fn ∧ (∃ after changed, Refresh os fn before after changed) ∧
      ∀ after changed, Refresh os fn before after changed → (after = true ↔ P (.members vs)) ∧ (changed = true ↔ before ≠ after) := by
  obtain ⟨toks, b, h1, h2, h3, h4⟩ := C88_condition_partial g pl find fs c P false os vs h hm
  refine ⟨some toks, ?_, ⟨b, _, .some ((h3 b).2 rfl)⟩, ?_⟩
  · unfold refreshCond
    dsimp only
    rw [h1]
    simp [Res.bind, h2]
  · intro after changed hr
    cases hr with
    | some he => rw [(h3 after).1 he]; exact ⟨h4, by simp⟩

/-- C89. Refreshing an optional field without a condition changes nothing. -/
theorem C89_unconditional (x : CondEnv) (fs : List Field) (os : List (Str × CObj)) (before : Bool) :
    ∃ fn, refreshCond x fs none = .ok fn ∧ ∀ after changed, Refresh os fn before after changed ↔ after = before ∧ changed = false := by
  refine ⟨none, rfl, fun after changed => ⟨fun h => ?_, ?_⟩⟩
  · cases h; exact ⟨rfl, rfl⟩
  · rintro ⟨rfl, rfl⟩; exact .none

/-- C89. A second refresh, with the same fields, changes nothing. -/
theorem C89_stable (os : List (Str × CObj)) (fn : Option (List Tok)) (a b b' : Bool) (r r' : Bool) (h1 : Refresh os fn a b r) (h2 : Refresh os fn b b' r') :
    b' = b ∧ r' = false := by
  cases h1 with
  | none => cases h2; exact ⟨rfl, rfl⟩
  | some h1 =>
    cases h2 with
    | some h2 => cases evaluates_one h1 h2; exact ⟨rfl, by simp⟩

/-- C90. A bundle, bitfield or message with a validity condition is valid if and only if all its fields are valid and the condition holds. -/
theorem C90_valid_partial (g : GVer) (pl : Place) (find : Str → Option Field) (fs : List Field) (c : CondM.Cond) (P : FVal → Prop) (os : List (Str × CObj))
    (vs : List (Str × FVal)) (h : SaysCond g pl fs c P) (hm : StoresMembers g pl fs os vs) (base : Bool) :
    ∃ fn, validCondToks ⟨g, pl, find⟩ fs (some c) = .ok fn ∧ (∃ r, ValidResult os fn base r) ∧
      ∀ r, ValidResult os fn base r → (r = true ↔ base = true ∧ P (.members vs)) := by
  obtain ⟨toks, b, h1, h2, h3, h4⟩ := C88_condition_partial g pl find fs c P true os vs h hm
  refine ⟨some toks, ?_, ?_, ?_⟩
  · unfold validCondToks
    dsimp only
    rw [h1]
    simp [Res.bind, h2]
  · cases base with
    | false => exact ⟨_, .invalid⟩
    | true => exact ⟨_, .some ((h3 b).2 rfl)⟩
  · intro r hr
    cases hr with
    | invalid => simp
    | some he => rw [(h3 r).1 he]; simp [h4]

/-- C90. Without a condition only the validity of the fields counts. -/
theorem C90_unconditional (x : CondEnv) (fs : List Field) (os : List (Str × CObj)) (base : Bool) :
    ∃ fn, validCondToks x fs none = .ok fn ∧ ∀ r, ValidResult os fn base r ↔ r = base := by
  refine ⟨none, rfl, fun r => ⟨fun h => ?_, ?_⟩⟩
  · cases h; rfl
  · rintro rfl; exact .none

end Commsdsl.Props
