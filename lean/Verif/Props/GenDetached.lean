import Verif.Props.GenRead
import Verif.Props.GenCondSample
import Verif.Spec.GenDetached
/-!
# Detached prefixes in the generated code (C116, C117)
-/
namespace Commsdsl.Props
open Commsdsl Text Fld Gen Spec

namespace DetachedProofs
open GCond
open CondProofs (J J_ne J_nil J_value J_split)

/-! ## Two groups of checks -/

theorem joined {env : List (Str × CObj)} {n n' : Str} {cs cs' : List (List Step)} (h : Alls env n cs) (h' : Alls env n' cs') (hne : cs ≠ [] ∨ cs' ≠ []) :
    EvA env (joinAnd (checkToks n cs) (checkToks n' cs')) true := by
  unfold joinAnd
  by_cases h1 : cs = []
  · rw [if_pos (checkToks_empty.2 h1)]
    exact checks_all (hne.resolve_left (fun g => g h1)) h'
  · rw [if_neg (fun e => h1 (checkToks_empty.1 e))]
    by_cases h2 : cs' = []
    · rw [if_pos (checkToks_empty.2 h2)]; exact checks_all h1 h
    · rw [if_neg (fun e => h2 (checkToks_empty.1 e))]
      have := chain_true (T := checkToks n' cs') h (checks_all h2 h')
      rw [if_neg h1] at this
      exact this

theorem stops_ne {env : List (Str × CObj)} {n : Str} {cs : List (List Step)} (h : Stops env n cs) : cs ≠ [] := by
  obtain ⟨a, c, b, i, rfl, _⟩ := h; simp

theorem joined_first {env : List (Str × CObj)} {n n' : Str} {cs cs' : List (List Step)} (h : Stops env n cs) :
    EvA env (joinAnd (checkToks n cs) (checkToks n' cs')) false := by
  unfold joinAnd
  rw [if_neg (fun e => stops_ne h (checkToks_empty.1 e))]
  by_cases h2 : cs' = []
  · rw [if_pos (checkToks_empty.2 h2)]; exact checks_stop h
  · rw [if_neg (fun e => h2 (checkToks_empty.1 e))]
    obtain ⟨e, he⟩ := checks_parse (name := n') h2
    exact chain_false h he

theorem joined_second {env : List (Str × CObj)} {n n' : Str} {cs cs' : List (List Step)} (h : Alls env n cs) (h' : Stops env n' cs') :
    EvA env (joinAnd (checkToks n cs) (checkToks n' cs')) false := by
  unfold joinAnd
  by_cases h1 : cs = []
  · rw [if_pos (checkToks_empty.2 h1)]; exact checks_stop h'
  · rw [if_neg (fun e => h1 (checkToks_empty.1 e)), if_neg (fun e => stops_ne h' (checkToks_empty.1 e))]
    have := chain_true (T := checkToks n' cs') h (checks_stop h')
    rw [if_neg h1] at this
    exact this

theorem joined_empty {n n' : Str} {cs cs' : List (List Step)} : joinAnd (checkToks n cs) (checkToks n' cs') = [] ↔ cs = [] ∧ cs' = [] := by
  unfold joinAnd
  by_cases h1 : cs = []
  · rw [if_pos (checkToks_empty.2 h1)]
    constructor
    · intro e; exact ⟨h1, checkToks_empty.1 (by rw [e]; rfl)⟩
    · rintro ⟨-, h⟩; rw [h]; rfl
  · rw [if_neg (fun e => h1 (checkToks_empty.1 e))]
    have a : checkToks n cs ≠ [] := fun e => h1 (checkToks_empty.1 (by rw [e]; rfl))
    split
    · exact ⟨fun e => absurd e a, fun e => absurd e.1 h1⟩
    · exact ⟨fun e => by simp at e, fun e => absurd e.1 h1⟩

/-! ## The conversion to `std::size_t` -/

theorem size_conv (x : Int) : CppConv (false, 64) x (x % 2 ^ 64) := by
  refine ⟨by simp, ?_, x / 2 ^ 64, ?_⟩
  · simp only [CppHolds]
    refine ⟨Int.emod_nonneg _ (by decide), ?_⟩
    have := Int.emod_lt_of_pos x (b := 2 ^ 64) (by decide)
    omega
  · have := Int.emod_add_mul_ediv x (2 ^ 64)
    show x = x % 2 ^ 64 + x / 2 ^ 64 * 2 ^ 64
    omega

/-- One result. -/
theorem run_one {env : List (Str × CObj)} {st : PrepStmt} {a b : Option Nat} (h : RunPrep env st a) (h' : RunPrep env st b) : a = b := by
  cases h with
  | always c _ v y =>
    cases h' with
    | always _ _ v' y' =>
      have e := eval_one v v'
      cases e
      rw [conv_one y y']
    | holds c' => exact absurd c c'
    | fails c' => exact absurd c c'
  | holds c e _ v y =>
    cases h' with
    | always c' => exact absurd c' c
    | holds _ _ _ v' y' =>
      have e := eval_one v v'
      cases e
      rw [conv_one y y']
    | fails _ e' => exact absurd (evaluates_one e e') (by simp)
  | fails c e =>
    cases h' with
    | always c' => exact absurd c' c
    | holds _ e' => exact absurd (evaluates_one e e') (by simp)
    | fails => rfl

theorem num_impl {l : Field} {ty : CppInt} (h : NumField l ty) (g : GVer) : (∀ pl pre, checksImpl g pl l [] pre = []) ∧
    (∀ pl, valueAccImpl g pl l [] = ([], .value)) ∧ l.kind ≠ .ref ∧
    ∀ pl o v, StoresBody g pl l o v → ∃ x, o = .num ty x ∧ v = .num x := by
  cases h with
  | int ht =>
    refine ⟨fun _ _ => by simp [checksImpl], fun _ => by simp [valueAccImpl], by simp [Field.kind], ?_⟩
    intro pl o v h
    cases h with
    | int ht' _ => rw [ht] at ht'; cases ht'; exact ⟨_, rfl, rfl⟩
  | enum ht =>
    refine ⟨fun _ _ => by simp [checksImpl], fun _ => by simp [valueAccImpl], by simp [Field.kind], ?_⟩
    intro pl o v h
    cases h with
    | enum ht' _ => rw [ht] at ht'; cases ht'; exact ⟨_, rfl, rfl⟩

theorem seq_impl {f : Field} {fn : SeqFunc} {path : Str} (h : Detached f fn path) (g : GVer) : (∀ pl pre, checksImpl g pl f [] pre = []) ∧
    (∀ pl, valueAccImpl g pl f [] = ([], .value)) ∧ f.kind ≠ .ref ∧
    ∀ pl o v, StoresBody g pl f o v → v ≠ .missing ∧ ((∃ n, o = .seq n) ∨ ∃ s, o = .text s) := by
  cases h <;> refine ⟨fun _ _ => by simp [checksImpl], fun _ => by simp [valueAccImpl], by simp [Field.kind], ?_⟩ <;> intro pl o v h <;> cases h <;> simp

/-- The statement for one prefix. -/
theorem stmt_ok {g : GVer} {pl : Place} {fs : List Field} {os : List (Str × CObj)} {vs : List (Str × FVal)} {f h l : Field} {fn : SeqFunc} {p : List Str} {ty : CppInt}
    (hm : StoresMembers g pl fs os vs) (hf : PathTo fs [f.name] f f) (hd : Detached f fn (joinDots p)) (hp : PathTo fs p h l) (hn : NumField l ty) :
    ∃ st, prepStmt g pl fs f fn (joinDots p) = some st ∧ st.func = fn ∧
      (∀ x, (FVal.members vs).at [f.name] ≠ .missing → (FVal.members vs).at p = .num x → RunPrep os st (some (x % 2 ^ 64).toNat)) ∧
      (((FVal.members vs).at [f.name] = .missing ∨ (FVal.members vs).at p = .missing) → RunPrep os st none) ∧
      ((FVal.members vs).at p = .missing ∨ ∃ x, (FVal.members vs).at p = .num x) := by
  obtain ⟨-, hpne, hpl, -⟩ := pathTo_parts hp
  obtain ⟨-, -, hfl, -⟩ := pathTo_parts hf
  obtain ⟨m, o, hs⟩ := sib_of hm hp [] (fun _ => none)
  obtain ⟨f', of, hsf⟩ := sib_of hm hf [] (fun _ => none)
  have ef : f' = f := by
    obtain ⟨_, n, q, m', e, hfind, hpath, hfol⟩ := hf
    have e1 : [f.name] = n :: q := e
    cases e1
    have := hsf.sib
    rw [findSib, (J_split (q := []) (w := []) (hfl f.name (by simp))).1, hfind] at this
    cases this
    cases hpath with
    | self => rfl
    | target h0 => exact absurd rfl h0
  subst ef
  have eq : afterDot (J [f'.name] []) = [] := (J_split (q := []) (w := []) (hfl f'.name (by simp))).2.1
  have hsft := hsf.there
  rw [eq] at hsft
  obtain ⟨k1, k2, -, k4⟩ := num_impl hn g
  obtain ⟨s1, s2, -, s4⟩ := seq_impl hd g
  have hsib := hs.sib
  have hst := hs.there
  rw [J_nil hpl] at hsib hst
  have hne : (joinDots p).isEmpty = false := by
    rw [← J_nil hpl]
    cases p with
    | nil => exact absurd rfl hpne
    | cons n q =>
      have := J_ne (q := q) (w := []) (hpl n (by simp)).1
      cases hj : J (n :: q) [] with
      | nil => exact absurd hj this
      | cons => rfl
  refine ⟨_, by rw [prepStmt, if_neg (by rw [hne]; simp), hsib], rfl, ?_, ?_, ?_⟩
  · intro x h1 h2
    have t1 := hsft.resolve_right (fun e => h1 e.1)
    have t2 := hst.resolve_right (fun e => by rw [h2] at e; exact absurd e.1 (by simp))
    obtain ⟨pl1, steps1, o1, b1, a1, c1, v1, -, -⟩ := reach hsf.obj s1 t1
    obtain ⟨pl2, steps2, o2, b2, a2, c2, v2, -, -⟩ := reach hs.obj k1 t2
    obtain ⟨y, e1, e2⟩ := k4 _ _ _ b2
    rw [h2] at e2
    cases e2
    have hseq : SeqAt os ⟨accessName f'.name, (valueAcc g pl f' []).1⟩ := by
      rw [v1, s2]
      simp only [List.append_nil]
      rcases (s4 _ _ _ b1).2 with ⟨n, rfl⟩ | ⟨s, rfl⟩
      · exact .inl ⟨n, a1⟩
      · exact .inr ⟨s, a1⟩
    have hval : CEval os (.get ⟨accessName m.name, (valueAcc g pl m (afterDot (joinDots p))).1⟩ (valueAcc g pl m (afterDot (joinDots p))).2) (.num ty x) := by
      rw [v2, k2]
      simp only [List.append_nil]
      rw [e1] at a2
      exact .getNum a2
    by_cases hc : checks g pl f' [] [] = [] ∧ checks g pl m (afterDot (joinDots p)) [] = []
    · exact .always (joined_empty.2 hc) hseq hval (size_conv x)
    · have hor : checks g pl f' [] [] ≠ [] ∨ checks g pl m (afterDot (joinDots p)) [] ≠ [] := by
        by_cases ha : checks g pl f' [] [] = []
        · exact .inr fun hb => hc ⟨ha, hb⟩
        · exact .inl ha
      exact .holds (fun e => hc (joined_empty.1 e)) (joined c1 c2 hor).evaluates hseq hval (size_conv x)
  · intro h1
    rcases hsft with t1 | ⟨-, t1⟩
    · have h2 : (FVal.members vs).at p = .missing := by
        rcases h1 with h1 | h1
        · obtain ⟨pl1, steps1, o1, b1, -⟩ := reach hsf.obj s1 t1
          exact absurd h1 (s4 _ _ _ b1).1
        · exact h1
      rcases hst with t2 | ⟨-, t2⟩
      · obtain ⟨pl2, steps2, o2, b2, -⟩ := reach hs.obj k1 t2
        obtain ⟨y, -, e2⟩ := k4 _ _ _ b2
        rw [h2] at e2
        exact absurd e2 (by simp)
      · obtain ⟨pl1, steps1, o1, b1, a1, c1, -⟩ := reach hsf.obj s1 t1
        have t3 := stops_of hs.obj t2
        exact .fails (fun e => stops_ne t3 (joined_empty.1 e).2) (joined_second c1 t3).evaluates
    · have t3 := stops_of hsf.obj t1
      exact .fails (fun e => stops_ne t3 (joined_empty.1 e).1) (joined_first t3).evaluates
  · rcases hst with t2 | ⟨h2, -⟩
    · obtain ⟨pl2, steps2, o2, b2, -⟩ := reach hs.obj k1 t2
      obtain ⟨y, -, e2⟩ := k4 _ _ _ b2
      exact .inr ⟨y, e2⟩
    · exact .inl h2

theorem stmt_func {g : GVer} {pl : Place} {fs : List Field} {f : Field} {fn : SeqFunc} {path : Str} {st : PrepStmt} (h : prepStmt g pl fs f fn path = some st) :
    st.func = fn ∧ path ≠ [] := by
  unfold prepStmt at h
  split at h
  · cases h
  · rename_i hne
    split at h
    · cases h
    · cases h
      exact ⟨rfl, by rintro rfl; exact hne rfl⟩

theorem stmts_mem {g : GVer} {pl : Place} {fs : List Field} {f : Field} {st : PrepStmt} :
    st ∈ prepStmts g pl fs f ↔ ∃ path, Detached f st.func path ∧ prepStmt g pl fs f st.func path = some st := by
  constructor
  · intro h
    cases f <;> simp only [prepStmts, List.mem_append, Option.mem_toList, List.not_mem_nil] at h
    case string => exact ⟨_, by rw [(stmt_func h).1]; exact .string, by rw [(stmt_func h).1]; exact h⟩
    case data => exact ⟨_, by rw [(stmt_func h).1]; exact .data, by rw [(stmt_func h).1]; exact h⟩
    case list =>
      rcases h with h | h | h
      · exact ⟨_, by rw [(stmt_func h).1]; exact .count, by rw [(stmt_func h).1]; exact h⟩
      · exact ⟨_, by rw [(stmt_func h).1]; exact .length, by rw [(stmt_func h).1]; exact h⟩
      · exact ⟨_, by rw [(stmt_func h).1]; exact .elemLength, by rw [(stmt_func h).1]; exact h⟩
  · rintro ⟨path, h1, h2⟩
    generalize st.func = fn at h1 h2
    cases h1 <;> simp only [prepStmts, List.mem_append, Option.mem_toList] <;> simp [h2]

theorem detached_one {f : Field} {fn : SeqFunc} {a b : Str} (h : Detached f fn a) (h' : Detached f fn b) : a = b := by
  cases h <;> cases h' <;> rfl

end DetachedProofs
open DetachedProofs

/-- **C116.** Before a sequence is read whose length, count or element length is in a field before it, exactly one statement hands it over: the number the field has, as
    `std::size_t`, if both fields exist, and nothing otherwise. -/
theorem C116_prepare_partial (g : GVer) (pl : Place) (fs : List Field) (os : List (Str × CObj)) (vs : List (Str × FVal)) (f h l : Field) (fn : SeqFunc) (p : List Str)
    (ty : CppInt) (hm : StoresMembers g pl fs os vs) (hf : PathTo fs [f.name] f f) (hd : Detached f fn (joinDots p)) (hp : PathTo fs p h l) (hn : NumField l ty) :
    ∃ st ∈ prepStmts g pl fs f, st.func = fn ∧ (∀ st' ∈ prepStmts g pl fs f, st'.func = fn → st' = st) ∧ ∃ r, (∀ r', RunPrep os st r' ↔ r' = r) ∧
      ∀ n, r = some n ↔ (FVal.members vs).at [f.name] ≠ .missing ∧ ∃ x, (FVal.members vs).at p = .num x ∧ n = (x % 2 ^ 64).toNat := by
  obtain ⟨st, e, hfn, h1, h2, h3⟩ := stmt_ok hm hf hd hp hn
  refine ⟨st, stmts_mem.2 ⟨_, by rw [hfn]; exact hd, by rw [hfn]; exact e⟩, hfn, ?_, ?_⟩
  · intro st' h' e'
    obtain ⟨path, a, b⟩ := stmts_mem.1 h'
    rw [e'] at a b
    rw [detached_one a hd, e] at b
    exact (Option.some.inj b).symm
  · by_cases hq : (FVal.members vs).at [f.name] = .missing ∨ (FVal.members vs).at p = .missing
    · refine ⟨none, fun r' => ⟨fun hr => run_one hr (h2 hq), fun hr => hr ▸ h2 hq⟩, fun n => ⟨fun hr => by simp at hr, ?_⟩⟩
      rintro ⟨a, x, b, -⟩
      rcases hq with hq | hq
      · exact absurd hq a
      · rw [hq] at b; exact absurd b (by simp)
    · have a : (FVal.members vs).at [f.name] ≠ .missing := fun e => hq (.inl e)
      obtain ⟨x, hx⟩ := h3.resolve_left (fun e => hq (.inr e))
      have hrun := h1 x a hx
      refine ⟨_, fun r' => ⟨fun hr => run_one hr hrun, fun hr => hr ▸ hrun⟩, fun n => ⟨fun hr => ⟨a, x, hx, (Option.some.inj hr).symm⟩, ?_⟩⟩
      rintro ⟨-, y, hy, rfl⟩
      rw [hx] at hy
      cases hy
      rfl

/-- Nothing is handed over for what is not detached. -/
theorem C116_only (g : GVer) (pl : Place) (fs : List Field) (f : Field) (st : PrepStmt) (h : st ∈ prepStmts g pl fs f) :
    ∃ path, path ≠ [] ∧ Detached f st.func path := by
  obtain ⟨path, a, b⟩ := stmts_mem.1 h
  exact ⟨path, (stmt_func b).2, a⟩

/-- The function that contains the statements is called before the sequence is read (C101) exactly if there are some. -/
theorem C116_called (g : GVer) (pl : Place) (fs : List Field) (f : Field) (hk : f.kind = .string ∨ f.kind = .data ∨ f.kind = .list) :
    prepared fs f = true ↔ prepStmts g pl fs f ≠ [] := by
  have key : ∀ fn path, prefixFound fs path = true ↔ (prepStmt g pl fs f fn path).toList ≠ [] := by
    intro fn path
    unfold prefixFound prepStmt
    cases he : path.isEmpty with
    | true => simp
    | false =>
      simp only [Bool.not_false, Bool.true_and, Bool.false_eq_true, if_false]
      unfold findSib
      have hb : path.takeWhile (· != '.') = beforeDot path := rfl
      rw [hb]
      cases hfind : fs.find? (fun x => x.name == beforeDot path) with
      | none =>
        rw [List.find?_eq_none] at hfind
        simp only [Option.toList_none, ne_eq, not_true_eq_false, iff_false, Bool.not_eq_true, List.any_eq_false]
        exact fun x hx => Bool.not_eq_true _ ▸ hfind x hx
      | some x =>
        simp only [Option.toList_some, ne_eq, List.cons_ne_self, not_false_eq_true, iff_true, List.any_eq_true]
        exact ⟨x, List.mem_of_find?_eq_some hfind, by simpa using List.find?_some hfind⟩
  cases f <;> simp [Field.kind] at hk
  case string => exact key _ _
  case data => exact key _ _
  case list =>
    simp only [prepared, prepStmts, Bool.or_eq_true, ne_eq, List.append_eq_nil_iff]
    rw [key .elemCount, key .length, key .elemLength]
    constructor
    · rintro (h | h | h) ⟨a, b, c⟩
      · exact h a
      · exact h b
      · exact h c
    · intro h
      rcases Decidable.em ((prepStmt g pl fs _ .elemCount _).toList = []) with a | a
      · rcases Decidable.em ((prepStmt g pl fs _ .length _).toList = []) with b | b
        · exact .inr (.inr fun c => h ⟨a, b, c⟩)
        · exact .inr (.inl b)
      · exact .inl a

namespace DetachedSample
open CondSample (cons intH name)

/-- Version 5, all versions from 0 are supported. -/
def g : GVer := { parsed := 5, versionDependent := true }
def pl : Place := .message 0
def len : Field := CondSample.int "Len" .uint16 2
def head : Field := .bundle { name := "Head".toList } [CondSample.int "A" .int8 1, len] [] none
def count : Field := CondSample.int "Count" .int32 4 2
def data : Field := .data { name := "Bytes".toList } { detached := "Head.Len".toList } .none
def list : Field := .list { name := "Items".toList, w := { since := 3 } } { detachedCount := "Count".toList } .none .none .none .none .none
/-- A bundle with a length in it, a number since version 2, data, a list since version 3. -/
def fs : List Field := [head, count, data, list]

def objs (c l : CObj) : List (Str × CObj) := [("head".toList, .tuple [("a".toList, .num (true, 8) (-1)), ("len".toList, .num (false, 16) 258)]), ("count".toList, c), ("bytes".toList, .seq 0),
  ("items".toList, l)]
def vals (c l : FVal) : List (Str × FVal) := [("Head".toList, .members [("A".toList, .num (-1)), ("Len".toList, .num 258)]), ("Count".toList, c), ("Bytes".toList, .seq 0), ("Items".toList, l)]

theorem holds {c l : CObj} {x y : FVal} (hc : Stores g pl count c x) (hl : Stores g pl list l y) : StoresMembers g pl fs (objs c l) (vals x y) := by
  refine cons (by decide) (by decide) (by decide) (.plain (by decide) (.bundle ?_)) ?_
  · refine cons (by decide) (by decide) (by decide) (.plain (by decide) (intH (by decide) (by simp [CppHolds]))) ?_
    exact cons (by decide) (by decide) (by decide) (.plain (by decide) (intH (by decide) (by simp [CppHolds]))) .nil
  refine cons (by decide) (by decide) (by decide) hc ?_
  refine cons (by decide) (by decide) (by decide) (.plain (by decide) .data) ?_
  exact cons (by decide) (by decide) (by decide) hl .nil

theorem countThere : Stores g pl count (.opt true (.num (true, 32) 7)) (.num 7) := .there (by decide) (intH (by decide) (by simp [CppHolds]))
theorem countGone : Stores g pl count (.opt false (.num (true, 32) 0)) .missing := .gone (by decide)
theorem listThere : Stores g pl list (.opt true (.seq 0)) (.seq 0) := .there (by decide) .list

theorem pathBytes : PathTo fs ["Bytes".toList] data data := ⟨by simpa using name "Bytes" (by decide), _, _, data, rfl, rfl, .self, .self (by decide)⟩
theorem pathItems : PathTo fs ["Items".toList] list list := ⟨by simpa using name "Items" (by decide), _, _, list, rfl, rfl, .self, .self (by decide)⟩
theorem pathCount : PathTo fs ["Count".toList] count count := ⟨by simpa using name "Count" (by decide), _, _, count, rfl, rfl, .self, .self (by decide)⟩
theorem pathLen : PathTo fs ["Head".toList, "Len".toList] len len :=
  ⟨by rintro n hn; simp only [List.mem_cons, List.not_mem_nil, or_false] at hn; rcases hn with rfl | rfl <;> exact name _ (by decide),
    "Head".toList, _, head, rfl, rfl, .member (by decide) rfl .self, .self (by decide)⟩

theorem numLen : NumField len (false, 16) :=
  NumField.int (c := { name := "Len".toList, w := { since := 0 } }) (st := { type := some .uint16, length := 2 }) (t := .uint16) rfl
theorem numCount : NumField count (true, 32) :=
  NumField.int (c := { name := "Count".toList, w := { since := 2 } }) (st := { type := some .int32, length := 4 }) (t := .int32) rfl

theorem dData : Detached data .length (joinDots ["Head".toList, "Len".toList]) :=
  .data (c := { name := "Bytes".toList }) (st := { detached := "Head.Len".toList }) (p := .none)
theorem dList : Detached list .elemCount (joinDots ["Count".toList]) :=
  .count (c := { name := "Items".toList, w := { since := 3 } }) (st := { detachedCount := "Count".toList }) (e := .none) (n := .none) (l := .none) (el := .none) (t := .none)

end DetachedSample

/-- The data gets its length from inside the bundle. -/
example {c l : CObj} {x y : FVal} (hc : Stores DetachedSample.g DetachedSample.pl DetachedSample.count c x)
    (hl : Stores DetachedSample.g DetachedSample.pl DetachedSample.list l y) :
    ∃ st ∈ prepStmts DetachedSample.g DetachedSample.pl DetachedSample.fs DetachedSample.data, RunPrep (DetachedSample.objs c l) st (some 258) := by
  obtain ⟨st, h1, -, -, r, h2, h3⟩ := C116_prepare_partial _ _ _ _ _ DetachedSample.data _ _ .length _ _ (DetachedSample.holds hc hl) DetachedSample.pathBytes DetachedSample.dData DetachedSample.pathLen DetachedSample.numLen
  refine ⟨st, h1, (h2 _).2 ((h3 258).2 ⟨?_, 258, rfl, rfl⟩).symm⟩
  exact fun h => nomatch h

/-- The list gets its count, if the message has a count. -/
example : ∃ st ∈ prepStmts DetachedSample.g DetachedSample.pl DetachedSample.fs DetachedSample.list,
    RunPrep (DetachedSample.objs (.opt true (.num (true, 32) 7)) (.opt true (.seq 0))) st (some 7) ∧
    RunPrep (DetachedSample.objs (.opt false (.num (true, 32) 0)) (.opt true (.seq 0))) st none := by
  obtain ⟨st, h1, e1, -, r, h2, h3⟩ := C116_prepare_partial _ _ _ _ _ DetachedSample.list _ _ .elemCount _ _ (DetachedSample.holds DetachedSample.countThere DetachedSample.listThere)
    DetachedSample.pathItems DetachedSample.dList DetachedSample.pathCount DetachedSample.numCount
  obtain ⟨st', h1', e1', hu, r', h2', h3'⟩ := C116_prepare_partial _ _ _ _ _ DetachedSample.list _ _ .elemCount _ _ (DetachedSample.holds DetachedSample.countGone DetachedSample.listThere)
    DetachedSample.pathItems DetachedSample.dList DetachedSample.pathCount DetachedSample.numCount
  have e : st = st' := hu st h1 e1
  subst e
  refine ⟨st, h1, (h2 _).2 ((h3 7).2 ⟨(fun h => nomatch h), 7, rfl, rfl⟩).symm, (h2' _).2 ?_⟩
  cases r' with
  | none => rfl
  | some n =>
    obtain ⟨-, x, h, -⟩ := (h3' n).1 rfl
    exact nomatch h

open Sample in
/-- Such fields are accepted. -/
example : ∃ f, Accepted f ∧ ((f.members.drop 1).map fun m => (prepStmts { parsed := 3, versionDependent := true } .other f.members m).map fun s => (s.func, s.value.steps, s.cond.length)) =
    [[(.length, [.member "len".toList], 0)], [], [(.elemCount, [.field], 3)]] := by
  obtain ⟨f, h1, h2⟩ := accepted env0_ok (parent := .top)
    (x := el "bundle" [("name", "x")] [el "bundle" [("name", "Head")] [el "int" [("name", "Len"), ("type", "uint16")]],
      el "data" [("name", "Bytes"), ("lengthPrefix", "$Head.Len")], el "int" [("name", "Count"), ("type", "uint8"), ("sinceVersion", "2")],
      el "list" [("name", "Items"), ("countPrefix", "$Count"), ("sinceVersion", "3")] [el "int" [("name", "E"), ("type", "uint8")]]])
    (p := fun f => decide (((f.members.drop 1).map fun m => (prepStmts { parsed := 3, versionDependent := true } .other f.members m).map fun s => (s.func, s.value.steps, s.cond.length)) =
      [[(.length, [.member "len".toList], 0)], [], [(.elemCount, [.field], 3)]])) (by decide +kernel)
  exact ⟨f, h1, by simpa using h2⟩

/-- C116, signed numbers: a negative count becomes a huge one. -/
theorem C116_negative_witness : ∃ c, Stores DetachedSample.g DetachedSample.pl DetachedSample.count c (.num (-1)) ∧
    ∃ st ∈ prepStmts DetachedSample.g DetachedSample.pl DetachedSample.fs DetachedSample.list,
      RunPrep (DetachedSample.objs c (.opt true (.seq 0))) st (some (2 ^ 64 - 1)) := by
  have hc : Stores DetachedSample.g DetachedSample.pl DetachedSample.count (.opt true (.num (true, 32) (-1))) (.num (-1)) :=
    .there (by decide) (CondSample.intH (by decide) (by simp [CppHolds]))
  obtain ⟨st, h1, e1, -, r, h2, h3⟩ := C116_prepare_partial _ _ _ _ _ DetachedSample.list _ _ .elemCount _ _ (DetachedSample.holds hc DetachedSample.listThere)
    DetachedSample.pathItems DetachedSample.dList DetachedSample.pathCount DetachedSample.numCount
  exact ⟨_, hc, st, h1, (h2 _).2 ((h3 _).2 ⟨(fun h => nomatch h), -1, rfl, by decide⟩).symm⟩

/-! ## Refreshing -/

namespace DetachedProofs

theorem max_ge {ty : CppInt} {x : Int} (h : CppHolds ty x) : x ≤ limitMax ty := by
  unfold CppHolds at h
  unfold limitMax
  split at h
  · rename_i e
    rw [if_pos e]
    have := Nat.two_pow_pos (ty.2 - 1)
    have e2 : ((2 ^ (ty.2 - 1) - 1 : Nat) : Int) = 2 ^ (ty.2 - 1) - 1 := by
      rw [Int.natCast_sub (by omega)]; simp
    rw [e2]; exact h.2
  · rename_i e
    rw [if_neg e]
    have := Nat.two_pow_pos ty.2
    have e2 : ((2 ^ ty.2 - 1 : Nat) : Int) = 2 ^ ty.2 - 1 := by
      rw [Int.natCast_sub (by omega)]; simp
    rw [e2]; exact h.2

theorem max_holds {ty : CppInt} {n : Nat} (h : n ≤ limitMax ty) : CppHolds ty n := by
  unfold limitMax at h
  unfold CppHolds
  split
  · rename_i e
    rw [if_pos e] at h
    have := Nat.two_pow_pos (ty.2 - 1)
    have e2 : ((2 ^ (ty.2 - 1) - 1 : Nat) : Int) = 2 ^ (ty.2 - 1) - 1 := by
      rw [Int.natCast_sub (by omega)]; simp
    have : (n : Int) ≤ ((2 ^ (ty.2 - 1) - 1 : Nat) : Int) := by exact_mod_cast h
    rw [e2] at this
    have p : (0 : Int) < 2 ^ (ty.2 - 1) := Int.pow_pos (by decide)
    omega
  · rename_i e
    rw [if_neg e] at h
    have := Nat.two_pow_pos ty.2
    have e2 : ((2 ^ ty.2 - 1 : Nat) : Int) = 2 ^ ty.2 - 1 := by
      rw [Int.natCast_sub (by omega)]; simp
    have : (n : Int) ≤ ((2 ^ ty.2 - 1 : Nat) : Int) := by exact_mod_cast h
    rw [e2] at this
    omega

theorem ty_range {ty : CppInt} {x : Int} (h : CppHolds ty x) (hw : ty.2 ≤ 64) : -2 ^ 63 ≤ x ∧ x < 2 ^ 64 := by
  unfold CppHolds at h
  split at h
  · have h1 : (2 : Int) ^ (ty.2 - 1) ≤ 2 ^ 63 := by exact_mod_cast Nat.pow_le_pow_right (by decide : 0 < 2) (by omega : ty.2 - 1 ≤ 63)
    omega
  · have h1 : (2 : Int) ^ ty.2 ≤ 2 ^ 64 := by exact_mod_cast Nat.pow_le_pow_right (by decide : 0 < 2) hw
    omega

theorem cast_eq {x : Int} {n : Nat} (h : -2 ^ 63 ≤ x ∧ x < 2 ^ 64) (hn : n < 2 ^ 63) : castU64 x = n ↔ x = n := by
  unfold castU64
  omega

theorem drop_spec (allowed : Nat) : ∀ (es : List Nat), es.sum < 2 ^ 63 → ∃ es', dropLoop allowed es es.sum = some (es', es'.sum) ∧ es'.sum ≤ allowed ∧
    ∃ gone, es = gone ++ es' ∧ ∀ k, k < gone.length → allowed < (es.drop k).sum
  | [], _ => ⟨[], by simp [dropLoop], by simp, [], rfl, by simp⟩
  | e :: es, hs => by
    simp only [List.sum_cons] at hs
    unfold dropLoop
    by_cases h : allowed < (e :: es).sum
    · rw [if_pos h]
      have e1 : castU64 (((e :: es).sum : Nat) - (e : Int)) = es.sum := by
        simp only [List.sum_cons]; unfold castU64; omega
      rw [e1]
      obtain ⟨es', a, b, gone, c, d⟩ := drop_spec allowed es (by omega)
      refine ⟨es', a, b, e :: gone, by rw [c]; rfl, ?_⟩
      intro k hk
      cases k with
      | zero => exact h
      | succ k => exact d k (by simpa using hk)
    · rw [if_neg h]
      exact ⟨e :: es, rfl, by omega, [], rfl, by simp⟩

theorem listLength_zero (es : List Nat) : listLength 0 es = es.sum := by simp [listLength]

end DetachedProofs

/-- **C117, counts, and lengths of texts and data.** After the refresh the prefix has the number of elements; the value is one of its type; all elements that such a number
    allows are there; the function tells whether something has changed; a second refresh changes nothing. -/
theorem C117_count (ty : CppInt) (hw : ty.2 ≤ 64) (s : PfxSeq) (hv : CppHolds ty s.value) (hs : s.elems.length < 2 ^ 63) :
    ∃ s' u, refreshCount ty s = .done s' u ∧ s'.value = s'.elems.length ∧ CppHolds ty s'.value ∧
      (∃ gone, s.elems = s'.elems ++ gone ∧ (gone ≠ [] → ¬ CppHolds ty (s'.elems.length + 1))) ∧ (u = true ↔ s' ≠ s) ∧ refreshCount ty s' = .done s' false := by
  have hr := ty_range hv hw
  unfold refreshCount
  by_cases h : castU64 s.value = s.elems.length
  · have h' := (cast_eq hr hs).1 h
    refine ⟨s, false, by simp only [h, if_true], h', hv, ⟨[], by simp, by simp⟩, by simp, by simp only [h, if_true]⟩
  · have h' : s.value ≠ s.elems.length := fun e => h ((cast_eq hr hs).2 e)
    simp only [h, if_false]
    by_cases hm : limitMax ty < s.elems.length
    · have e : min (limitMax ty) s.elems.length = limitMax ty := Nat.min_eq_left (by omega)
      rw [e, if_pos hm]
      have el : (s.elems.take (limitMax ty)).length = limitMax ty := by rw [List.length_take]; omega
      refine ⟨_, true, rfl, by rw [el], max_holds (Nat.le_refl _), ⟨s.elems.drop (limitMax ty), by simp, ?_⟩, ?_, ?_⟩
      · intro _ hh
        have := max_ge hh
        simp only [el] at this
        omega
      · simp only [true_iff]
        intro e'
        have := congrArg (fun p => p.elems.length) e'
        simp only [el] at this
        omega
      · simp only [el]
        have : castU64 ((limitMax ty : Nat) : Int) = limitMax ty := by unfold castU64; omega
        rw [if_pos this]
    · have e : min (limitMax ty) s.elems.length = s.elems.length := Nat.min_eq_right (by omega)
      rw [e, if_neg (by omega)]
      refine ⟨_, true, rfl, rfl, max_holds (by omega), ⟨[], by simp, by simp⟩, ?_, ?_⟩
      · simp only [true_iff]
        intro e'
        exact h' (congrArg PfxSeq.value e').symm
      · have : castU64 ((s.elems.length : Nat) : Int) = s.elems.length := by unfold castU64; omega
        simp only [this, if_true]

/-- **C117, lengths of lists** whose elements have no length of their own in front of them. -/
theorem C117_length_partial (ty : CppInt) (hw : ty.2 ≤ 64) (s : PfxSeq) (hv : CppHolds ty s.value) (hs : s.elems.sum < 2 ^ 63) :
    ∃ s' u, refreshLength 0 ty s = .done s' u ∧ s'.value = s'.elems.sum ∧ CppHolds ty s'.value ∧
      (∃ gone, s.elems = s'.elems ++ gone ∧ ∀ e rest, gone = e :: rest → ¬ CppHolds ty ((s'.elems ++ [e]).sum : Nat)) ∧ (u = true ↔ s' ≠ s) ∧
      refreshLength 0 ty s' = .done s' false := by
  have hr := ty_range hv hw
  unfold refreshLength
  simp only [listLength_zero]
  by_cases h : castU64 s.value = s.elems.sum
  · have h' := (cast_eq hr hs).1 h
    refine ⟨s, false, by simp only [h, if_true], h', hv, ⟨[], by simp, by simp⟩, by simp, by simp only [h, if_true]⟩
  · have h' : s.value ≠ s.elems.sum := fun e => h ((cast_eq hr hs).2 e)
    simp only [h, if_false]
    have er : s.elems.reverse.sum = s.elems.sum := List.sum_reverse s.elems
    obtain ⟨es, a, b, gone, c, d⟩ := drop_spec (min (limitMax ty) s.elems.sum) s.elems.reverse (by rw [er]; exact hs)
    rw [er] at a
    rw [a]
    have e1 : s.elems = es.reverse ++ gone.reverse := by
      have := congrArg List.reverse c
      simpa using this
    have e2 : es.reverse.sum = es.sum := List.sum_reverse es
    have hle : es.sum ≤ s.elems.sum := by
      have := congrArg List.sum e1
      simp only [List.sum_append, e2] at this
      omega
    refine ⟨_, true, rfl, by simp only [e2], max_holds (by omega), ⟨gone.reverse, e1, ?_⟩, ?_, ?_⟩
    · intro e rest hg hh
      have hgone : gone = rest.reverse ++ [e] := by
        have := congrArg List.reverse hg
        simpa using this
      have hd := d rest.length (by rw [hgone]; simp)
      rw [c, hgone] at hd
      have e3 : (rest.reverse ++ [e] ++ es).drop rest.length = e :: es := by
        rw [List.append_assoc, List.drop_append_of_le_length (by simp), List.drop_of_length_le (by simp)]
        simp
      rw [e3] at hd
      have := max_ge hh
      simp only [List.sum_append, List.sum_cons, List.sum_nil, e2] at this hd
      have h1 : (e + es.sum : Nat) ≤ s.elems.sum := by
        have := congrArg List.sum e1
        rw [hg] at this
        simp only [List.sum_append, List.sum_cons, e2] at this
        omega
      omega
    · simp only [true_iff]
      intro e'
      have v1 := congrArg PfxSeq.value e'
      have v2 := congrArg PfxSeq.elems e'
      simp only at v1 v2
      have := congrArg List.sum v2
      rw [e2] at this
      exact h' (by rw [← v1, this])
    · have : castU64 ((es.sum : Nat) : Int) = es.reverse.sum := by rw [e2]; unfold castU64; omega
      simp only [this, if_true]

/-- C117, lengths of lists: whatever is in front of the elements, the result is the length of the list if that is a value of the type of the prefix. -/
theorem C117_length_fits (per : Nat) (ty : CppInt) (hw : ty.2 ≤ 64) (s : PfxSeq) (hv : CppHolds ty s.value) (hs : listLength per s.elems < 2 ^ 63)
    (hf : CppHolds ty (listLength per s.elems)) : ∃ u, refreshLength per ty s = .done ⟨listLength per s.elems, s.elems⟩ u ∧ (u = true ↔ s.value ≠ listLength per s.elems) := by
  have hr := ty_range hv hw
  unfold refreshLength
  by_cases h : castU64 s.value = listLength per s.elems
  · have h' := (cast_eq hr hs).1 h
    refine ⟨false, ?_, by simp [h']⟩
    simp only [h, if_true]
    rw [← h']
  · have h' : s.value ≠ listLength per s.elems := fun e => h ((cast_eq hr hs).2 e)
    have hm : min (limitMax ty) (listLength per s.elems) = listLength per s.elems := Nat.min_eq_right (by have := max_ge hf; omega)
    simp only [h, if_false, hm]
    have : ∀ es, dropLoop (listLength per s.elems) es (listLength per s.elems) = some (es, listLength per s.elems) := by
      intro es; cases es <;> simp [dropLoop]
    rw [this]
    exact ⟨true, by simp, by simp [h']⟩

/-- C117, element lengths: without assertions the prefix has the length of the first element, or the largest number it can have. -/
theorem C117_element_unchecked (ty : CppInt) (hw : ty.2 ≤ 64) (s : PfxSeq) (hv : CppHolds ty s.value) (hs : s.elems.headD 0 < 2 ^ 63)
    (hf : CppHolds ty (s.elems.headD 0)) : ∃ u, refreshElemLength false ty s = .done ⟨s.elems.headD 0, s.elems⟩ u ∧ (u = true ↔ s.value ≠ s.elems.headD 0) := by
  have hr := ty_range hv hw
  unfold refreshElemLength
  by_cases h : castU64 s.value = s.elems.headD 0
  · have h' := (cast_eq hr hs).1 h
    refine ⟨false, ?_, by simp [h']⟩
    simp only [h, if_true]
    rw [← h']
  · have h' : s.value ≠ s.elems.headD 0 := fun e => h ((cast_eq hr hs).2 e)
    have hm : min (limitMax ty) (s.elems.headD 0) = s.elems.headD 0 := Nat.min_eq_right (by have := max_ge hf; omega)
    refine ⟨true, ?_, ⟨fun _ => h', fun _ => rfl⟩⟩
    simp only [h, if_false, hm, Bool.false_and, Bool.false_eq_true]

/-- C117, element lengths: with assertions the function stops for every list that has elements whenever the prefix has to be changed: the assertion compares a length with
    a number that is never larger. -/
theorem C117_element_witness (ty : CppInt) (s : PfxSeq) (hne : s.elems ≠ []) (hv : castU64 s.value ≠ s.elems.headD 0) : refreshElemLength true ty s = .asserted := by
  unfold refreshElemLength
  rw [if_neg hv]
  have h1 : s.elems.isEmpty = false := by
    cases he : s.elems with
    | nil => exact absurd he hne
    | cons => rfl
  have h2 : decide (s.elems.headD 0 < min (limitMax ty) (s.elems.headD 0)) = false := by
    rw [decide_eq_false_iff_not]
    have := Nat.min_le_right (limitMax ty) (s.elems.headD 0)
    omega
  simp only [h1, h2]
  rfl

example : refreshElemLength true (false, 8) ⟨0, [2, 2, 2]⟩ = .asserted := by decide
example : refreshCount (false, 8) ⟨0, [1, 1, 1]⟩ = .done ⟨3, [1, 1, 1]⟩ true := by decide
example : refreshLength 0 (true, 4) ⟨0, [3, 3, 3, 1]⟩ = .done ⟨6, [3, 3]⟩ true := by decide
example : CppHolds (true, 4) 0 ∧ listLength 1 [0, 2] = 4 ∧ CppHolds (true, 4) 4 := by simp [CppHolds, listLength]

open Sample in
/-- C117, elements with their own lengths: the number that is subtracted for an element that is dropped leaves its prefix out. 300 empty elements take 300 bytes, and
    after the last of them has been dropped there still seem to be too many: the function takes the last element of an empty list. -/
theorem C117_length_witness : (∃ f, Accepted f ∧ ∃ c st e p len, .list c st e .none .none (.own p) .none ∈ f.members ∧ st.elemFixedLength = false ∧ Detached (.list c st e .none .none (.own p) .none) .length "Len".toList ∧
      f.members.head? = some len ∧ len.name = "Len".toList ∧ NumField len (false, 8) ∧ Fld.minLength p = .ok 1 ∧ Fld.maxLength p = .ok 1) ∧
    refreshLength 1 (false, 8) ⟨0, List.replicate 300 0⟩ = .undefined := by
  refine ⟨?_, ?_⟩
  · obtain ⟨f, h1, h2⟩ := accepted env0_ok (parent := .top)
      (x := el "bundle" [("name", "x")] [el "int" [("name", "Len"), ("type", "uint8")],
        el "list" [("name", "Items"), ("lengthPrefix", "$Len"), ("elemFixedLength", "false")] [el "element" [] [el "string" [("name", "S")]],
          el "elemLengthPrefix" [] [el "int" [("name", "L"), ("type", "uint8")]]]])
      (p := fun f => match f.members with
        | [.int lc ls, .list _ st _ .none .none (.own p) .none] => decide (st.elemFixedLength = false) && (decide (st.detachedLen = "Len".toList) && (decide (lc.name = "Len".toList) &&
            (decide (ls.type = some .uint8) && (decide (IntF.maxLength ls = 1) && (isNum (Fld.minLength p) 1 && isNum (Fld.maxLength p) 1)))))
        | _ => false) (by decide +kernel)
    split at h2
    · rename_i lc ls c st e p hmem
      simp only [Bool.and_eq_true, decide_eq_true_eq] at h2
      obtain ⟨a1, a2, a3, a4, a5, a6, a7⟩ := h2
      refine ⟨f, h1, c, st, e, p, .int lc ls, by rw [hmem]; simp, a1, ?_, by rw [hmem]; rfl, a3, ?_, isNum_spec a6, isNum_spec a7⟩
      · rw [← a2]; exact .length
      · have := NumField.int (c := lc) (st := ls) a4
        rw [a5] at this
        exact this
    · simp at h2
  · decide +kernel

open Sample in
/-- C117, widths: the limit is that of the C++ type of the prefix, not of the bytes that are written. 300 bytes of data are left, and their number does not fit in the one
    byte the prefix takes. -/
theorem C117_width_witness : (∃ f, Accepted f ∧ ∃ len c st p, f.members = [len, .data c st p] ∧ Detached (.data c st p) .length len.name ∧ NumField len (false, 16) ∧
      Fld.maxLength len = .ok 1) ∧
    refreshCount (false, 16) ⟨0, List.replicate 300 1⟩ = .done ⟨300, List.replicate 300 1⟩ true := by
  refine ⟨?_, by decide +kernel⟩
  obtain ⟨f, h1, h2⟩ := accepted env0_ok (parent := .top)
    (x := el "bundle" [("name", "x")] [el "int" [("name", "Len"), ("type", "uint16"), ("length", "1")], el "data" [("name", "D"), ("lengthPrefix", "$Len")]])
    (p := fun f => match f.members with
      | [.int lc ls, .data _ st _] => decide (st.detached = lc.name) && (decide (ls.type = some .uint16) && (decide (IntF.maxLength ls = 1) && isNum (Fld.maxLength (.int lc ls)) 1))
      | _ => false) (by decide +kernel)
  split at h2
  · rename_i lc ls c st p hmem
    simp only [Bool.and_eq_true, decide_eq_true_eq] at h2
    obtain ⟨a1, a2, a3, a4⟩ := h2
    refine ⟨f, h1, .int lc ls, c, st, p, hmem, ?_, ?_, isNum_spec a4⟩
    · show Detached _ _ lc.name
      rw [← a1]; exact .data
    · have := NumField.int (c := lc) (st := ls) a2
      rw [a3] at this
      exact this
  · simp at h2

open Sample in
/-- C117, a shared prefix: the same field can be the length of two sequences. If their lengths are different every refresh tells that something has changed, and one of
    them always has a wrong length. -/
theorem C117_shared_witness : (∃ f, Accepted f ∧ ∃ len c st p c' st' p', f.members = [len, .data c st p, .data c' st' p'] ∧ Detached (.data c st p) .length len.name ∧
      Detached (.data c' st' p') .length len.name) ∧
    ∀ v, CppHolds (false, 8) v → refreshTwo (false, 8) v [1, 1] [1, 1, 1] = some (3, [1, 1], [1, 1, 1], true) := by
  refine ⟨?_, ?_⟩
  · obtain ⟨f, h1, h2⟩ := accepted env0_ok (parent := .top)
      (x := el "bundle" [("name", "x")] [el "int" [("name", "Len"), ("type", "uint8")], el "data" [("name", "D"), ("lengthPrefix", "$Len")],
        el "data" [("name", "E"), ("lengthPrefix", "$Len")]])
      (p := fun f => match f.members with
        | [len, .data _ st _, .data _ st' _] => decide (st.detached = len.name) && decide (st'.detached = len.name)
        | _ => false) (by decide +kernel)
    split at h2
    · rename_i len c st p c' st' p' hmem
      simp only [Bool.and_eq_true, decide_eq_true_eq] at h2
      exact ⟨f, h1, len, c, st, p, c', st', p', hmem, by rw [← h2.1]; exact .data, by rw [← h2.2]; exact .data⟩
    · simp at h2
  · intro v hv
    have h1 : 0 ≤ v ∧ v ≤ 255 := by simpa [CppHolds] using hv
    by_cases h : castU64 v = 2
    · have e : v = 2 := by unfold castU64 at h; omega
      subst e
      decide
    · have e : refreshCount (false, 8) ⟨v, [1, 1]⟩ = .done ⟨2, [1, 1]⟩ true := by
        unfold refreshCount
        simp only [List.length_cons, List.length_nil]
        rw [if_neg h]
        decide
      unfold refreshTwo
      rw [e]
      decide

end Commsdsl.Props
