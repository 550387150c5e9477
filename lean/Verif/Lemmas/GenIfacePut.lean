import Verif.Lemmas.GenIface
import Verif.Lemmas.GenCondEval
/-!
# Lemmas about the statements of the constructor of a message
-/
namespace Commsdsl.Props.IfaceProofs
open Commsdsl Text Fld Gen Spec GCond
open CondProofs (J J_ne J_nil J_value J_split)

/-! ## Putting a value -/

theorem entry_set_eq {α : Type} {n : Str} {a b : α} {l : List (Str × α)} (h : entry l n = some b) : entry (setEntry n a l) n = some a := by
  induction l with
  | nil => simp [entry] at h
  | cons x l ih =>
    obtain ⟨k, c⟩ := x
    rw [entry_cons] at h
    rw [setEntry]
    by_cases hk : k = n
    · rw [if_pos hk, entry_cons, if_pos hk]
    · rw [if_neg hk] at h
      rw [if_neg hk, entry_cons, if_neg hk, ih h]

theorem entry_set_ne {α : Type} {n k : Str} {a : α} {l : List (Str × α)} (h : k ≠ n) : entry (setEntry n a l) k = entry l k := by
  induction l with
  | nil => rfl
  | cons x l ih =>
    obtain ⟨j, c⟩ := x
    rw [setEntry]
    by_cases hk : j = n
    · subst hk
      rw [if_pos rfl, entry_cons, entry_cons, if_neg (fun e => h e.symm), if_neg (fun e => h e.symm)]
    · rw [if_neg hk, entry_cons, entry_cons, ih]

/-- Puts a value at the end of a path. -/
def putV : List Str → FVal → FVal → FVal
  | [], new, _ => new
  | n :: p, new, .members ms => .members (setEntry n (match entry ms n with | some v => putV p new v | none => .missing) ms)
  | _ :: _, _, v => v

theorem at_cons_num {n : Str} {p : List Str} {v : FVal} (h : v.at (n :: p) ≠ .missing) :
    ∃ ms w, v = .members ms ∧ entry ms n = some w ∧ v.at (n :: p) = w.at p := by
  cases v with
  | members ms =>
    simp only [FVal.at] at h ⊢
    cases he : entry ms n with
    | none => rw [he] at h; exact absurd rfl h
    | some w => exact ⟨ms, w, rfl, he, rfl⟩
  | _ => exact absurd rfl h

theorem at_put_eq {p : List Str} {new : FVal} : ∀ {v : FVal}, v.at p ≠ .missing → (putV p new v).at p = new := by
  induction p with
  | nil => intro v _; rfl
  | cons n p ih =>
    intro v h
    obtain ⟨ms, w, rfl, hw, e⟩ := at_cons_num h
    rw [e] at h
    simp only [putV, FVal.at, hw, entry_set_eq hw]
    exact ih h

theorem at_put_ne {p : List Str} {new : FVal} : ∀ {q : List Str} {v : FVal} {x y : Int}, p ≠ q → v.at p = .num x → v.at q = .num y →
    (putV p new v).at q = .num y := by
  induction p with
  | nil =>
    intro q v x y hpq h1 h2
    cases q with
    | nil => exact absurd rfl hpq
    | cons m q =>
      obtain ⟨ms, w, rfl, -⟩ := at_cons_num (by rw [h2]; simp)
      cases h1
  | cons n p ih =>
    intro q v x y hpq h1 h2
    obtain ⟨ms, w, rfl, hw, e⟩ := at_cons_num (n := n) (p := p) (v := v) (by rw [h1]; simp)
    cases q with
    | nil => cases h2
    | cons m q =>
      by_cases hm : m = n
      · subst hm
        rw [e] at h1
        simp only [FVal.at, hw] at h2
        simp only [putV, FVal.at, hw, entry_set_eq hw]
        exact ih (fun e => hpq (by rw [e])) h1 h2
      · simp only [FVal.at] at h2
        simp only [putV, FVal.at, entry_set_ne hm]
        exact h2

/-! ## The object and the value together -/

theorem members_put {g : GVer} {pl : Place} {ms : List Field} {os : List (Str × CObj)} {vs : List (Str × FVal)} {n : Str} {m : Field} {o2 : CObj} {v2 : FVal}
    (hf : ms.find? (fun x => x.name == n) = some m) (h : StoresMembers g pl ms os vs) (h2 : Stores g pl m o2 v2) :
    StoresMembers g pl ms (setEntry (accessName m.name) o2 os) (setEntry n v2 vs) := by
  induction ms generalizing os vs with
  | nil => simp at hf
  | cons a ms ih =>
    cases h with
    | @cons _ _ _ o v os vs hd ho hr =>
      by_cases hn : a.name = n
      · rw [List.find?_cons_of_pos (by simpa using hn)] at hf
        cases hf
        rw [setEntry, setEntry, if_pos rfl, if_pos hn]
        exact .cons hd h2 hr
      · rw [List.find?_cons_of_neg (by simpa using hn)] at hf
        rw [setEntry, setEntry, if_neg (fun e' => hd m (List.mem_of_find?_eq_some hf) e'.symm), if_neg hn]
        exact .cons hd ho (ih hf hr)

/-- Access from the field `f` with the text `s` to the field `l` at the end of the path `p`. -/
structure UpdB (g : GVer) (pl : Place) (f : Field) (s : Str) (p : List Str) (o : CObj) (v : FVal) (pl' : Place) (l : Field) (steps : List Step) (o' : CObj) : Prop where
  val : valueAccImpl g pl f s = (steps ++ (valueAccImpl g pl' l []).1, (valueAccImpl g pl' l []).2)
  cast : castImpl g pl f s = (castImpl g pl' l []).map (steps ++ ·)
  walk : CObj.walk steps o = some o'
  body : StoresBody g pl' l o' (v.at p)
  put : ∀ o2 v2, StoresBody g pl' l o2 v2 → StoresBody g pl f (CObj.put steps o2 o) (putV p v2 v)

/-- The same with the wrapper for versions. -/
structure Upd (g : GVer) (pl : Place) (f : Field) (s : Str) (p : List Str) (o : CObj) (v : FVal) (pl' : Place) (l : Field) (steps : List Step) (o' : CObj) : Prop where
  val : valueAcc g pl f s = (steps ++ (valueAccImpl g pl' l []).1, (valueAccImpl g pl' l []).2)
  cast : castType g pl f s = (castImpl g pl' l []).map (steps ++ ·)
  walk : CObj.walk steps o = some o'
  body : StoresBody g pl' l o' (v.at p)
  put : ∀ o2 v2, StoresBody g pl' l o2 v2 → Stores g pl f (CObj.put steps o2 o) (putV p v2 v)

theorem upd_wrap {g : GVer} {pl : Place} {f l : Field} {s : Str} {p : List Str} {o : CObj} {v : FVal} (hh : Stores g pl f o v) (hv : v.at p ≠ .missing)
    (hb : ∀ o, StoresBody g pl f o v → ∃ pl' steps o', UpdB g pl f s p o v pl' l steps o') : ∃ pl' steps o', Upd g pl f s p o v pl' l steps o' := by
  cases hh with
  | plain h0 h1 =>
    obtain ⟨pl', steps, o', u⟩ := hb _ h1
    have hl : layer g pl f = [] := by simp [layer, h0]
    exact ⟨pl', steps, o', by simp [valueAcc, hl, u.val], by simp only [castType, hl, u.cast, Option.map_map]; rfl, u.walk, u.body,
      fun o2 v2 h => .plain h0 (u.put o2 v2 h)⟩
  | @there _ _ o _ h0 h1 =>
    obtain ⟨pl', steps, o', u⟩ := hb _ h1
    have hl : layer g pl f = [.field] := by simp [layer, h0]
    exact ⟨pl', .field :: steps, o', by simp [valueAcc, hl, u.val], by simp only [castType, hl, u.cast, Option.map_map]; rfl, by rw [walk_cons (o' := o) rfl, u.walk],
      u.body, fun o2 v2 h => by rw [CObj.put]; exact .there h0 (u.put o2 v2 h)⟩
  | gone h0 => exact absurd (by cases p <;> rfl) hv

theorem upd_ref {g : GVer} {pl : Place} {c : Common} {b : Nat} {s : Slot Field} {t l : Field} {x : Str} {p : List Str} {o : CObj} {v : FVal} (ht : t ∈ s.toList)
    (hm : ∃ pl' steps o', Upd g .other t x p o v pl' l steps o') : ∃ pl' steps o', UpdB g pl (.ref c b s) x p o v pl' l steps o' := by
  obtain ⟨e1, -, e3, -, -⟩ := ref_eqs (g := g) (pl := pl) (c := c) (b := b) (w := x) ht
  obtain ⟨pl', steps, o', u⟩ := hm
  exact ⟨pl', steps, o', by rw [e1, u.val], by rw [e3, u.cast], u.walk, u.body, fun o2 v2 h => .ref ht (u.put o2 v2 h)⟩

theorem upd_follows {g : GVer} {h l : Field} (hf : Follows h l) : ∀ {pl : Place} {o : CObj} {v : FVal}, v ≠ .missing → StoresBody g pl h o v →
    ∃ pl' steps o', UpdB g pl h [] [] o v pl' l steps o' := by
  induction hf with
  | @self f =>
    intro pl o v _ hb
    exact ⟨pl, [], o, by simp, by cases castImpl g pl f [] <;> simp, rfl, hb, fun o2 v2 h => h⟩
  | @ref c b s t l ht _ ih =>
    intro pl o v hv hb
    cases hb with
    | ref ht' hh =>
      cases slot_mem ht ht'
      exact upd_ref ht (upd_wrap hh hv fun o hb => ih hv hb)

theorem upd_path {g : GVer} {f h l : Field} {p : List Str} (hp : Path f p h) (hl : Follows h l) (hq : ∀ x ∈ p, CondProofs.Plain x) (hc : Clear f p) :
    ∀ {pl : Place} {o : CObj} {v : FVal}, v.at p ≠ .missing → StoresBody g pl f o v → ∃ pl' steps o', UpdB g pl f (J p []) p o v pl' l steps o' := by
  induction hp with
  | self => exact fun hv hb => upd_follows hl hv hb
  | @member f m h n p hk hf _ ih =>
    intro pl o v hv hb
    have hn := hq n (by simp)
    have ih := @ih hl (fun x hx => hq x (by simp [hx])) (hc.member hk hf)
    obtain ⟨e1, e2, -⟩ := J_split (q := p) (w := []) hn
    have hne : (J (n :: p) []).isEmpty = false := by simpa using J_ne (q := p) (w := []) hn.1
    have key : ∀ (os : List (Str × CObj)) (vs : List (Str × FVal)), o = .tuple os → v = .members vs → StoresMembers g (inField pl f) f.members os vs →
        valueAccImpl g pl f (J (n :: p) []) = valueAccIn g (inField pl f) f.members (J (n :: p) []) →
        castImpl g pl f (J (n :: p) []) = castIn g (inField pl f) f.members (J (n :: p) []) →
        (∀ os' vs', StoresMembers g (inField pl f) f.members os' vs' → StoresBody g pl f (.tuple os') (.members vs')) →
        ∃ pl' steps o', UpdB g pl f (J (n :: p) []) (n :: p) o v pl' l steps o' := by
      intro os vs ho hvs hms h1 h3 hmk
      obtain ⟨rfl, o2, v2, hh, ho2, hv2⟩ := members_find hf hms
      rw [valueAccIn_eq e1 hf, e2] at h1
      rw [castIn_eq e1 hf, e2] at h3
      have hv3 : v.at (m.name :: p) = v2.at p := by rw [hvs]; simp only [FVal.at, hv2]
      rw [hv3] at hv
      obtain ⟨pl', steps, o', u⟩ := upd_wrap (s := J p []) (l := l) hh hv (fun o hb => ih hv hb)
      refine ⟨pl', .member (accessName m.name) :: steps, o', by rw [h1, u.val]; rfl, by rw [h3, u.cast, Option.map_map]; rfl, ?_, by rw [hv3]; exact u.body, ?_⟩
      · rw [walk_cons (o' := o2) (by rw [ho]; exact ho2), u.walk]
      · intro o3 v3 h
        rw [ho, hvs]
        simp only [CObj.put, putV, ho2, hv2]
        exact hmk _ _ (members_put hf hms (u.put o3 v3 h))
    cases f with
    | bitfield c e ms cd =>
      cases hb with
      | bitfield hms =>
        exact key _ _ rfl rfl hms (by simp [valueAccImpl, hne, Field.members]) (by simp [castImpl, hne, Field.members]) fun _ _ h => .bitfield h
    | bundle c ms al cd =>
      cases hb with
      | bundle hms =>
        exact key _ _ rfl rfl hms (by simp [valueAccImpl, hne, Field.members]) (by simp [castImpl, hne, Field.members]) fun _ _ h => .bundle h
    | variant => exact absurd rfl hk
    | _ => simp [Field.members] at hf
  | @target c b s t h p hpn ht _ ih =>
    intro pl o v hv hb
    cases hb with
    | ref ht' hh =>
      cases slot_mem ht ht'
      exact upd_ref ht (upd_wrap hh hv fun o hb => ih hl hq (hc.target ht) hv hb)
  | @optional c st m h cd p _ _ => exact absurd (.self (by simp [Field.kind])) (hc [] _ _ c st (.own m) cd rfl (by simp) .self)

/-- From the fields of the interface. -/
theorem upd_root {g : GVer} {pl : Place} {ifs : List (List Field)} {fs : List Field} {os : List (Str × CObj)} {vs : List (Str × FVal)} {p : List Str} {h l : Field}
    (hs : Same ifs fs) (hm : StoresMembers g pl fs os vs) (hp : PathTo fs p h l) (ho : Outside fs (joinDots p)) (hv : (FVal.members vs).at p ≠ .missing) :
    ∃ m pl' steps o', findIfaceField ifs (joinDots p) = some m ∧
      valueAcc g pl m (afterDot (joinDots p)) = (steps ++ (valueAccImpl g pl' l []).1, (valueAccImpl g pl' l []).2) ∧
      castType g pl m (afterDot (joinDots p)) = (castImpl g pl' l []).map (steps ++ ·) ∧
      (∀ find k r, prepValue find k m (afterDot (joinDots p)) r = prepValue find k l [] r) ∧
      objAt os ⟨accessName m.name, steps⟩ = some o' ∧ StoresBody g pl' l o' ((FVal.members vs).at p) ∧
      ∀ o2 v2, StoresBody g pl' l o2 v2 → ∃ vs', StoresMembers g pl fs (putAt os ⟨accessName m.name, steps⟩ o2) vs' ∧
        FVal.members vs' = putV p v2 (.members vs) := by
  obtain ⟨h1, n, q, m, rfl, hf, hpa, hl⟩ := hp
  have hq : ∀ x ∈ n :: q, CondProofs.Plain x := fun x hx => plain_of (h1 x hx)
  have hq' : ∀ x ∈ q, CondProofs.Plain x := fun x hx => hq x (by simp [hx])
  obtain ⟨e1, e2, -⟩ := J_split (q := q) (w := []) (hq n (by simp))
  have hc : Clear m q := clear_of (r := []) hf h1 (by simpa using ho)
  have hmn : m.name = n := by simpa using List.find?_some hf
  obtain ⟨-, o, v, hh, hob, hvb⟩ := members_find hf hm
  have hv3 : (FVal.members vs).at (n :: q) = v.at q := by simp only [FVal.at, hvb]
  rw [hv3] at hv ⊢
  obtain ⟨pl', steps, o', u⟩ := upd_wrap (s := J q []) (l := l) hh hv (fun o hb => upd_path hpa hl hq' hc hv hb)
  rw [← J_nil hq]
  refine ⟨m, pl', steps, o', findField_same hs (List.mem_of_find?_eq_some hf) (by rw [hmn, e1]) (by rw [e2, inner_path hpa hq' hc]), by rw [e2, u.val],
    by rw [e2, u.cast], fun find k r => by rw [e2, prep_all hpa hq' hl], by simp only [objAt, hob, u.walk], u.body, fun o2 v2 h => ⟨setEntry n (putV q v2 v) vs, ?_, ?_⟩⟩
  · simp only [putAt, hob]
    exact members_put hf hm (u.put o2 v2 h)
  · simp only [putV, hvb]

/-! ## Statements -/

theorem exec_one {env e1 e2 : List (Str × CObj)} {s : Stmt} (h1 : Exec env s e1) (h2 : Exec env s e2) : e1 = e2 := by
  cases h1 with
  | bit a1 b1 c1 d1 =>
    cases h2 with
    | bit a2 b2 c2 d2 =>
      rw [a1] at a2
      cases a2
      cases c1 _ b2
      congr 2
      exact Nat.eq_of_testBit_eq fun j => by rw [d1, d2]
  | num a1 p1 v1 =>
    cases h2 with
    | num a2 p2 v2 =>
      rw [a1] at a2
      cases a2
      obtain ⟨-, rfl⟩ := parse_one (x := []) (x' := []) p1 p2 rfl (by simp [Ends]) (by simp [Ends])
      cases eval_one v1 v2
      rfl
    | set a2 p2 v2 => rw [a1] at a2; cases a2
  | set a1 p1 v1 =>
    cases h2 with
    | num a2 p2 v2 => rw [a1] at a2; cases a2
    | set a2 p2 v2 =>
      rw [a1] at a2
      cases a2
      obtain ⟨-, rfl⟩ := parse_one (x := []) (x' := []) p1 p2 rfl (by simp [Ends]) (by simp [Ends])
      cases eval_one v1 v2
      rfl

theorem execAll_one {env e1 e2 : List (Str × CObj)} {s : List Stmt} (h1 : ExecAll env s e1) (h2 : ExecAll env s e2) : e1 = e2 := by
  induction h1 with
  | nil => cases h2; rfl
  | cons a _ ih =>
    cases h2 with
    | cons b c => cases exec_one a b; exact ih c

theorem execAll_append {env e1 e2 : List (Str × CObj)} {s t : List Stmt} (h1 : ExecAll env s e1) (h2 : ExecAll e1 t e2) : ExecAll env (s ++ t) e2 := by
  induction h1 with
  | nil => exact h2
  | cons a _ ih => exact .cons a (ih h2)

/-- Setting a bit. -/
theorem set_bit (x i w : Nat) (b : Bool) (hx : x < 2 ^ w) (hi : i < w) : ∃ x', x' < 2 ^ w ∧ ∀ j, x'.testBit j = if j = i then b else x.testBit j := by
  by_cases h : x.testBit i = b
  · exact ⟨x, hx, fun j => by split <;> simp_all⟩
  · refine ⟨x ^^^ 2 ^ i, Nat.xor_lt_two_pow hx (Nat.pow_lt_pow_right (by decide) hi), fun j => ?_⟩
    rw [Nat.testBit_xor, Nat.testBit_two_pow]
    by_cases hj : j = i
    · subst hj
      cases b <;> simp_all
    · rw [if_neg hj]
      have : decide (i = j) = false := by simpa using fun e : i = j => hj e.symm
      rw [this, Bool.xor_false]

theorem splitLast_dot {a n : Str} (hn : '.' ∉ n) : splitLast (a ++ '.' :: n) = (a, n) := by
  have h : ∀ c ∈ n.reverse, (c != '.') = true := by
    intro c hc
    simp only [bne_iff_ne, ne_eq]
    rintro rfl
    exact hn (List.mem_reverse.1 hc)
  have e : (a ++ '.' :: n).reverse = n.reverse ++ '.' :: a.reverse := by simp
  rw [splitLast, e, List.takeWhile_append_of_pos h, List.dropWhile_append_of_pos h]
  simp

end Commsdsl.Props.IfaceProofs
