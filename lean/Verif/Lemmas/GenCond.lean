import Verif.Spec.GenCond
import Verif.Props.CondRef
import Verif.Props.GenNum
import Verif.Props.GenSetNames
/-!
# Lemmas about generated conditions
-/
namespace Commsdsl.Props.GCond
open Commsdsl Text Fld Gen Spec
open CondProofs (J J_ne J_nil J_value J_split)

/-! ## Members -/

theorem entry_cons {α : Type} {n k : Str} {a : α} {l : List (Str × α)} : entry ((k, a) :: l) n = if k = n then some a else entry l n := by
  unfold entry
  by_cases h : k = n
  · subst h; simp
  · rw [List.find?_cons_of_neg (by simpa using h), if_neg h]

theorem members_find {g : GVer} {pl : Place} {ms : List Field} {os : List (Str × CObj)} {vs : List (Str × FVal)} {n : Str} {m : Field}
    (hf : ms.find? (fun x => x.name == n) = some m) (h : StoresMembers g pl ms os vs) :
    m.name = n ∧ ∃ o v, Stores g pl m o v ∧ entry os (accessName m.name) = some o ∧ entry vs n = some v := by
  induction ms generalizing os vs with
  | nil => simp at hf
  | cons a ms ih =>
    cases h with
    | @cons _ _ _ o v os vs hd ho hr =>
      by_cases hn : a.name = n
      · rw [List.find?_cons_of_pos (by simpa using hn)] at hf
        cases hf
        exact ⟨hn, o, v, ho, by rw [entry_cons, if_pos rfl], by rw [entry_cons, if_pos hn]⟩
      · rw [List.find?_cons_of_neg (by simpa using hn)] at hf
        obtain ⟨e, o', v', h1, h2, h3⟩ := ih hf hr
        refine ⟨e, o', v', h1, ?_, ?_⟩
        · rw [entry_cons, if_neg (fun e' => hd m (List.mem_of_find?_eq_some hf) e'.symm), h2]
        · rw [entry_cons, if_neg hn, h3]

section In
variable {g : GVer} {pl : Place} {ms : List Field} {n s : Str} {m : Field}

theorem valueAccIn_eq (hs : beforeDot s = n) (hf : ms.find? (fun x => x.name == n) = some m) :
    valueAccIn g pl ms s = (.member (accessName m.name) :: (valueAcc g pl m (afterDot s)).1, (valueAcc g pl m (afterDot s)).2) := by
  subst hs
  induction ms with
  | nil => simp at hf
  | cons a ms ih =>
    rw [valueAccIn]
    by_cases hn : a.name = beforeDot s
    · rw [List.find?_cons_of_pos (by simpa using hn)] at hf
      cases hf
      rw [if_pos hn]
      rfl
    · rw [List.find?_cons_of_neg (by simpa using hn)] at hf
      rw [if_neg hn, ih hf]

theorem sizeAccIn_eq (hs : beforeDot s = n) (hf : ms.find? (fun x => x.name == n) = some m) :
    sizeAccIn g pl ms s = (sizeAcc g pl m (afterDot s)).map fun r => (.member (accessName m.name) :: r.1, r.2) := by
  subst hs
  induction ms with
  | nil => simp at hf
  | cons a ms ih =>
    rw [sizeAccIn]
    by_cases hn : a.name = beforeDot s
    · rw [List.find?_cons_of_pos (by simpa using hn)] at hf
      cases hf
      rw [if_pos hn, sizeAcc, Option.map_map]
      rfl
    · rw [List.find?_cons_of_neg (by simpa using hn)] at hf
      rw [if_neg hn, ih hf]

theorem castIn_eq (hs : beforeDot s = n) (hf : ms.find? (fun x => x.name == n) = some m) :
    castIn g pl ms s = (castType g pl m (afterDot s)).map fun r => .member (accessName m.name) :: r := by
  subst hs
  induction ms with
  | nil => simp at hf
  | cons a ms ih =>
    rw [castIn]
    by_cases hn : a.name = beforeDot s
    · rw [List.find?_cons_of_pos (by simpa using hn)] at hf
      cases hf
      rw [if_pos hn, castType, Option.map_map]
      rfl
    · rw [List.find?_cons_of_neg (by simpa using hn)] at hf
      rw [if_neg hn, ih hf]

theorem checksIn_eq {pre : List Step} (hs : beforeDot s = n) (hf : ms.find? (fun x => x.name == n) = some m) :
    checksIn g pl ms s pre = checks g pl m (afterDot s) (pre ++ [.member (accessName m.name)]) := by
  subst hs
  induction ms with
  | nil => simp at hf
  | cons a ms ih =>
    rw [checksIn]
    by_cases hn : a.name = beforeDot s
    · rw [List.find?_cons_of_pos (by simpa using hn)] at hf
      cases hf
      rw [if_pos hn]
      rfl
    · rw [List.find?_cons_of_neg (by simpa using hn)] at hf
      rw [if_neg hn, ih hf]

theorem prepIn_eq {find : Str → Option Field} {k : Nat} {v : Str} (hs : beforeDot s = n) (hf : ms.find? (fun x => x.name == n) = some m) :
    prepValueIn find k ms s v = prepValue find k m (afterDot s) v := by
  subst hs
  induction ms with
  | nil => simp at hf
  | cons a ms ih =>
    rw [prepValueIn]
    by_cases hn : a.name = beforeDot s
    · rw [List.find?_cons_of_pos (by simpa using hn)] at hf
      cases hf
      rw [if_pos hn]
    · rw [List.find?_cons_of_neg (by simpa using hn)] at hf
      rw [if_neg hn, ih hf]

end In

/-! ## From a field to the field a reference means -/

/-- The accesses from `f` with the text `s` are the steps, then those from `h` with the text `w`; the existence of `cs` is checked first. -/
structure NavB (g : GVer) (pl : Place) (f : Field) (s : Str) (steps : List Step) (cs : List (List Step)) (pl' : Place) (h : Field) (w : Str) : Prop where
  val : valueAccImpl g pl f s = (steps ++ (valueAccImpl g pl' h w).1, (valueAccImpl g pl' h w).2)
  size : sizeAccImpl g pl f s = (sizeAccImpl g pl' h w).map fun r => (steps ++ r.1, r.2)
  cast : castImpl g pl f s = (castImpl g pl' h w).map (steps ++ ·)
  chk : ∀ pre, checksImpl g pl f s pre = cs.map (pre ++ ·) ++ checksImpl g pl' h w (pre ++ steps)

/-- The same with the wrapper for versions. -/
structure Nav (g : GVer) (pl : Place) (f : Field) (s : Str) (steps : List Step) (cs : List (List Step)) (pl' : Place) (h : Field) (w : Str) : Prop where
  val : valueAcc g pl f s = (steps ++ (valueAccImpl g pl' h w).1, (valueAccImpl g pl' h w).2)
  size : sizeAcc g pl f s = (sizeAccImpl g pl' h w).map fun r => (steps ++ r.1, r.2)
  cast : castType g pl f s = (castImpl g pl' h w).map (steps ++ ·)
  chk : ∀ pre, checks g pl f s pre = cs.map (pre ++ ·) ++ checksImpl g pl' h w (pre ++ steps)

/-- All of the accesses lead to optional fields that exist. -/
def AllThere (o : CObj) (cs : List (List Step)) : Prop := ∀ c ∈ cs, ∃ i, CObj.walk c o = some (.opt true i)

theorem AllThere.nil (o : CObj) : AllThere o [] := fun _ h => nomatch h

/-- The object `o` has inside, behind the steps, an object for the field `h` with the value `v`. -/
def ThereB (g : GVer) (pl : Place) (f : Field) (s : Str) (o : CObj) (h : Field) (w : Str) (v : FVal) : Prop :=
  ∃ steps cs pl' o', NavB g pl f s steps cs pl' h w ∧ StoresBody g pl' h o' v ∧ AllThere o cs ∧ CObj.walk steps o = some o'

def There (g : GVer) (pl : Place) (f : Field) (s : Str) (o : CObj) (h : Field) (w : Str) (v : FVal) : Prop :=
  ∃ steps cs pl' o', Nav g pl f s steps cs pl' h w ∧ StoresBody g pl' h o' v ∧ AllThere o cs ∧ CObj.walk steps o = some o'

/-- One of the checks fails, and those before do not. -/
def StopB (g : GVer) (pl : Place) (f : Field) (s : Str) (o : CObj) : Prop :=
  ∃ cs c i, AllThere o cs ∧ CObj.walk c o = some (.opt false i) ∧ ∀ pre, ∃ rest, checksImpl g pl f s pre = cs.map (pre ++ ·) ++ (pre ++ c) :: rest

def Stop (g : GVer) (pl : Place) (f : Field) (s : Str) (o : CObj) : Prop :=
  ∃ cs c i, AllThere o cs ∧ CObj.walk c o = some (.opt false i) ∧ ∀ pre, ∃ rest, checks g pl f s pre = cs.map (pre ++ ·) ++ (pre ++ c) :: rest

theorem walk_cons {s : Step} {r : List Step} {o o' : CObj} (h : o.step s = some o') : CObj.walk (s :: r) o = CObj.walk r o' := by
  simp only [CObj.walk, h]

theorem walk_append {a b : List Step} {o o' : CObj} (h : CObj.walk a o = some o') : CObj.walk (a ++ b) o = CObj.walk b o' := by
  induction a generalizing o with
  | nil => simp only [CObj.walk] at h; cases h; rfl
  | cons s r ih =>
    simp only [CObj.walk, List.cons_append] at h ⊢
    cases hs : o.step s with
    | none => rw [hs] at h; cases h
    | some o1 => rw [hs] at h; exact ih h

theorem nav_self {g : GVer} {pl : Place} {f : Field} {w : Str} : NavB g pl f w [] [] pl f w :=
  ⟨by simp, by cases sizeAccImpl g pl f w <;> simp, by cases castImpl g pl f w <;> simp, by simp⟩

section Wrap
variable {g : GVer} {pl : Place} {f : Field} {s w : Str} {h : Field} {o : CObj} {v : FVal}

/-- The wrapper for versions is there. -/
theorem there_layer (hv : versionOpt g pl f = true) (hb : ThereB g pl f s o h w v) : There g pl f s (.opt true o) h w v := by
  obtain ⟨steps, cs, pl', o', n, h1, h2, h3⟩ := hb
  have hl : layer g pl f = [.field] := by simp [layer, hv]
  refine ⟨.field :: steps, [] :: cs.map (.field :: ·), pl', o', ⟨?_, ?_, ?_, ?_⟩, h1, ?_, ?_⟩
  · simp [valueAcc, hl, n.val]
  · simp only [sizeAcc, hl, n.size, Option.map_map]; rfl
  · simp only [castType, hl, n.cast, Option.map_map]; rfl
  · intro pre; simp [checks, hl, hv, n.chk]
  · intro c hc
    rcases List.mem_cons.1 hc with rfl | hc
    · exact ⟨o, rfl⟩
    · obtain ⟨c', h, rfl⟩ := List.mem_map.1 hc
      rw [walk_cons (o' := o) rfl]
      exact h2 c' h
  · rw [walk_cons (o' := o) rfl, h3]

theorem stop_layer (hv : versionOpt g pl f = true) (hb : StopB g pl f s o) : Stop g pl f s (.opt true o) := by
  obtain ⟨cs, c, i, h1, h2, h3⟩ := hb
  have hl : layer g pl f = [.field] := by simp [layer, hv]
  refine ⟨[] :: cs.map (.field :: ·), .field :: c, i, ?_, ?_, ?_⟩
  · intro d hc
    rcases List.mem_cons.1 hc with rfl | hc
    · exact ⟨o, rfl⟩
    · obtain ⟨c', h, rfl⟩ := List.mem_map.1 hc
      rw [walk_cons (o' := o) rfl]
      exact h1 c' h
  · rw [walk_cons (o' := o) rfl, h2]
  · intro pre
    obtain ⟨rest, e⟩ := h3 (pre ++ [.field])
    exact ⟨rest, by simp [checks, hl, hv, e]⟩

theorem there_plain (hv : versionOpt g pl f = false) (hb : ThereB g pl f s o h w v) : There g pl f s o h w v := by
  obtain ⟨steps, cs, pl', o', n, h1, h2, h3⟩ := hb
  have hl : layer g pl f = [] := by simp [layer, hv]
  refine ⟨steps, cs, pl', o', ⟨?_, ?_, ?_, ?_⟩, h1, h2, h3⟩
  · simp [valueAcc, hl, n.val]
  · simp only [sizeAcc, hl, n.size, Option.map_map]; rfl
  · simp only [castType, hl, n.cast, Option.map_map]; rfl
  · intro pre; simp [checks, hl, hv, n.chk]

theorem stop_plain (hv : versionOpt g pl f = false) (hb : StopB g pl f s o) : Stop g pl f s o := by
  obtain ⟨cs, c, i, h1, h2, h3⟩ := hb
  have hl : layer g pl f = [] := by simp [layer, hv]
  refine ⟨cs, c, i, h1, h2, fun pre => ?_⟩
  obtain ⟨rest, e⟩ := h3 pre
  exact ⟨rest, by simp [checks, hl, hv, e]⟩

theorem stop_gone (hv : versionOpt g pl f = true) : Stop g pl f s (.opt false o) :=
  ⟨[], [], o, AllThere.nil _, rfl, fun pre => ⟨checksImpl g pl f s (pre ++ layer g pl f), by simp [checks, hv]⟩⟩

/-- From the body to the wrapped field. -/
theorem wrap {p : List Str} (hh : Stores g pl f o v)
    (hb : ∀ o v, StoresBody g pl f o v → ThereB g pl f s o h w (v.at p) ∨ (v.at p = .missing ∧ StopB g pl f s o)) :
    There g pl f s o h w (v.at p) ∨ (v.at p = .missing ∧ Stop g pl f s o) := by
  cases hh with
  | plain h0 h1 =>
    rcases hb _ _ h1 with h2 | ⟨h2, h3⟩
    · exact .inl (there_plain h0 h2)
    · exact .inr ⟨h2, stop_plain h0 h3⟩
  | there h0 h1 =>
    rcases hb _ _ h1 with h2 | ⟨h2, h3⟩
    · exact .inl (there_layer h0 h2)
    · exact .inr ⟨h2, stop_layer h0 h3⟩
  | gone h0 => exact .inr ⟨by cases p <;> rfl, stop_gone h0⟩

end Wrap

/-! ### One step -/

section Steps
variable {g : GVer} {pl pl2 : Place} {f m h : Field} {s s' w : Str} {o o2 : CObj} {v : FVal} {st : Step}

/-- From a field over one step to a field inside: `extra` tells whether the field itself is checked. -/
theorem there_step (extra : Bool) (hval : valueAccImpl g pl f s = (st :: (valueAcc g pl2 m s').1, (valueAcc g pl2 m s').2))
    (hsize : sizeAccImpl g pl f s = (sizeAcc g pl2 m s').map fun r => (st :: r.1, r.2))
    (hcast : castImpl g pl f s = (castType g pl2 m s').map fun r => st :: r)
    (hchk : ∀ pre, checksImpl g pl f s pre = (if extra then [pre] else []) ++ checks g pl2 m s' (pre ++ [st]))
    (hex : extra = true → ∃ i, o = .opt true i) (ho : o.step st = some o2) (hm : There g pl2 m s' o2 h w v) : ThereB g pl f s o h w v := by
  obtain ⟨steps, cs, pl', o', n, h1, h2, h3⟩ := hm
  refine ⟨st :: steps, (if extra then [[]] else []) ++ cs.map (st :: ·), pl', o', ⟨?_, ?_, ?_, ?_⟩, h1, ?_, ?_⟩
  · rw [hval, n.val]; rfl
  · rw [hsize, n.size, Option.map_map]; rfl
  · rw [hcast, n.cast, Option.map_map]; rfl
  · intro pre; rw [hchk, n.chk]; cases extra <;> simp
  · intro c hc
    rcases List.mem_append.1 hc with hc | hc
    · cases extra with
      | false => cases hc
      | true =>
        simp only [if_true, List.mem_singleton] at hc
        subst hc
        obtain ⟨i, rfl⟩ := hex rfl
        exact ⟨i, rfl⟩
    · obtain ⟨c', h, rfl⟩ := List.mem_map.1 hc
      rw [walk_cons ho]
      exact h2 c' h
  · rw [walk_cons ho, h3]

theorem stop_step (extra : Bool) (hchk : ∀ pre, checksImpl g pl f s pre = (if extra then [pre] else []) ++ checks g pl2 m s' (pre ++ [st]))
    (hex : extra = true → ∃ i, o = .opt true i) (ho : o.step st = some o2) (hm : Stop g pl2 m s' o2) : StopB g pl f s o := by
  obtain ⟨cs, c, i, h1, h2, h3⟩ := hm
  refine ⟨(if extra then [[]] else []) ++ cs.map (st :: ·), st :: c, i, ?_, by rw [walk_cons ho, h2], fun pre => ?_⟩
  · intro c hc
    rcases List.mem_append.1 hc with hc | hc
    · cases extra with
      | false => cases hc
      | true =>
        simp only [if_true, List.mem_singleton] at hc
        subst hc
        obtain ⟨i, rfl⟩ := hex rfl
        exact ⟨i, rfl⟩
    · obtain ⟨c', h, rfl⟩ := List.mem_map.1 hc
      rw [walk_cons ho]
      exact h1 c' h
  · obtain ⟨rest, e⟩ := h3 (pre ++ [st])
    exact ⟨rest, by rw [hchk, e]; cases extra <;> simp⟩

end Steps

/-- A reference has the class of its target. -/
theorem ref_eqs {g : GVer} {pl : Place} {c : Common} {b : Nat} {s : Slot Field} {t : Field} {w : Str} (ht : t ∈ s.toList) :
    valueAccImpl g pl (.ref c b s) w = valueAcc g .other t w ∧ sizeAccImpl g pl (.ref c b s) w = sizeAcc g .other t w ∧
    castImpl g pl (.ref c b s) w = castType g .other t w ∧ (∀ pre, checksImpl g pl (.ref c b s) w pre = checks g .other t w pre) ∧
    ∀ find n v, prepValue find n (.ref c b s) w v = prepValue find n t w v := by
  cases s <;> simp [Slot.toList] at ht <;> subst ht <;>
    simp [valueAccImpl, valueAccRef, valueAcc, sizeAccImpl, sizeAccRef, sizeAcc, castImpl, castRef, castType, checksImpl, checksRef, checks, prepValue,
      prepValueSlot]

theorem ref_step {g : GVer} {pl : Place} {c : Common} {b : Nat} {s : Slot Field} {t h : Field} {x w : Str} {o : CObj} {v : FVal} (ht : t ∈ s.toList)
    (hm : There g .other t x o h w v ∨ (v = .missing ∧ Stop g .other t x o)) :
    ThereB g pl (.ref c b s) x o h w v ∨ (v = .missing ∧ StopB g pl (.ref c b s) x o) := by
  obtain ⟨e1, e2, e3, e4, -⟩ := ref_eqs (g := g) (pl := pl) (c := c) (b := b) (w := x) ht
  rcases hm with ⟨steps, cs, pl', o', n, h1, h2, h3⟩ | ⟨h0, cs, d, i, h1, h2, h3⟩
  · exact .inl ⟨steps, cs, pl', o', ⟨by rw [e1, n.val], by rw [e2, n.size], by rw [e3, n.cast], fun pre => by rw [e4, n.chk]⟩, h1, h2, h3⟩
  · exact .inr ⟨h0, cs, d, i, h1, h2, fun pre => by rw [e4]; exact h3 pre⟩

theorem slot_mem {s : Slot Field} {a b : Field} (ha : a ∈ s.toList) (hb : b ∈ s.toList) : a = b := by
  cases s <;> simp [Slot.toList] at ha hb <;> rw [ha, hb]

/-- Along a path. -/
theorem nav_path {g : GVer} {f h : Field} {p : List Str} (hp : Path f p h) (hq : ∀ x ∈ p, CondProofs.Plain x) (w : Str) :
    ∀ {pl : Place} {o : CObj} {v : FVal}, StoresBody g pl f o v →
      ThereB g pl f (J p w) o h w (v.at p) ∨ (v.at p = .missing ∧ StopB g pl f (J p w) o) := by
  induction hp with
  | self => exact fun hb => .inl ⟨[], [], _, _, nav_self, hb, AllThere.nil _, rfl⟩
  | @member f m h n p hk hf _ ih =>
    intro pl o v hb
    have hn := hq n (by simp)
    have ih := @ih (fun x hx => hq x (by simp [hx]))
    obtain ⟨e1, e2, -⟩ := J_split (q := p) (w := w) hn
    have hne : (J (n :: p) w).isEmpty = false := by simpa using J_ne (q := p) (w := w) hn.1
    have key : ∀ (os : List (Str × CObj)) (vs : List (Str × FVal)), o = .tuple os → v = .members vs → StoresMembers g (inField pl f) f.members os vs →
        valueAccImpl g pl f (J (n :: p) w) = valueAccIn g (inField pl f) f.members (J (n :: p) w) →
        sizeAccImpl g pl f (J (n :: p) w) = sizeAccIn g (inField pl f) f.members (J (n :: p) w) →
        castImpl g pl f (J (n :: p) w) = castIn g (inField pl f) f.members (J (n :: p) w) →
        (∀ pre, checksImpl g pl f (J (n :: p) w) pre = checksIn g (inField pl f) f.members (J (n :: p) w) pre) →
        ThereB g pl f (J (n :: p) w) o h w (v.at (n :: p)) ∨ (v.at (n :: p) = .missing ∧ StopB g pl f (J (n :: p) w) o) := by
      intro os vs ho hv hms h1 h2 h3 h4
      obtain ⟨rfl, o2, v2, hh, ho2, hv2⟩ := members_find hf hms
      rw [valueAccIn_eq e1 hf, e2] at h1
      rw [sizeAccIn_eq e1 hf, e2] at h2
      rw [castIn_eq e1 hf, e2] at h3
      have h4' : ∀ pre, checksImpl g pl f (J (m.name :: p) w) pre = (if false then [pre] else []) ++ checks g (inField pl f) m (J p w) (pre ++ [.member (accessName m.name)]) := by
        intro pre; rw [h4, checksIn_eq e1 hf, e2]; rfl
      have hv3 : v.at (m.name :: p) = v2.at p := by rw [hv]; simp only [FVal.at, hv2]
      have hs : o.step (.member (accessName m.name)) = some o2 := by rw [ho]; exact ho2
      rw [hv3]
      rcases wrap (p := p) (s := J p w) (h := h) (w := w) hh (fun _ _ hb => ih hb) with t | ⟨t1, t2⟩
      · exact .inl (there_step false h1 h2 h3 h4' (by simp) hs t)
      · exact .inr ⟨t1, stop_step false h4' (by simp) hs t2⟩
    cases f with
    | bitfield c e ms cd =>
      cases hb with
      | bitfield hms =>
        exact key _ _ rfl rfl hms (by simp [valueAccImpl, hne, Field.members]) (by simp [sizeAccImpl, hne, Field.members]) (by simp [castImpl, hne, Field.members])
          (by simp [checksImpl, hne, Field.members])
    | bundle c ms al cd =>
      cases hb with
      | bundle hms =>
        exact key _ _ rfl rfl hms (by simp [valueAccImpl, hne, Field.members]) (by simp [sizeAccImpl, hne, Field.members]) (by simp [castImpl, hne, Field.members])
          (by simp [checksImpl, hne, Field.members])
    | variant => exact absurd rfl hk
    | _ => simp [Field.members] at hf
  | @target c b s t h p hpn ht _ ih =>
    intro pl o v hb
    cases hb with
    | ref ht' hh =>
      cases slot_mem ht ht'
      exact ref_step ht (wrap (p := p) hh (fun _ _ hb => ih hq hb))
  | @optional c st m h cd p _ ih =>
    intro pl o v hb
    have hn := hq m.name (by simp)
    have ih := @ih (fun x hx => hq x (by simp [hx]))
    obtain ⟨e1, e2, -⟩ := J_split (q := p) (w := w) hn
    have hne : (J (m.name :: p) w).isEmpty = false := by simpa using J_ne (q := p) (w := w) hn.1
    have h4 : ∀ pre, checksImpl g pl (.optional c st (.own m) cd) (J (m.name :: p) w) pre =
        (if true then [pre] else []) ++ checks g (inField pl (.optional c st (.own m) cd)) m (J p w) (pre ++ [.field]) := by
      intro pre; simp [checksImpl, hne, checksOpt, checks, e2]
    cases hb with
    | own hh =>
      rename_i o2 v2
      have hv3 : (FVal.members [(m.name, v2)]).at (m.name :: p) = v2.at p := by simp [FVal.at, entry]
      rw [hv3]
      rcases wrap (p := p) (s := J p w) (h := h) (w := w) hh (fun _ _ hb => ih hb) with t | ⟨t1, t2⟩
      · exact .inl (there_step true (by simp [valueAccImpl, hne, valueAccOpt, valueAcc, e2]) (by simp [sizeAccImpl, hne, sizeAccOpt, sizeAcc, e2, Function.comp_def])
          (by simp [castImpl, hne, castOpt, castType, e2, Function.comp_def]) h4 (fun _ => ⟨_, rfl⟩) rfl t)
      · exact .inr ⟨t1, stop_step true h4 (fun _ => ⟨_, rfl⟩) rfl t2⟩
    | none =>
      rename_i o2
      refine .inr ⟨rfl, [], [], o2, AllThere.nil _, rfl, fun pre =>
        ⟨checks g (inField pl (.optional c st (.own m) cd)) m (J p w) (pre ++ [.field]), by rw [h4]; simp⟩⟩

/-- Through references to the field that is meant. -/
theorem nav_follows {g : GVer} {h l : Field} (hf : Follows h l) (w : Str) :
    ∀ {pl : Place} {o : CObj} {v : FVal}, StoresBody g pl h o v → ThereB g pl h w o l w v ∨ (v = .missing ∧ StopB g pl h w o) := by
  induction hf with
  | self => exact fun hb => .inl ⟨[], [], _, _, nav_self, hb, AllThere.nil _, rfl⟩
  | @ref c b s t l ht _ ih =>
    intro pl o v hb
    cases hb with
    | ref ht' hh =>
      cases slot_mem ht ht'
      exact ref_step ht (wrap (p := []) hh (fun _ _ hb => ih hb))

/-- One after the other. -/
theorem nav_trans {g : GVer} {pl : Place} {f h l : Field} {s w : Str} {o : CObj} {v : FVal} (h1 : There g pl f s o h w v)
    (h2 : ∀ {pl' : Place} {o' : CObj}, StoresBody g pl' h o' v → ThereB g pl' h w o' l w v ∨ (v = .missing ∧ StopB g pl' h w o')) :
    There g pl f s o l w v ∨ (v = .missing ∧ Stop g pl f s o) := by
  obtain ⟨steps, cs, pl', o', n, hb, ha, hw⟩ := h1
  have lift : ∀ {ds : List (List Step)}, AllThere o' ds → AllThere o (cs ++ ds.map (steps ++ ·)) := by
    intro ds hd c hc
    rcases List.mem_append.1 hc with hc | hc
    · exact ha c hc
    · obtain ⟨d, h, rfl⟩ := List.mem_map.1 hc
      rw [walk_append hw]
      exact hd d h
  rcases h2 hb with ⟨steps2, ds, pl2, o2, n2, hb2, ha2, hw2⟩ | ⟨h0, ds, c, i, ha2, hc, h3⟩
  · refine .inl ⟨steps ++ steps2, cs ++ ds.map (steps ++ ·), pl2, o2, ⟨?_, ?_, ?_, ?_⟩, hb2, lift ha2, by rw [walk_append hw, hw2]⟩
    · rw [n.val, n2.val]; simp
    · rw [n.size, n2.size, Option.map_map]; congr 1; funext r; simp
    · rw [n.cast, n2.cast, Option.map_map]; congr 1; funext r; simp
    · intro pre; rw [n.chk, n2.chk]; simp
  · refine .inr ⟨h0, cs ++ ds.map (steps ++ ·), steps ++ c, i, lift ha2, by rw [walk_append hw, hc], fun pre => ?_⟩
    obtain ⟨rest, e⟩ := h3 (pre ++ steps)
    exact ⟨rest, by rw [n.chk, e]; simp⟩

theorem nav_all {g : GVer} {pl : Place} {f h l : Field} {p : List Str} {o : CObj} {v : FVal} (hh : Stores g pl f o v) (hp : Path f p h)
    (hq : ∀ x ∈ p, CondProofs.Plain x) (hl : Follows h l) (w : Str) :
    There g pl f (J p w) o l w (v.at p) ∨ (v.at p = .missing ∧ Stop g pl f (J p w) o) := by
  rcases wrap (p := p) hh (fun _ _ hb => nav_path hp hq w hb) with t | t
  · exact nav_trans t (fun hb => nav_follows hl w hb)
  · exact .inr t

/-- The text for a value is prepared by the field that is meant. -/
theorem prep_all {find : Str → Option Field} {f h l : Field} {p : List Str} (hp : Path f p h) (hq : ∀ x ∈ p, CondProofs.Plain x) (hl : Follows h l) (w : Str) (n : Nat) (v : Str) :
    prepValue find n f (J p w) v = prepValue find n l w v := by
  have h2 : prepValue find n h w v = prepValue find n l w v := by
    clear hp
    induction hl with
    | self => rfl
    | ref ht _ ih => rw [(ref_eqs (g := ⟨0, -1, 0, false⟩) (pl := .other) ht).2.2.2.2, ih]
  rw [← h2]
  clear h2 hl
  induction hp with
  | self => rfl
  | @member f m h k p hk hf _ ih =>
    have hn := hq k (by simp)
    obtain ⟨e1, e2, -⟩ := J_split (q := p) (w := w) hn
    have hne : (J (k :: p) w).isEmpty = false := by simpa using J_ne (q := p) (w := w) hn.1
    rw [← ih (fun x hx => hq x (by simp [hx])), ← e2]
    cases f with
    | bitfield => rw [prepValue, if_neg (by simp [hne]), prepIn_eq (s := J (k :: p) w) (m := m) e1 (by simpa only [Field.members] using hf)]
    | bundle => rw [prepValue, if_neg (by simp [hne]), prepIn_eq (s := J (k :: p) w) (m := m) e1 (by simpa only [Field.members] using hf)]
    | variant => exact absurd rfl hk
    | _ => simp [Field.members] at hf
  | target _ ht _ ih => rw [(ref_eqs (g := ⟨0, -1, 0, false⟩) (pl := .other) ht).2.2.2.2, ih hq]
  | @optional c st m h cd p _ ih =>
    have hn := hq m.name (by simp)
    obtain ⟨e1, e2, -⟩ := J_split (q := p) (w := w) hn
    have hne : (J (m.name :: p) w).isEmpty = false := by simpa using J_ne (q := p) (w := w) hn.1
    rw [← ih (fun x hx => hq x (by simp [hx])), ← e2, prepValue, if_neg (by simp [hne]), prepValueSlot]

end Commsdsl.Props.GCond
