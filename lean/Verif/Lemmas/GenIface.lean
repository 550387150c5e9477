import Verif.Spec.GenIface
import Verif.Props.GenCond
/-!
# Lemmas about conditions on the fields of interfaces
-/
namespace Commsdsl.Props.IfaceProofs
open Commsdsl Text Fld Gen Spec GCond
open CondProofs (J J_ne J_nil J_value J_split)

/-! ## The field that is found -/

theorem verifyIn_eq {ms : List Field} {n s : Str} {m : Field} (hs : beforeDot s = n) (hf : ms.find? (fun x => x.name == n) = some m) :
    verifyIn ms s = verifyInner m (afterDot s) := by
  subst hs
  induction ms with
  | nil => simp at hf
  | cons a ms ih =>
    rw [verifyIn]
    by_cases hn : a.name = beforeDot s
    · rw [List.find?_cons_of_pos (by simpa using hn)] at hf
      cases hf
      rw [if_pos hn]; rfl
    · rw [List.find?_cons_of_neg (by simpa using hn)] at hf
      rw [if_neg hn, ih hf]

theorem verify_ref {c : Common} {b : Nat} {s : Slot Field} {t : Field} {w : Str} (ht : t ∈ s.toList) (hw : w ≠ []) :
    verifyInner (.ref c b s) w = verifyInner t w := by
  have hw' : w.isEmpty = false := by simpa using hw
  cases s <;> simp [Slot.toList] at ht <;> subst ht <;> simp [verifyInner, verifyImpl, verifySlot, hw']

theorem innerIn_eq {ms : List Field} {n s : Str} {m : Field} (hs : beforeDot s = n) (hf : ms.find? (fun x => x.name == n) = some m) :
    innerIn ms s = innerField m (afterDot s) := by
  subst hs
  induction ms with
  | nil => simp at hf
  | cons a ms ih =>
    rw [innerIn]
    by_cases hn : a.name = beforeDot s
    · rw [List.find?_cons_of_pos (by simpa using hn)] at hf
      cases hf
      rw [if_pos hn]; rfl
    · rw [List.find?_cons_of_neg (by simpa using hn)] at hf
      rw [if_neg hn, ih hf]

theorem inner_ref {c : Common} {b : Nat} {s : Slot Field} {t : Field} {w : Str} (ht : t ∈ s.toList) (hw : w ≠ []) :
    innerField (.ref c b s) w = innerField t w := by
  have hw' : w.isEmpty = false := by simpa using hw
  cases s <;> simp [Slot.toList] at ht <;> subst ht <;> simp [innerField, innerImpl, innerSlot, hw']

/-- No field before the end of the path is an `<optional>`. -/
def Clear (f : Field) (p : List Str) : Prop := ∀ q1 q2 h c st sl cd, p = q1 ++ q2 → q2 ≠ [] → Path f q1 h → ¬ Follows h (.optional c st sl cd)

theorem Clear.member {f m : Field} {n : Str} {p : List Str} (h : Clear f (n :: p)) (hk : f.kind ≠ .variant)
    (hf : f.members.find? (fun x => x.name == n) = some m) : Clear m p := by
  intro q1 q2 h' c st sl cd e hne hp
  exact h (n :: q1) q2 h' c st sl cd (by rw [e]; rfl) hne (.member hk hf hp)

theorem Clear.target {c : Common} {b : Nat} {s : Slot Field} {t : Field} {p : List Str} (h : Clear (.ref c b s) p) (ht : t ∈ s.toList) : Clear t p := by
  intro q1 q2 h' c' st sl cd e hne hp hf
  by_cases hq : q1 = []
  · subst hq
    cases hp with
    | self => exact h [] q2 _ c' st sl cd e hne .self (.ref ht hf)
    | target hn _ _ => exact hn rfl
  · exact h q1 q2 h' c' st sl cd e hne (.target hq ht hp) hf

theorem verify_path {f h : Field} {p : List Str} (hp : Path f p h) (w : Str) (hq : ∀ x ∈ p, CondProofs.Plain x) (hc : Clear f p) :
    verifyInner f (J p w) = verifyInner h w := by
  induction hp with
  | self => rfl
  | @member f m h n p hk hf _ ih =>
    have hn := hq n (by simp)
    obtain ⟨e1, e2, -⟩ := J_split (q := p) (w := w) hn
    have hne : (J (n :: p) w).isEmpty = false := by simpa using J_ne (q := p) (w := w) hn.1
    rw [← ih (fun x hx => hq x (by simp [hx])) (hc.member hk hf), ← e2]
    cases f with
    | bitfield => rw [verifyInner, hne, Bool.false_or, verifyImpl, verifyIn_eq e1 (by simpa only [Field.members] using hf)]
    | bundle => rw [verifyInner, hne, Bool.false_or, verifyImpl, verifyIn_eq e1 (by simpa only [Field.members] using hf)]
    | variant => exact absurd rfl hk
    | _ => simp [Field.members] at hf
  | @target c b s t h p hpn ht _ ih =>
    cases p with
    | nil => exact absurd rfl hpn
    | cons n q => rw [verify_ref ht (J_ne (hq n (by simp)).1), ih hq (hc.target ht)]
  | @optional c st m h cd p _ _ => exact absurd (.self (by simp [Field.kind])) (hc [] _ _ c st (.own m) cd rfl (by simp) .self)

theorem inner_path {f h : Field} {p : List Str} (hp : Path f p h) (hq : ∀ x ∈ p, CondProofs.Plain x) (hc : Clear f p) : innerField f (J p []) = true := by
  induction hp with
  | self => rfl
  | @member f m h n p hk hf _ ih =>
    have hn := hq n (by simp)
    obtain ⟨e1, e2, -⟩ := J_split (q := p) (w := []) hn
    have hne : (J (n :: p) []).isEmpty = false := by simpa using J_ne (q := p) (w := []) hn.1
    rw [← ih (fun x hx => hq x (by simp [hx])) (hc.member hk hf), ← e2]
    cases f with
    | bitfield => rw [innerField, hne, Bool.false_or, innerImpl, innerIn_eq e1 (by simpa only [Field.members] using hf)]
    | bundle => rw [innerField, hne, Bool.false_or, innerImpl, innerIn_eq e1 (by simpa only [Field.members] using hf)]
    | variant => exact absurd rfl hk
    | _ => simp [Field.members] at hf
  | @target c b s t h p hpn ht _ ih =>
    cases p with
    | nil => exact absurd rfl hpn
    | cons n q => rw [inner_ref ht (J_ne (hq n (by simp)).1), ih hq (hc.target ht)]
  | @optional c st m h cd p _ _ => exact absurd (.self (by simp [Field.kind])) (hc [] _ _ c st (.own m) cd rfl (by simp) .self)

theorem verify_follows {h l : Field} {w : Str} (hf : Follows h l) (hw : w ≠ []) : verifyInner h w = verifyInner l w := by
  induction hf with
  | self => rfl
  | ref ht _ ih => rw [verify_ref ht hw, ih]

theorem join_snoc {p : List Str} {w : Str} (hp : p ≠ []) : joinDots p ++ '.' :: w = joinDots (p ++ [w]) := by
  induction p with
  | nil => exact absurd rfl hp
  | cons a p ih =>
    cases p with
    | nil => rfl
    | cons b p =>
      have := ih (by simp)
      simp only [joinDots, List.cons_append, List.append_assoc] at this ⊢
      rw [this]

/-- The text of the path, perhaps with the name of a bit behind. -/
theorem clear_of {fs : List Field} {n : Str} {q r : List Str} {m : Field} (hf : fs.find? (fun x => x.name == n) = some m) (hi : ∀ x ∈ n :: q, Identifier x)
    (ho : Outside fs (joinDots (n :: q ++ r))) : Clear m q := by
  rintro q1 q2 h c st sl cd rfl hne hp hl
  refine ho (n :: q1) (q2 ++ r) h c st sl cd (by simp) (by simp [hne]) ⟨fun x hx => hi x ?_, n, q1, m, rfl, hf, hp, hl⟩
  rcases List.mem_cons.1 hx with rfl | hx
  · simp
  · simp [hx]

theorem find_same {ifs : List (List Field)} {fs : List Field} (hs : Same ifs fs) {m : Field} {r : Str} (hr : r ≠ []) (hm : m ∈ fs) (hn : m.name = beforeDot r)
    (hv : verifyInner m (afterDot r) = true) : findIface ifs r = some m := by
  obtain ⟨h1, h2⟩ := hs
  have hr' : r.isEmpty = false := by simpa using hr
  induction ifs with
  | nil => cases h1
  | cons a ifs ih =>
    rw [findIface, if_neg (by simp [hr'])]
    cases e : a.find? fun f => f.name == beforeDot r && verifyInner f (afterDot r) with
    | some f =>
      have hp := List.find?_some e
      simp only [Bool.and_eq_true, beq_iff_eq] at hp
      dsimp only
      rw [h2 a (by simp) f (List.mem_of_find?_eq_some e) m hm (by rw [hp.1, hn])]
    | none =>
      dsimp only
      rcases List.mem_cons.1 h1 with rfl | h1
      · have := List.find?_eq_none.1 e m hm
        simp [hn, hv] at this
      · exact ih h1 fun fs' hfs => h2 fs' (by simp [hfs])

theorem findField_same {ifs : List (List Field)} {fs : List Field} (hs : Same ifs fs) {m : Field} {r : Str} (hm : m ∈ fs) (hn : m.name = beforeDot r)
    (hv : innerField m (afterDot r) = true) : findIfaceField ifs r = some m := by
  obtain ⟨h1, h2⟩ := hs
  induction ifs with
  | nil => cases h1
  | cons a ifs ih =>
    rw [findIfaceField]
    cases e : a.find? fun f => f.name == beforeDot r with
    | some f =>
      have hp := List.find?_some e
      simp only [beq_iff_eq] at hp
      dsimp only
      rw [h2 a (by simp) f (List.mem_of_find?_eq_some e) m hm (by rw [hp, hn]), if_pos hv]
    | none =>
      dsimp only
      rcases List.mem_cons.1 h1 with rfl | h1
      · have := List.find?_eq_none.1 e m hm
        simp [hn] at this
      · exact ih h1 fun fs' hfs => h2 fs' (by simp [hfs])

/-- The field a path begins with, for the read function. -/
theorem find_path {ifs : List (List Field)} {fs : List Field} (hs : Same ifs fs) {p : List Str} {h l : Field} (hp : PathTo fs p h l) (ho : Outside fs (joinDots p)) :
    findIface ifs (J p []) = findSib fs (J p []) := by
  obtain ⟨h1, n, q, m, rfl, hf, hpa, hl⟩ := hp
  have hq : ∀ x ∈ n :: q, CondProofs.Plain x := fun x hx => plain_of (h1 x hx)
  obtain ⟨e1, e2, -⟩ := J_split (q := q) (w := []) (hq n (by simp))
  have hc : Clear m q := clear_of (r := []) hf h1 (by simpa using ho)
  have hmn : m.name = n := by simpa using List.find?_some hf
  rw [find_same hs (J_ne (hq n (by simp)).1) (List.mem_of_find?_eq_some hf) (by rw [hmn, e1])
    (by rw [e2, verify_path hpa [] (fun x hx => hq x (by simp [hx])) hc]; rfl), findSib, e1, hf]

/-- The same with a name behind that stands for something inside the last field. -/
theorem find_path_inner {ifs : List (List Field)} {fs : List Field} (hs : Same ifs fs) {p : List Str} {h l : Field} {w : Str} (hp : PathTo fs p h l) (hw : w ≠ [])
    (hv : verifyInner l w = true) (ho : Outside fs (joinDots p ++ '.' :: w)) : findIface ifs (J p w) = findSib fs (J p w) := by
  obtain ⟨h1, n, q, m, rfl, hf, hpa, hl⟩ := hp
  have hq : ∀ x ∈ n :: q, CondProofs.Plain x := fun x hx => plain_of (h1 x hx)
  obtain ⟨e1, e2, -⟩ := J_split (q := q) (w := w) (hq n (by simp))
  have hc : Clear m q := clear_of (r := [w]) hf h1 (by rw [← join_snoc (by simp)]; exact ho)
  have hmn : m.name = n := by simpa using List.find?_some hf
  rw [find_same hs (J_ne (hq n (by simp)).1) (List.mem_of_find?_eq_some hf) (by rw [hmn, e1])
    (by rw [e2, verify_path hpa w (fun x hx => hq x (by simp [hx])) hc, verify_follows hl hw, hv]), findSib, e1, hf]

end Commsdsl.Props.IfaceProofs
