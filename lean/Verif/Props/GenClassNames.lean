import Verif.Props.GenVersion
import Verif.Props.FieldMembers
import Verif.Props.MessageFields
import Verif.Props.FieldSeq
/-!
# C95: the classes of the fields in one scope have different names
-/
namespace Commsdsl.Props
open Commsdsl Spec Gen Fld Msg

namespace ClassNameProofs

theorem suffix_ne (x y : Str) : x ++ "Members".toList ≠ y ++ "Field".toList := by
  intro h
  have := congrArg (fun l : Str => l.reverse.head?) h
  simp only [List.reverse_append] at this
  have e : ("Members".toList.reverse ++ x.reverse).head? = ("Field".toList.reverse ++ y.reverse).head? := this
  have h1 : "Members".toList.reverse = ['s', 'r', 'e', 'b', 'm', 'e', 'M'] := by decide
  have h2 : "Field".toList.reverse = ['d', 'l', 'e', 'i', 'F'] := by decide
  rw [h1, h2] at e
  simp only [List.cons_append, List.head?_cons, Option.some.injEq] at e
  exact absurd e (by decide)

theorem self_ne (x s : Str) (h : s ≠ []) : x ++ s ≠ x := by
  intro e
  have := congrArg List.length e
  rw [List.length_append] at this
  have := List.length_pos_iff.2 h
  omega

theorem one_mem {g : GVer} {pl : Place} {f : Field} {s : Str} (h : s ∈ fieldClasses g pl f) :
    s = className f.name ∨ (s = className f.name ++ "Members".toList ∧ hasMembersStruct f = true) ∨ (s = className f.name ++ "Field".toList ∧ versionOpt g pl f = true) := by
  unfold fieldClasses at h
  rcases List.mem_append.1 h with h | h
  · split at h
    · exact Or.inr (Or.inl ⟨List.mem_singleton.1 h, by assumption⟩)
    · cases h
  · split at h
    · simp only [List.mem_cons, List.not_mem_nil, or_false] at h
      rcases h with h | h
      · exact Or.inr (Or.inr ⟨h, by assumption⟩)
      · exact Or.inl h
    · exact Or.inl (List.mem_singleton.1 h)

theorem one_nodup (g : GVer) (pl : Place) (f : Field) : (fieldClasses g pl f).Nodup := by
  have hF : className f.name ++ "Field".toList ≠ className f.name := self_ne _ _ (by decide)
  have hM : className f.name ++ "Members".toList ≠ className f.name := self_ne _ _ (by decide)
  have hFM := suffix_ne (className f.name) (className f.name)
  unfold fieldClasses
  generalize className f.name ++ "Members".toList = a at *
  generalize className f.name ++ "Field".toList = b at *
  generalize className f.name = c at *
  split <;> split <;> simp [List.nodup_cons, hF, hM, hFM]

/-- No class name of the fields is another one with `Members` or `Field` appended, where these are used. -/
def NoSuffixClash (g : GVer) (pl : Place) (ms : List Field) : Prop := ∀ a ∈ ms, ∀ b ∈ ms,
  (hasMembersStruct b = true → className a.name ≠ className b.name ++ "Members".toList) ∧ (versionOpt g pl b = true → className a.name ≠ className b.name ++ "Field".toList)

theorem disjoint {g : GVer} {pl : Place} {ms : List Field} (h : NoSuffixClash g pl ms) {a b : Field} (ha : a ∈ ms) (hb : b ∈ ms)
    (hn : className a.name ≠ className b.name) {s t : Str} (hs : s ∈ fieldClasses g pl a) (ht : t ∈ fieldClasses g pl b) : s ≠ t := by
  intro e
  subst e
  rcases one_mem hs with h1 | ⟨h1, h1'⟩ | ⟨h1, h1'⟩ <;> rcases one_mem ht with h2 | ⟨h2, h2'⟩ | ⟨h2, h2'⟩
  · exact hn (h1.symm.trans h2)
  · exact (h a ha b hb).1 h2' (h1.symm.trans h2)
  · exact (h a ha b hb).2 h2' (h1.symm.trans h2)
  · exact (h b hb a ha).1 h1' (h2.symm.trans h1)
  · exact hn (List.append_cancel_right (h1.symm.trans h2))
  · exact suffix_ne _ _ (h1.symm.trans h2)
  · exact (h b hb a ha).2 h1' (h2.symm.trans h1)
  · exact suffix_ne _ _ (h2.symm.trans h1)
  · exact hn (List.append_cancel_right (h1.symm.trans h2))

theorem all_ne {g : GVer} {pl : Place} {a : Field} (hn : className a.name ≠ "All".toList) {s : Str} (hs : s ∈ fieldClasses g pl a) : s ≠ "All".toList := by
  intro e
  subst e
  rcases one_mem hs with h | ⟨h, _⟩ | ⟨h, _⟩
  · exact hn h.symm
  · have := congrArg List.length h
    rw [List.length_append] at this
    have h1 : "All".toList.length = 3 := by decide
    have h2 : "Members".toList.length = 7 := by decide
    omega
  · have := congrArg List.length h
    rw [List.length_append] at this
    have h1 : "All".toList.length = 3 := by decide
    have h2 : "Field".toList.length = 5 := by decide
    omega

theorem flat_nodup {g : GVer} {pl : Place} : ∀ {ms : List Field}, NoSuffixClash g pl ms → (ms.map fun m => className m.name).Nodup →
    (ms.flatMap (fieldClasses g pl)).Nodup := by
  intro ms
  induction ms with
  | nil => intro _ _; exact List.nodup_nil
  | cons m ms ih =>
    intro h hn
    rw [List.map_cons, List.nodup_cons] at hn
    rw [List.flatMap_cons, List.nodup_append]
    refine ⟨one_nodup g pl m, ih (fun a ha b hb => h a (List.mem_cons_of_mem _ ha) b (List.mem_cons_of_mem _ hb)) hn.2, ?_⟩
    intro s hs t ht
    obtain ⟨b, hb, ht⟩ := List.mem_flatMap.1 ht
    refine disjoint h List.mem_cons_self (List.mem_cons_of_mem _ hb) (fun e => hn.1 ?_) hs ht
    rw [e]
    exact List.mem_map.2 ⟨b, hb, rfl⟩

theorem class_nodup : ∀ {ms : List Field}, (ms.map Field.name).Nodup → (∀ a ∈ ms, ∀ b ∈ ms, className a.name = className b.name → a.name = b.name) →
    (ms.map fun m => className m.name).Nodup := by
  intro ms
  induction ms with
  | nil => intro _ _; exact List.nodup_nil
  | cons m ms ih =>
    intro hn hi
    rw [List.map_cons, List.nodup_cons] at hn
    rw [List.map_cons, List.nodup_cons]
    refine ⟨fun hm => hn.1 ?_, ih hn.2 fun a ha b hb => hi a (List.mem_cons_of_mem _ ha) b (List.mem_cons_of_mem _ hb)⟩
    obtain ⟨b, hb, e⟩ := List.mem_map.1 hm
    exact List.mem_map.2 ⟨b, hb, hi b (List.mem_cons_of_mem _ hb) m List.mem_cons_self e⟩

theorem append_all {l : List Str} (h : l.Nodup) (hn : ∀ s ∈ l, s ≠ "All".toList) : (l ++ ["All".toList]).Nodup := by
  rw [List.nodup_append]
  refine ⟨h, by simp, ?_⟩
  intro s hs t ht
  rw [List.mem_singleton.1 ht]
  exact hn s hs

end ClassNameProofs
open ClassNameProofs

/-- What the schema has to keep to, which is not checked: the names of the fields differ in more than the case of the first letter, none is `all`, and none is another
    one followed by `Members` or `Field` where such a class is needed. -/
def NamesApart (g : GVer) (pl : Place) (ms : List Field) : Prop :=
  (∀ a ∈ ms, ∀ b ∈ ms, className a.name = className b.name → a.name = b.name) ∧ (∀ a ∈ ms, className a.name ≠ "All".toList) ∧
    ∀ a ∈ ms, ∀ b ∈ ms, (hasMembersStruct b = true → className a.name ≠ className b.name ++ "Members".toList) ∧
      (versionOpt g pl b = true → className a.name ≠ className b.name ++ "Field".toList)

/-- In the scope of the members of a bitfield, bundle or variant all declared names are different. -/
theorem C95_members_partial (g : GVer) (pl : Place) (f : Field) (ho : Obj f) (hk : f.kind = .bitfield ∨ f.kind = .bundle ∨ f.kind = .variant)
    (h : NamesApart g (.field f.since pl) f.members) : (memberClasses g pl f).Nodup := by
  have hn := C48_field_members_unique f ho
  have e : innerFields f = (f.members, ["All".toList]) := by
    cases f <;> simp [Field.kind] at hk <;> rfl
  unfold memberClasses
  rw [e]
  refine append_all (flat_nodup h.2.2 (class_nodup hn h.1)) ?_
  intro s hs
  obtain ⟨a, ha, hs⟩ := List.mem_flatMap.1 hs
  exact all_ne (h.2.1 a ha) hs

/-- In the scope of the fields of a message all declared names are different. -/
theorem C95_message_partial (g : GVer) (m : Message) (ha : AcceptedMsg m) (h : NamesApart g (.message m.w.since) m.fields) :
    (messageClasses g m.w.since m.fields).Nodup := by
  have hn := C48_message_fields_unique m ha
  unfold messageClasses
  refine append_all (flat_nodup h.2.2 (class_nodup hn h.1)) ?_
  intro s hs
  obtain ⟨a, ha, hs⟩ := List.mem_flatMap.1 hs
  exact all_ne (h.2.1 a ha) hs

/-- In the scope of the field of an `<optional>` or of the prefix of a `<string>` or `<data>` all declared names are different. -/
theorem C95_single (g : GVer) (pl : Place) (f : Field) (hk : f.kind = .optional ∨ f.kind = .string ∨ f.kind = .data) : (memberClasses g pl f).Nodup := by
  have key : ∀ s : Slot Field, ((ownSlot s).flatMap (fieldClasses g (.field f.since pl)) ++ []).Nodup := by
    intro s
    cases s with
    | own m =>
      unfold ownSlot
      rw [List.append_nil, List.flatMap_cons, List.flatMap_nil, List.append_nil]
      exact one_nodup _ _ _
    | _ => simp [ownSlot]
  cases f with
  | optional c st s cd => exact key s
  | string c st s => exact key s
  | data c st s => exact key s
  | _ => simp [Field.kind] at hk

/-- In the scope of the fields defined inside a `<list>` all declared names are different, if the generator accepts the list; what it does not look at is the element length
    prefix against the termination suffix, and names with `Members` or `Field` appended. -/
theorem C95_list_partial (g : GVer) (pl : Place) (c : Common) (st : ListState) (e n l el t : Slot Field) (ho : Obj (.list c st e n l el t))
    (hn : listNamesOk (.list c st e n l el t) = true) (ht : ∀ x y, el = .own x → t = .own y → className x.name ≠ className y.name)
    (hs : ∀ a ∈ (innerFields (.list c st e n l el t)).1, ∀ b ∈ (innerFields (.list c st e n l el t)).1,
      (hasMembersStruct b = true → className a.name ≠ className b.name ++ "Members".toList) ∧
        (versionOpt g (.field c.w.since pl) b = true → className a.name ≠ className b.name ++ "Field".toList)) :
    (memberClasses g pl (.list c st e n l el t)).Nodup := by
  have h1 := C65_list c st e n l el t ho
  unfold AtMostOne listEnds at h1
  simp only [List.pairwise_cons, List.mem_cons, List.not_mem_nil, or_false, forall_eq_or_imp, forall_eq, false_imp_iff, implies_true, and_true, List.Pairwise.nil] at h1
  obtain ⟨_, ⟨hnl, hnt⟩, hlt⟩ := h1
  unfold memberClasses
  show ((innerFields (.list c st e n l el t)).1.flatMap _ ++ []).Nodup
  rw [List.append_nil]
  refine flat_nodup hs ?_
  unfold listNamesOk at hn
  simp only [Bool.and_eq_true, Bool.not_eq_true'] at hn
  obtain ⟨a1, a2, a3, a4, a5, a6⟩ := hn
  have ne : ∀ {a b : Slot Field} {x y : Field}, sameClass a b = false → a = .own x → b = .own y → className x.name ≠ className y.name := by
    intro a b x y h ha hb
    subst ha hb
    unfold sameClass at h
    simpa using h
  have no : ∀ {a b : Slot Field} {x y : Field}, (a.has = true → b.has = true → False) → a = .own x → b = .own y → className x.name ≠ className y.name := by
    intro a b x y h ha hb
    subst ha hb
    exact fun _ => h rfl rfl
  have hnl' : n.has = true → l.has = true → False := fun h h' => hnl ⟨Or.inl h, Or.inl h'⟩
  have hnt' : n.has = true → t.has = true → False := fun h h' => hnt ⟨Or.inl h, Or.inl h'⟩
  have hlt' : l.has = true → t.has = true → False := fun h h' => hlt ⟨Or.inl h, Or.inl h'⟩
  have mem : ∀ {s : Slot Field} {x : Field}, x ∈ ownSlot s → s = .own x := by
    intro s x h
    cases s with
    | own m => rw [List.mem_singleton.1 h]
    | _ => cases h
  have step : ∀ (s : Slot Field) (L : List Field), (∀ x y, s = .own x → y ∈ L → className x.name ≠ className y.name) → (L.map fun m => className m.name).Nodup →
      ((ownSlot s ++ L).map fun m => className m.name).Nodup := by
    intro s L h hL
    cases s with
    | own m =>
      show (className m.name :: L.map fun m => className m.name).Nodup
      rw [List.nodup_cons]
      refine ⟨fun hm => ?_, hL⟩
      obtain ⟨y, hy, e⟩ := List.mem_map.1 hm
      exact h m y rfl hy e.symm
    | _ => exact hL
  refine step e _ ?_ (step n _ ?_ (step l _ ?_ (step el _ ?_ ?_)))
  · intro x y hx hy
    simp only [List.mem_append] at hy
    rcases hy with hy | hy | hy | hy
    · exact ne a1 hx (mem hy)
    · exact ne a2 hx (mem hy)
    · exact ne a3 hx (mem hy)
    · exact ne a6 hx (mem hy)
  · intro x y hx hy
    simp only [List.mem_append] at hy
    rcases hy with hy | hy | hy
    · exact no hnl' hx (mem hy)
    · exact ne a4 hx (mem hy)
    · exact no hnt' hx (mem hy)
  · intro x y hx hy
    simp only [List.mem_append] at hy
    rcases hy with hy | hy
    · exact ne a5 hx (mem hy)
    · exact no hlt' hx (mem hy)
  · intro x y hx hy
    exact ht x y hx (mem hy)
  · cases t <;> simp [ownSlot]

namespace ClassNameSample
open Sample
def i8 (n : String) (more : List (String × String) := []) : Xml := el "int" ([("name", n), ("type", "uint8")] ++ more)
def twice (l : List Str) : Bool := !decide l.Nodup
theorem twice_spec {l : List Str} (h : twice l = true) : ¬ l.Nodup := by unfold twice at h; simpa using h
end ClassNameSample
open ClassNameSample GenVersionSample

open Sample in
/-- A bundle with a field that some versions lack and a bundle inside: the hypotheses of `C95_members_partial`. -/
example : ∃ f, Spec.Accepted f ∧ f.kind = .bundle ∧ NamesApart gver (.field f.since .other) f.members ∧
    memberClasses gver .other f = ["XField".toList, "X".toList, "YMembers".toList, "Y".toList, "All".toList] := by
  obtain ⟨f, h1, h2⟩ := accepted env0_ok (parent := .top) (x := el "bundle" [("name", "b")] [i8 "x" [("sinceVersion", "2")], el "bundle" [("name", "y")] [i8 "z"]])
    (p := fun f => decide (f.kind = .bundle) && (decide (memberClasses gver .other f = ["XField".toList, "X".toList, "YMembers".toList, "Y".toList, "All".toList]) &&
      decide (f.members.map Field.name = ["x".toList, "y".toList]))) (by decide +kernel)
  simp only [Bool.and_eq_true, decide_eq_true_eq] at h2
  obtain ⟨e1, e2, e3⟩ := h2
  have hm : ∀ a ∈ f.members, a.name = "x".toList ∨ a.name = "y".toList := by
    intro a ha
    have : a.name ∈ f.members.map Field.name := List.mem_map.2 ⟨a, ha, rfl⟩
    rw [e3] at this
    simpa only [List.mem_cons, List.not_mem_nil, or_false] using this
  refine ⟨f, h1, e1, ⟨?_, ?_, ?_⟩, e2⟩
  · intro a ha b hb
    rcases hm a ha with h | h <;> rcases hm b hb with h' | h' <;> rw [h, h'] <;> decide
  · intro a ha
    rcases hm a ha with h | h <;> rw [h] <;> decide
  · intro a ha b hb
    rcases hm a ha with h | h <;> rcases hm b hb with h' | h' <;> rw [h, h'] <;> exact ⟨fun _ => by decide, fun _ => by decide⟩

open Sample in
/-- Refutation without `NamesApart`: accepted bundles in whose scopes a name is declared twice. (1) `x`, which some versions lack, and `xField`; (2) `all`; (3) `x` and `X`;
    (4) a bundle `x` and `xMembers`. -/
theorem C95_clash_witness :
    (∃ f, Spec.Accepted f ∧ f.members.map Field.name = ["x".toList, "xField".toList] ∧ ¬ (memberClasses gver .other f).Nodup) ∧
    (∃ f, Spec.Accepted f ∧ f.members.map Field.name = ["x".toList, "all".toList] ∧ ¬ (memberClasses gver .other f).Nodup) ∧
    (∃ f, Spec.Accepted f ∧ f.members.map Field.name = ["x".toList, "X".toList] ∧ ¬ (memberClasses gver .other f).Nodup) ∧
    (∃ f, Spec.Accepted f ∧ f.members.map Field.name = ["x".toList, "xMembers".toList] ∧ ¬ (memberClasses gver .other f).Nodup) := by
  refine ⟨?_, ?_, ?_, ?_⟩
  · obtain ⟨f, h1, h2⟩ := accepted env0_ok (parent := .top) (x := el "bundle" [("name", "b")] [i8 "x" [("sinceVersion", "2")], i8 "xField"])
      (p := fun f => decide (f.members.map Field.name = ["x".toList, "xField".toList]) && twice (memberClasses gver .other f)) (by decide +kernel)
    rw [Bool.and_eq_true] at h2
    exact ⟨f, h1, of_decide_eq_true h2.1, twice_spec h2.2⟩
  · obtain ⟨f, h1, h2⟩ := accepted env0_ok (parent := .top) (x := el "bundle" [("name", "b")] [i8 "x", i8 "all"])
      (p := fun f => decide (f.members.map Field.name = ["x".toList, "all".toList]) && twice (memberClasses gver .other f)) (by decide +kernel)
    rw [Bool.and_eq_true] at h2
    exact ⟨f, h1, of_decide_eq_true h2.1, twice_spec h2.2⟩
  · obtain ⟨f, h1, h2⟩ := accepted env0_ok (parent := .top) (x := el "bundle" [("name", "b")] [i8 "x", i8 "X"])
      (p := fun f => decide (f.members.map Field.name = ["x".toList, "X".toList]) && twice (memberClasses gver .other f)) (by decide +kernel)
    rw [Bool.and_eq_true] at h2
    exact ⟨f, h1, of_decide_eq_true h2.1, twice_spec h2.2⟩
  · obtain ⟨f, h1, h2⟩ := accepted env0_ok (parent := .top) (x := el "bundle" [("name", "b")] [el "bundle" [("name", "x")] [i8 "y"], i8 "xMembers"])
      (p := fun f => decide (f.members.map Field.name = ["x".toList, "xMembers".toList]) && twice (memberClasses gver .other f)) (by decide +kernel)
    rw [Bool.and_eq_true] at h2
    exact ⟨f, h1, of_decide_eq_true h2.1, twice_spec h2.2⟩

open Sample in
/-- Refutation for lists: an element length prefix and a termination suffix of the same name are accepted by parser and generator. -/
theorem C95_list_witness : ∃ f, Spec.Accepted f ∧ f.kind = .list ∧ listNamesOk f = true ∧ ¬ (memberClasses gver .other f).Nodup := by
  obtain ⟨f, h1, h2⟩ := accepted env0_ok (parent := .top) (x := el "list" [("name", "l")] [el "element" [] [i8 "a"], el "elemLengthPrefix" [] [i8 "x"],
      el "termSuffix" [] [i8 "X" [("defaultValue", "0"), ("validValue", "0"), ("failOnInvalid", "true")]]])
    (p := fun f => decide (f.kind = .list) && (listNamesOk f && twice (memberClasses gver .other f))) (by decide +kernel)
  simp only [Bool.and_eq_true] at h2
  exact ⟨f, h1, of_decide_eq_true h2.1, h2.2.1, twice_spec h2.2.2⟩

end Commsdsl.Props
