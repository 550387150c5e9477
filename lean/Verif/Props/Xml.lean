import Verif.Lemmas.Collect
import Verif.Lemmas.Sample
import Verif.Lemmas.FieldBody
import Verif.Props.Text
/-!
# C62: a property can be an attribute or a child element, and the order of attributes does not matter
-/
namespace Commsdsl.Props
open Commsdsl Text Fld Spec Same

namespace XmlProofs

theorem child_name {k v : Str} {c : Xml} (h : PropChild k v c) : c.name = k ∧ c.isElem = true := by
  cases h <;> exact ⟨rfl, rfl⟩

theorem child_value {k v : Str} {c : Xml} (h : PropChild k v c) (hne : v ≠ []) (htr : trim v = v) : nodeValue c true = some v := by
  have he : v.isEmpty = false := by cases v with | nil => exact absurd rfl hne | cons _ _ => rfl
  cases h with
  | value a ha =>
    have h1 : ((nodeProps (Xml.elem k [("value".toList, a)] [])).find valueAttr).getD [] = trim a := by
      simp [nodeProps, Xml.attrs, Props.find, valueAttr]
    have h2 : getText (Xml.elem k [("value".toList, a)] []) = [] := by simp [getText, Xml.children]
    unfold nodeValue
    simp only [h1, h2, ha, htr]
    have : trim [] = [] := rfl
    simp [he, this]
  | text t ht =>
    have h1 : ((nodeProps (Xml.elem k [] [Xml.text t])).find valueAttr).getD [] = [] := by
      simp [nodeProps, Xml.attrs, Props.find]
    have h2 : getText (Xml.elem k [] [Xml.text t]) = t := by simp [getText, Xml.children, Xml.isElem]
    have h3 : (trim t).isEmpty = false := by
      cases hq : trim t with
      | nil => rw [hq] at ht; exact absurd ht.symm hne
      | cons _ _ => rfl
    unfold nodeValue
    simp only [h1, h2]
    have : trim [] = [] := rfl
    simp [h3, this, ht]

theorem kids_other {names : List Str} {b : Bool} {nm : Str} {as as' : List (Str × Str)} {cs₁ cs₂ : List Xml} {c : Xml}
    (hne : names ≠ []) (h : c.name ∉ names) :
    getChildren (.elem nm as' (cs₁ ++ c :: cs₂)) names b = getChildren (.elem nm as (cs₁ ++ cs₂)) names b := by
  have h1 : names.isEmpty = false := by cases names with | nil => exact absurd rfl hne | cons _ _ => rfl
  have h2 : names.contains c.name = false := by simpa using h
  simp only [getChildren, Xml.children, List.filter_append, List.filter_cons, h1, h2, Bool.and_false, Bool.or_false, Bool.false_eq_true,
    if_false]

theorem no_types {nm : Str} {as : List (Str × Str)} {cs : List Xml} (h : NoDirectFields cs) : getChildren (.elem nm as cs) fieldTypes = [] := by
  refine List.filter_eq_nil_iff.2 fun c hc hp => ?_
  simp only [Bool.and_eq_true, Bool.or_eq_true, Bool.false_and, Bool.not_false, true_and, List.contains_iff_mem] at hp
  have h1 := h c hc hp.1
  rcases hp.2 with h2 | h2
  · cases h2
  · unfold fieldTypes at h2
    obtain ⟨e, he, h3⟩ := List.mem_map.1 h2
    unfold kindOf at h1
    rw [Option.map_eq_none_iff, List.find?_eq_none] at h1
    exact h1 e he (by simpa using h3)

theorem kids_eq {nm : Str} {as : List (Str × Str)} {cs : List Xml} : getChildren (.elem nm as cs) = cs.filter Xml.isElem :=
  getChildren_eq _

/-- The entry of a moved property. -/
theorem moved_props {k : Kind} {nm key v w : Str} {as₁ as₂ : List (Str × Str)} {cs₁ cs₂ : List Xml} {c : Xml}
    (hkey : key ∈ propsOf k) (hposs : key ∉ possibleProps k) (hx : ¬ (key ∈ commonProps ∧ key ∈ extraProps k))
    (hnw : NotWritten key (as₁ ++ as₂) (cs₁ ++ cs₂)) (hv : trim v = w) (hne : w ≠ [])
    (hcn : c.name = key) (hce : c.isElem = true) (hcv : nodeValue c true = some w) :
    (collectProps k (.elem nm (as₁ ++ as₂) (cs₁ ++ c :: cs₂)) = none ∧
      collectProps k (.elem nm (as₁ ++ (key, v) :: as₂) (cs₁ ++ cs₂)) = none) ∨
    ∃ p p', collectProps k (.elem nm (as₁ ++ (key, v) :: as₂) (cs₁ ++ cs₂)) = some p ∧
      collectProps k (.elem nm (as₁ ++ as₂) (cs₁ ++ c :: cs₂)) = some p' ∧ SameP p p' := by
  have hk1 : getChildren (.elem nm (as₁ ++ as₂) (cs₁ ++ c :: cs₂)) = cs₁.filter Xml.isElem ++ ([c] ++ cs₂.filter Xml.isElem) := by
    rw [kids_eq, List.filter_append, List.filter_cons, hce]
    rfl
  have hk2 : getChildren (.elem nm (as₁ ++ (key, v) :: as₂) (cs₁ ++ cs₂)) = cs₁.filter Xml.isElem ++ cs₂.filter Xml.isElem := by
    rw [kids_eq, List.filter_append]
  have hA : ∀ e ∈ nodeProps (Xml.elem nm as₁ []), e.1 ≠ key := by
    intro e he
    obtain ⟨a, ha, rfl⟩ := List.mem_map.1 he
    exact hnw.1 a (List.mem_append_left _ ha)
  have hB : ∀ e ∈ nodeProps (Xml.elem nm as₂ []), e.1 ≠ key := by
    intro e he
    obtain ⟨a, ha, rfl⟩ := List.mem_map.1 he
    exact hnw.1 a (List.mem_append_right _ ha)
  have hkid1 : ∀ {names mh p}, fromKids names mh (cs₁.filter Xml.isElem) = some p → ∀ e ∈ p, e.1 ≠ key := by
    intro names mh p h e he
    obtain ⟨_, c', hc', h2⟩ := fromKids_keys h e he
    rw [← h2]
    exact hnw.2 c' (List.mem_append_left _ (List.mem_filter.1 hc').1)
  have hkid2 : ∀ {names mh p}, fromKids names mh (cs₂.filter Xml.isElem) = some p → ∀ e ∈ p, e.1 ≠ key := by
    intro names mh p h e he
    obtain ⟨_, c', hc', h2⟩ := fromKids_keys h e he
    rw [← h2]
    exact hnw.2 c' (List.mem_append_right _ (List.mem_filter.1 hc').1)
  have hn1 : nodeProps (.elem nm (as₁ ++ (key, v) :: as₂) (cs₁ ++ cs₂)) =
      nodeProps (.elem nm as₁ []) ++ (key, w) :: nodeProps (.elem nm as₂ []) := by
    simp [nodeProps, Xml.attrs, hv]
  have hn2 : nodeProps (.elem nm (as₁ ++ as₂) (cs₁ ++ c :: cs₂)) = nodeProps (.elem nm as₁ []) ++ nodeProps (.elem nm as₂ []) := by
    simp [nodeProps, Xml.attrs]
  rw [collect_eq, collect_eq, hk1, hk2, hn1, hn2]
  generalize nodeProps (.elem nm as₁ []) = A at *
  generalize nodeProps (.elem nm as₂ []) = B at *
  simp only [fromKids_append]
  have hp : fromKids (possibleProps k) false [c] = some [] := fromKids_single_other (by rw [hcn]; exact hposs)
  rw [hp]
  rcases List.mem_append.1 hkey with hc | he
  · have h1 : fromKids commonProps true [c] = some [(key, w)] := by rw [← hcn] at hc; rw [fromKids_single hc hcv hne, hcn]
    have h2 : fromKids (extraProps k) true [c] = some [] := fromKids_single_other (by rw [hcn]; exact fun h => hx ⟨hc, h⟩)
    rw [h1, h2]
    cases ha1 : fromKids commonProps true (cs₁.filter Xml.isElem) with
    | none => exact .inl ⟨rfl, rfl⟩
    | some a1 =>
    cases ha2 : fromKids commonProps true (cs₂.filter Xml.isElem) with
    | none => exact .inl ⟨rfl, rfl⟩
    | some a2 =>
    cases hb1 : fromKids (extraProps k) true (cs₁.filter Xml.isElem) with
    | none => exact .inl ⟨rfl, rfl⟩
    | some b1 =>
    cases hb2 : fromKids (extraProps k) true (cs₂.filter Xml.isElem) with
    | none => exact .inl ⟨rfl, rfl⟩
    | some b2 =>
    cases hd1 : fromKids (possibleProps k) false (cs₁.filter Xml.isElem) with
    | none => exact .inl ⟨rfl, rfl⟩
    | some d1 =>
    cases hd2 : fromKids (possibleProps k) false (cs₂.filter Xml.isElem) with
    | none => exact .inl ⟨rfl, rfl⟩
    | some d2 =>
    refine .inr ⟨_, _, rfl, rfl, ?_⟩
    have := sameP_moved (a := A) (b := B ++ (a1 ++ a2) ++ (b1 ++ b2) ++ (d1 ++ d2)) (a' := A ++ B ++ a1)
      (b' := a2 ++ (b1 ++ b2) ++ (d1 ++ d2)) (k := key) (v := w) (by simp only [List.append_assoc]) hA
      (by
        intro e he
        rcases List.mem_append.1 he with he | he
        · rcases List.mem_append.1 he with he | he
          · exact hA e he
          · exact hB e he
        · exact hkid1 ha1 e he)
    simpa [List.append_assoc] using this
  · have h1 : fromKids commonProps true [c] = some [] := fromKids_single_other (by rw [hcn]; exact fun h => hx ⟨h, he⟩)
    have h2 : fromKids (extraProps k) true [c] = some [(key, w)] := by rw [← hcn] at he; rw [fromKids_single he hcv hne, hcn]
    rw [h1, h2]
    cases ha1 : fromKids commonProps true (cs₁.filter Xml.isElem) with
    | none => exact .inl ⟨rfl, rfl⟩
    | some a1 =>
    cases ha2 : fromKids commonProps true (cs₂.filter Xml.isElem) with
    | none => exact .inl ⟨rfl, rfl⟩
    | some a2 =>
    cases hb1 : fromKids (extraProps k) true (cs₁.filter Xml.isElem) with
    | none => exact .inl ⟨rfl, rfl⟩
    | some b1 =>
    cases hb2 : fromKids (extraProps k) true (cs₂.filter Xml.isElem) with
    | none => exact .inl ⟨rfl, rfl⟩
    | some b2 =>
    cases hd1 : fromKids (possibleProps k) false (cs₁.filter Xml.isElem) with
    | none => exact .inl ⟨rfl, rfl⟩
    | some d1 =>
    cases hd2 : fromKids (possibleProps k) false (cs₂.filter Xml.isElem) with
    | none => exact .inl ⟨rfl, rfl⟩
    | some d2 =>
    refine .inr ⟨_, _, rfl, rfl, ?_⟩
    have := sameP_moved (a := A) (b := B ++ (a1 ++ a2) ++ (b1 ++ b2) ++ (d1 ++ d2)) (a' := A ++ B ++ (a1 ++ a2) ++ b1)
      (b' := b2 ++ (d1 ++ d2)) (k := key) (v := w) (by simp only [List.append_assoc]) hA
      (by
        intro e he
        rcases List.mem_append.1 he with he | he
        · rcases List.mem_append.1 he with he | he
          · rcases List.mem_append.1 he with he | he
            · exact hA e he
            · exact hB e he
          · rcases List.mem_append.1 he with he | he
            · exact hkid1 ha1 e he
            · exact hkid2 ha2 e he
        · exact hkid1 hb1 e he)
    simpa [List.append_assoc] using this

theorem keys_ok : ∀ k : Kind, ∀ key ∈ propsOf k, key ∉ repeatable → (k = .ref ∧ key = "field".toList) ∨ (key ∉ structural ∧ key ∉ possibleProps k) := by
  intro k; cases k <;> decide

theorem keys_types : ∀ k : Kind, ∀ key ∈ propsOf k, key ∉ fieldTypes ∧ key ∉ bitfieldTypes ∧ key ∉ ["and".toList, "or".toList] ∧
    key ≠ "fields".toList ∧ ¬ (key ∈ commonProps ∧ key ∈ extraProps k) ∧ key ≠ "replace".toList := by
  intro k; cases k <;> decide

theorem direct_sub : ∀ s ∈ direct, s ∈ structural ∨ s = "fields".toList := by decide

/-- A reference reads nothing of its node but the replaced members. -/
theorem ref_same {n n' : Xml} (hk : kindOf n.name = some .ref) (hn : n'.name = n.name)
    (hr : getChildren n' ["replace".toList] = getChildren n ["replace".toList]) (env : FEnv)
    (pc : ParentInfo → Xml → Res Field) (parent : ParentInfo)
    (hp : (collectProps .ref n' = none ∧ collectProps .ref n = none) ∨
      ∃ p p', collectProps .ref n = some p ∧ collectProps .ref n' = some p' ∧ SameP p p') :
    parseStep env pc parent n' = parseStep env pc parent n := by
  unfold parseStep
  rw [hn, hk]
  rcases hp with ⟨h1, h2⟩ | ⟨p, p', h1, h2, hs⟩
  · have e1 : Res.ofOption (none : Option Props) = .err := rfl
    simp only [h1, h2, e1, Res.bind_err]
  · have e1 : Res.ofOption (some p) = .ok p := rfl
    have e2 : Res.ofOption (some p') = .ok p' := rfl
    have e3 : ∀ f, checkReplace env pc n' f = checkReplace env pc n f := fun f => by simp only [checkReplace, hr]
    simp only [h1, h2, e1, e2, Res.bind_ok, fld_checkReuse hs, e3, fld_updateCommon hs]
    cases hq : checkReuse env .ref p { inBitfield := parent.isBitfield } with
    | err => simp only [Res.bind_err]
    | ub => simp only [Res.bind_ub]
    | ok f =>
      simp only [Res.bind_ok]
      have hfk := checkReuse_kind hq
      obtain ⟨c, bl, t, rfl⟩ : ∃ c bl t, f = .ref c bl t := by cases f <;> simp [Field.kind] at hfk ⊢
      cases hq2 : checkReplace env pc n (.ref c bl t) with
      | err => simp only [Res.bind_err]
      | ub => simp only [Res.bind_ub]
      | ok g =>
        simp only [Res.bind_ok]
        have hg : g = .ref c bl t := by
          rcases checkReplace_ok hq2 with rfl | ⟨_, _, _, _, h⟩
          · rfl
          · simp [replaceImpl] at h
        subst hg
        have hb : ∀ c', parseBody env (bodyCtx pc parent n' p' .ref c') ((Field.ref c bl t).setCommon c') =
            parseBody env (bodyCtx pc parent n p .ref c') ((Field.ref c bl t).setCommon c') := by
          intro c'
          simp only [parseBody, Field.setCommon, refImpl, refBitLength, bodyCtx, BCtx.props, hs.find, hs.single, hs.getStr]
          rfl
        simp only [hb]

theorem normalise_ne {s : Str} (h : s ≠ []) : normalise s ≠ [] := by
  cases s with
  | nil => exact absurd rfl h
  | cons c cs =>
    unfold normalise normReplace
    rw [List.map_cons]
    generalize (if (c == '\t' || c == '\r' || c == '\n') = true then ' ' else c) = d
    unfold normSqueeze
    by_cases hd : d ≠ ' '
    · rw [if_pos hd]; exact List.cons_ne_nil _ _
    · rw [if_neg hd, if_neg (by simp)]; exact List.cons_ne_nil _ _

theorem nodeValue_ne {c : Xml} {v : Str} (h : nodeValue c true = some v) : v ≠ [] := by
  unfold nodeValue at h
  simp only at h
  split at h
  · split at h
    · rename_i h2; cases h2
    · cases h
  · rename_i h1
    split at h
    · cases h
    · split at h
      · rename_i h3
        cases h
        intro hv
        rw [hv] at h3
        cases h3
      · rename_i h3
        cases h
        refine normalise_ne fun hv => h1 ?_
        rw [hv]
        simpa using h3

/-- What is collected for a property that children must give a value for. -/
theorem fromKids_written {names : List Str} {cs : List Xml} {p : Props} (h : fromKids names true cs = some p) (key : Str)
    (hk : key ∈ names) :
    (p.filterMap fun e => if e.1 = key then some e.2 else none) = cs.filterMap fun c => if c.name = key then nodeValue c else none := by
  induction cs generalizing p with
  | nil =>
    cases Option.some.inj h
    rfl
  | cons c cs ih =>
    have ha := fromKids_append names true [c] cs
    rw [List.singleton_append, h] at ha
    obtain ⟨x, hx, hy'⟩ := Option.bind_eq_some_iff.1 ha.symm
    obtain ⟨y, hy, hxy⟩ := Option.map_eq_some_iff.1 hy'
    subst hxy
    rw [List.filterMap_append, ih hy, List.filterMap_cons]
    by_cases hc : c.name ∈ names
    · unfold fromKids childrenAsPropsLoop at hx
      have h1 : names.contains c.name = true := by simpa using hc
      simp only [h1, Bool.not_true, Bool.false_eq_true, if_false, if_true] at hx
      cases hv : nodeValue c true with
      | none => rw [hv] at hx; cases hx
      | some v =>
        rw [hv] at hx
        have hne := nodeValue_ne hv
        have h2 : v.isEmpty = false := by cases v with | nil => exact absurd rfl hne | cons _ _ => rfl
        simp only [h2, Bool.false_eq_true, if_false, childrenAsPropsLoop, List.nil_append] at hx
        cases Option.some.inj hx
        by_cases hcn : c.name = key
        · simp [hcn]
        · simp [hcn]
    · rw [fromKids_single_other hc] at hx
      cases Option.some.inj hx
      have : c.name ≠ key := fun h => hc (h ▸ hk)
      simp [this]

theorem count_filterMap (p : Props) (key : Str) : p.count key = (p.filterMap fun e => if e.1 = key then some e.2 else none).length := by
  unfold Props.count
  induction p with
  | nil => rfl
  | cons e p ih =>
    rw [List.countP_cons, ih, List.filterMap_cons]
    by_cases h : e.1 = key
    · simp [h]
    · simp [h]

theorem find_filterMap (p : Props) (key : Str) : p.find key = (p.filterMap fun e => if e.1 = key then some e.2 else none).head? := by
  unfold Props.find
  induction p with
  | nil => rfl
  | cons e p ih =>
    rw [List.find?_cons, List.filterMap_cons]
    by_cases h : e.1 = key
    · simp [h]
    · have : (e.1 == key) = false := by simpa using h
      simp only [this, h, if_false]
      exact ih

theorem kids_written {n : Xml} {names : List Str} {p : Props} (h : fromKids names true (getChildren n) = some p) {key : Str} (hk : key ∈ names) :
    (p.filterMap fun e => if e.1 = key then some e.2 else none) =
      n.children.filterMap fun c => if c.isElem = true ∧ c.name = key then nodeValue c else none := by
  rw [fromKids_written h key hk, getChildren_eq, List.filterMap_filter]
  congr 1
  funext c
  by_cases h1 : c.isElem = true
  · simp [h1]
  · simp [h1]

theorem other_nil {names : List Str} {mh : Bool} {cs : List Xml} {p : Props} (h : fromKids names mh cs = some p) {key : Str}
    (hk : key ∉ names) : (p.filterMap fun e => if e.1 = key then some e.2 else none) = [] := by
  rw [List.filterMap_eq_nil_iff]
  intro e he
  have := (fromKids_keys h e he).1
  rw [if_neg]
  exact fun h => hk (h ▸ this)

/-- What is collected is what is written. -/
theorem collected {k : Kind} {n : Xml} {p : Props} (h : collectProps k n = some p) {key : Str} (hk : key ∈ propsOf k)
    (hp : key ∉ possibleProps k) : (p.filterMap fun e => if e.1 = key then some e.2 else none) = written n key := by
  have hx := (keys_types k key hk).2.2.2.2.1
  rw [collect_eq] at h
  obtain ⟨a, ha, h⟩ := Option.bind_eq_some_iff.1 h
  obtain ⟨b, hb, h⟩ := Option.bind_eq_some_iff.1 h
  obtain ⟨c, hc, h⟩ := Option.map_eq_some_iff.1 h
  subst h
  have e0 : ((nodeProps n).filterMap fun e => if e.1 = key then some e.2 else none) =
      n.attrs.filterMap fun a => if a.1 = key then some (trim a.2) else none := by
    unfold nodeProps
    rw [List.filterMap_map]
    rfl
  unfold written
  simp only [List.filterMap_append, e0, other_nil hc hp, List.append_nil]
  rcases List.mem_append.1 hk with h1 | h1
  · rw [kids_written ha h1, other_nil hb fun h2 => hx ⟨h1, h2⟩, List.append_nil]
  · rw [kids_written hb h1, other_nil ha fun h2 => hx ⟨h2, h1⟩, List.append_nil]

theorem common_not_possible : ∀ k : Kind, ∀ key ∈ commonProps, key ∉ possibleProps k := by
  intro k; cases k <;> decide

theorem single_ok {p : Props} {key : Str} (h : p.validateSingle key = true) : p.count key ≤ 1 := by
  unfold Props.validateSingle at h
  split at h
  · cases h
  · omega

theorem updateBool_single {dsl : Nat} {p : Props} {key : Str} {b b' : Bool} (h : IntF.updateBool dsl p key b = .ok b') :
    p.validateSingle key = true := by
  unfold IntF.updateBool at h
  split at h
  · cases h
  · rename_i hq; simpa using hq

theorem deref_single {env : FEnv} {p : Props} {key cur s : Str} (h : derefProp env p key cur = .ok s) : p.validateSingle key = true := by
  unfold derefProp at h
  split at h
  · cases h
  · rename_i hq; simpa using hq

end XmlProofs

open XmlProofs

/-- A property of a field can be given as an attribute or as a child element, in any position among the other attributes and children:
    the parser does the same. `as₁ ++ as₂` and `cs₁ ++ cs₂` are the other attributes and children. Of `<validRange>` and the like (which add
    up) nothing is claimed here, and fields given directly as children (instead of in `<members>`, `<element>` or `<field>`) are excluded:
    see `C62_direct_witness`. -/
theorem C62_attribute_or_child_partial (env : FEnv) (fuel : Nat) (parent : ParentInfo) (k : Kind) (nm key v : Str)
    (as₁ as₂ : List (Str × Str)) (cs₁ cs₂ : List Xml) (c : Xml)
    (hkind : kindOf nm = some k) (hkey : key ∈ propsOf k) (hrep : key ∉ repeatable)
    (hv : trim v ≠ []) (hc : PropChild key (trim v) c)
    (honce : NotWritten key (as₁ ++ as₂) (cs₁ ++ cs₂)) (hdir : NoDirectFields (cs₁ ++ cs₂)) :
    parseField env fuel parent (.elem nm (as₁ ++ as₂) (cs₁ ++ c :: cs₂)) =
      parseField env fuel parent (.elem nm (as₁ ++ (key, v) :: as₂) (cs₁ ++ cs₂)) := by
  cases fuel with
  | zero => rfl
  | succ fuel =>
    obtain ⟨hcn, hce⟩ := child_name hc
    have hcv := child_value hc hv (C04_trim_idempotent v)
    obtain ⟨ht1, ht2, ht3, ht4, hx, ht5⟩ := keys_types k key hkey
    have hkid : ∀ s, key ≠ s → ∀ b, getChildren (.elem nm (as₁ ++ as₂) (cs₁ ++ c :: cs₂)) [s] b =
        getChildren (.elem nm (as₁ ++ (key, v) :: as₂) (cs₁ ++ cs₂)) [s] b := by
      intro s hs b
      exact kids_other (by simp) (by simpa [hcn] using hs)
    rcases keys_ok k key hkey hrep with ⟨rfl, rfl⟩ | ⟨hs, hposs⟩
    · refine ref_same (n := .elem nm (as₁ ++ ("field".toList, v) :: as₂) (cs₁ ++ cs₂))
        (n' := .elem nm (as₁ ++ as₂) (cs₁ ++ c :: cs₂)) hkind rfl (hkid _ ht5 _) env _ parent ?_
      exact moved_props hkey (by decide) hx honce rfl hv hcn hce hcv
    · refine parseStep_same (n := .elem nm (as₁ ++ (key, v) :: as₂) (cs₁ ++ cs₂))
        (n' := .elem nm (as₁ ++ as₂) (cs₁ ++ c :: cs₂)) ?_ rfl env _ parent ?_
      · refine ⟨fun s h => hkid s fun he => hs (he ▸ h), ?_, ?_, ?_, ?_, .inl (no_types hdir)⟩
        · exact kids_other (by decide) (by rw [hcn]; exact ht1)
        · exact kids_other (by decide) (by rw [hcn]; exact ht2)
        · exact kids_other (by decide) (by rw [hcn]; exact ht3)
        · intro s h
          have hne : s ≠ key := by
            rcases direct_sub s h with h | h
            · exact fun he => hs (he ▸ h)
            · exact fun he => ht4 (he ▸ h)
          have h1 : nodeProps (.elem nm (as₁ ++ (key, v) :: as₂) (cs₁ ++ cs₂)) =
              nodeProps (.elem nm as₁ []) ++ (key, trim v) :: nodeProps (.elem nm as₂ []) := by
            simp [nodeProps, Xml.attrs]
          have h2 : nodeProps (.elem nm (as₁ ++ as₂) (cs₁ ++ c :: cs₂)) = nodeProps (.elem nm as₁ []) ++ nodeProps (.elem nm as₂ []) := by
            simp [nodeProps, Xml.attrs]
          rw [h1, h2, find_insert, if_neg hne]
          intro e he
          obtain ⟨a, ha, rfl⟩ := List.mem_map.1 he
          exact honce.1 a (List.mem_append_left _ ha)
      · intro k' hk'
        cases Option.some.inj (hkind.symm.trans hk')
        exact moved_props hkey hposs hx honce rfl hv hcn hce hcv

/-- The order of the attributes of a field does not matter (XML does not allow two attributes of one name). -/
theorem C62_attribute_order (env : FEnv) (fuel : Nat) (parent : ParentInfo) (nm : Str) (as as' : List (Str × Str)) (cs : List Xml)
    (hp : as'.Perm as) (hn : (as.map Prod.fst).Nodup) :
    parseField env fuel parent (.elem nm as' cs) = parseField env fuel parent (.elem nm as cs) := by
  cases fuel with
  | zero => rfl
  | succ fuel =>
    have hsp : SameP (nodeProps (.elem nm as cs)) (nodeProps (.elem nm as' cs)) := by
      refine sameP_perm (hp.map _) ?_
      have : (nodeProps (.elem nm as cs)).map Prod.fst = as.map Prod.fst := by
        simp [nodeProps, Xml.attrs, Function.comp_def]
      rw [this]
      exact hn
    refine parseStep_same (n := .elem nm as cs) (n' := .elem nm as' cs) ⟨fun _ _ _ => rfl, rfl, rfl, rfl, fun s _ => hsp.find s, .inr rfl⟩ rfl env _ parent ?_
    intro k _
    rw [collect_eq, collect_eq]
    have hg : getChildren (.elem nm as' cs) = getChildren (.elem nm as cs) := rfl
    rw [hg]
    cases fromKids commonProps true (getChildren (.elem nm as cs)) with
    | none => exact .inl ⟨rfl, rfl⟩
    | some a =>
    cases fromKids (extraProps k) true (getChildren (.elem nm as cs)) with
    | none => exact .inl ⟨rfl, rfl⟩
    | some b =>
    cases fromKids (possibleProps k) false (getChildren (.elem nm as cs)) with
    | none => exact .inl ⟨rfl, rfl⟩
    | some c =>
    exact .inr ⟨_, _, rfl, rfl, sameP_append (sameP_append (sameP_append hsp))⟩

/-- Common properties that are rejected when given twice. -/
def onceOnly : List Str := [
  "name".toList, "displayName".toList, "description".toList, "sinceVersion".toList, "deprecated".toList, "removed".toList,
  "reuse".toList, "semanticType".toList, "pseudo".toList, "fixedValue".toList, "customizable".toList, "failOnInvalid".toList,
  "forceGen".toList, "valueOverride".toList, "readOverride".toList, "writeOverride".toList, "refreshOverride".toList,
  "lengthOverride".toList, "validOverride".toList, "nameOverride".toList, "copyCodeFrom".toList, "validateMinLength".toList]

/-- A field that gives a common property twice, in whatever form, is rejected. The full claim is about all properties: see
    `C62_repeated_witness`. -/
theorem C62_repeated_partial (env : FEnv) (fuel : Nat) (parent : ParentInfo) (n : Xml) (f : Field)
    (h : parseField env fuel parent n = .ok f) (key : Str) (hk : key ∈ onceOnly) : (written n key).length ≤ 1 := by
  obtain ⟨m, rfl, h⟩ := parseField_ok h
  obtain ⟨k, p, f1, f2, c, _, hp, hr, _, hc, _, _⟩ := parseStep_ok h
  have hsub : ∀ key ∈ onceOnly, key ∈ commonProps := by decide
  have hcp := hsub key hk
  rw [← collected hp (List.mem_append_left _ hcp) (common_not_possible k key hcp), ← count_filterMap]
  refine single_ok ?_
  have hreuse : p.validateSingle "reuse".toList = true := by
    unfold checkReuse at hr
    split at hr
    · cases hr
    · rename_i hq; simpa using hq
  unfold updateCommon at hc
  simp only [Res.bind_eq_ok, Res.ofOption_eq_ok] at hc
  obtain ⟨name, h1, disp, h2, descr, h3, w, h4, sem, h5, ps, h6, fv, h7, cu, h8, fo, h9, fg, h10, u, h11, code, h12, ml, h13, _⟩ := hc
  have h1' : p.validateSingle "name".toList = true := by
    unfold strProp at h1
    split at h1
    · cases h1
    · rename_i hq; simpa using hq
  have h4' : p.validateSingle "sinceVersion".toList = true ∧ p.validateSingle "deprecated".toList = true ∧
      p.validateSingle "removed".toList = true := by
    unfold Versions.fieldVersions at h4
    split at h4
    · cases h4
    · rename_i ha
      split at h4
      · cases h4
      · rename_i hb
        split at h4
        · cases h4
        · rename_i hc
          exact ⟨by simpa using ha, by simpa using hb, by simpa using hc⟩
  have h5' : p.validateSingle "semanticType".toList = true := by
    unfold updateSem at h5
    split at h5
    · cases h5
    · rename_i hq; simpa using hq
  have h12' : p.validateSingle "copyCodeFrom".toList = true := by
    unfold updateCopyCode at h12
    split at h12
    · cases h12
    · rename_i hq; simpa using hq
  have h13' : p.validateSingle "validateMinLength".toList = true := by
    unfold updateMinLen at h13
    split at h13
    · cases h13
    · rename_i hq; simpa using hq
  have h11' : ∀ s ∈ overrides, p.validateSingle s = true := by
    intro s hs
    have := List.all_eq_true.1 (Res.check_eq_ok.1 h11) s hs
    unfold overrideOk at this
    exact (Bool.and_eq_true_iff.1 this).1
  have hall : ∀ key ∈ onceOnly, key = "name".toList ∨ key = "displayName".toList ∨ key = "description".toList ∨
      key = "sinceVersion".toList ∨ key = "deprecated".toList ∨ key = "removed".toList ∨ key = "reuse".toList ∨
      key = "semanticType".toList ∨ key = "pseudo".toList ∨ key = "fixedValue".toList ∨ key = "customizable".toList ∨
      key = "failOnInvalid".toList ∨ key = "forceGen".toList ∨ key ∈ overrides ∨ key = "copyCodeFrom".toList ∨
      key = "validateMinLength".toList := by decide
  rcases hall key hk with rfl | rfl | rfl | rfl | rfl | rfl | rfl | rfl | rfl | rfl | rfl | rfl | rfl | h | rfl | rfl
  · exact h1'
  · exact deref_single h2
  · exact deref_single h3
  · exact h4'.1
  · exact h4'.2.1
  · exact h4'.2.2
  · exact hreuse
  · exact h5'
  · exact updateBool_single h6
  · exact updateBool_single h7
  · exact updateBool_single h8
  · exact updateBool_single h9
  · exact updateBool_single h10
  · exact h11' key h
  · exact h12'
  · exact h13'

/-- The name that is written is the name of the field. -/
theorem C62_name (env : FEnv) (fuel : Nat) (parent : ParentInfo) (n : Xml) (f : Field)
    (h : parseField env fuel parent n = .ok f) (s : Str) (hs : s ∈ written n "name".toList) (hne : s ≠ []) : f.name = s := by
  have hone := C62_repeated_partial env fuel parent n f h "name".toList (by decide)
  obtain ⟨m, rfl, h⟩ := parseField_ok h
  obtain ⟨k, p, f1, f2, c, _, hp, _, _, hc, hb, _⟩ := parseStep_ok h
  have hcp : "name".toList ∈ commonProps := by decide
  have hw := collected hp (List.mem_append_left _ hcp) (common_not_possible k _ hcp)
  have hf : p.find "name".toList = some s := by
    rw [find_filterMap, hw]
    cases hq : written n "name".toList with
    | nil => rw [hq] at hs; cases hs
    | cons x xs =>
      rw [hq] at hs hone
      cases xs with
      | nil => rw [List.mem_singleton.1 hs]; rfl
      | cons y ys => simp at hone
  unfold updateCommon at hc
  simp only [Res.bind_eq_ok, Res.ofOption_eq_ok, Res.pure_eq] at hc
  obtain ⟨name, h1, disp, h2, descr, h3, w, h4, sem, h5, ps, h6, fv, h7, cu, h8, fo, h9, fg, h10, u, h11, code, h12, ml, h13, hc⟩ := hc
  have hcn : c.name = s := by
    unfold strProp at h1
    split at h1
    · cases h1
    · rw [hf] at h1
      cases Res.ok.inj h1
      cases Res.ok.inj hc
      rfl
  show f.common.name = s
  by_cases hr : (f2.setCommon c).kind = .ref
  · obtain ⟨c', bl, t, hft⟩ : ∃ c' bl t, f2.setCommon c = .ref c' bl t := by
      cases hq : f2.setCommon c <;> rw [hq] at hr <;> simp [Field.kind] at hr ⊢
    have hcc : c' = c := by
      have := setCommon_common c f2
      rw [hft] at this
      exact this
    subst hcc
    rw [hft] at hb
    have hse : s.isEmpty = false := by cases s with | nil => exact absurd rfl hne | cons _ _ => rfl
    rcases refImpl_ok (by simpa [parseBody] using hb) with ⟨rfl, _⟩ | ⟨_, _, _, _, _, rfl⟩
    · exact hcn
    · simp only [Field.common, refCommon, hcn, hse, Bool.false_eq_true, if_false]
  · rw [(parseBody_common hb).2.2.2 hr, setCommon_common, hcn]

/-! ## Examples and witnesses -/

section Examples
open Sample

/-- The same field, written in three ways. -/
example : parseField env0 9 .top (el "int" [("type", "uint8")] [el "name" [("value", " A ")], el "validMin" [("value", "3")]]) =
    parseField env0 9 .top (el "int" [("name", "A "), ("type", "uint8")] [el "validMin" [("value", "3")]]) := by
  refine C62_attribute_or_child_partial env0 9 .top .int "int".toList "name".toList "A ".toList [] [("type".toList, "uint8".toList)] []
    [el "validMin" [("value", "3")]] _ (by decide) (by decide) (by decide) (by decide) ?_ ⟨?_, ?_⟩ ?_
  · exact .value _ (by decide)
  · decide
  · intro c hc; simp only [List.nil_append, List.mem_singleton] at hc; subst hc; decide
  · intro c hc _; simp only [List.nil_append, List.mem_singleton] at hc; subst hc; decide

example : okWith (parseField env0 9 .top (el "int" [("name", "A "), ("type", "uint8")] [el "validMin" [("value", "3")]]))
    (fun f => f.name == "A".toList) = true := by decide

/-- A property as child is not accepted beside a member given directly: ParseBundleFieldImpl.cpp:352-362 requires `<members>` then. -/
theorem C62_direct_witness :
    ∃ f, parseField env0 9 .top (el "bundle" [("name", "B")] [el "int" [("name", "A"), ("type", "uint8")]]) = .ok f ∧
      parseField env0 9 .top (el "bundle" [] [el "name" [("value", "B")], el "int" [("name", "A"), ("type", "uint8")]]) = .err := by
  have h1 : okWith (parseField env0 9 .top (el "bundle" [("name", "B")] [el "int" [("name", "A"), ("type", "uint8")]])) (fun _ => true) = true := by
    decide
  unfold okWith at h1
  split at h1
  · rename_i f hf
    refine ⟨f, hf, ?_⟩
    rfl
  · cases h1

/-- The default of a set can be given twice: the attribute wins silently (ParseSetFieldImpl.cpp:449-463 does not count). -/
theorem C62_repeated_witness :
    ∃ f, parseField env0 9 .top (el "set" [("name", "S"), ("length", "1"), ("defaultValue", "true")]
        [el "defaultValue" [("value", "false")], el "bit" [("name", "B"), ("idx", "0")]]) = .ok f ∧
      (written (el "set" [("name", "S"), ("length", "1"), ("defaultValue", "true")]
        [el "defaultValue" [("value", "false")], el "bit" [("name", "B"), ("idx", "0")]]) "defaultValue".toList).length = 2 := by
  have h1 : okWith (parseField env0 9 .top (el "set" [("name", "S"), ("length", "1"), ("defaultValue", "true")]
      [el "defaultValue" [("value", "false")], el "bit" [("name", "B"), ("idx", "0")]])) (fun _ => true) = true := by decide
  unfold okWith at h1
  split at h1
  · rename_i f hf
    exact ⟨f, hf, by decide⟩
  · cases h1

end Examples

end Commsdsl.Props
