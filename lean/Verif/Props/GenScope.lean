import Verif.Spec.GenScope
import Verif.Lemmas.Protocol
import Verif.Props.ProtocolCalls
import Verif.Props.Protocol
/-!
# C55, C56: files and namespaces of generated code
-/
namespace Commsdsl.Props
open Commsdsl Text Fld Msg Frm Proto Gen Spec

/-! ## C55 -/

theorem snoc_ind {α : Type} {P : List α → Prop} (h0 : P []) (hs : ∀ l x, P l → P (l ++ [x])) (l : List α) : P l := by
  have : ∀ r : List α, P r.reverse := by
    intro r
    induction r with
    | nil => exact h0
    | cons x r ih => rw [List.reverse_cons]; exact hs _ _ ih
  simpa using this l.reverse

theorem joinWith_append (sep : Str) (l : List Str) (x : Str) (h : l ≠ []) : joinWith sep (l ++ [x]) = joinWith sep l ++ sep ++ x := by
  induction l using joinWith.induct with
  | case1 => exact absurd rfl h
  | case2 a => simp [joinWith]
  | case3 a b r ih =>
    have := ih (by simp)
    simp only [List.cons_append, joinWith] at this ⊢
    rw [this]; simp

theorem sep_inj {c : Char} {a b x y : Str} (ha : c ∉ a) (hb : c ∉ b) (h : a ++ c :: x = b ++ c :: y) : a = b ∧ x = y := by
  induction a generalizing b with
  | nil =>
    cases b with
    | nil => simpa using h
    | cons d t => simp only [List.nil_append, List.cons_append, List.cons.injEq] at h; exact absurd (by simp [h.1]) hb
  | cons e s ih =>
    cases b with
    | nil => simp only [List.nil_append, List.cons_append, List.cons.injEq] at h; exact absurd (by simp [h.1]) ha
    | cons d t =>
      simp only [List.cons_append, List.cons.injEq] at h
      have := ih (fun hm => ha (by simp [hm])) (fun hm => hb (by simp [hm])) h.2
      exact ⟨by rw [h.1, this.1], this.2⟩

theorem join_inj {c : Char} {l l' : List Str} (hl : l ≠ []) (hl' : l' ≠ []) (h : ∀ a ∈ l, c ∉ a) (h' : ∀ a ∈ l', c ∉ a)
    (he : joinWith [c] l = joinWith [c] l') : l = l' := by
  induction l using joinWith.induct generalizing l' with
  | case1 => exact absurd rfl hl
  | case2 a =>
    match l', hl' with
    | [b], _ => simpa [joinWith] using he
    | b :: d :: r, _ =>
      exfalso
      apply h a (by simp)
      simp only [joinWith] at he; rw [he]; simp
  | case3 a b r ih =>
    match l', hl' with
    | [d], _ =>
      exfalso
      apply h' d (by simp)
      simp only [joinWith] at he; rw [← he]; simp
    | d :: e :: r', _ =>
      simp only [joinWith, List.append_assoc, List.singleton_append] at he
      obtain ⟨h1, h2⟩ := sep_inj (h a (by simp)) (h' d (by simp)) he
      have := ih (by simp) (by simp : (e :: r') ≠ []) (fun x hx => h x (by simp [hx])) (fun x hx => h' x (by simp [hx])) h2
      rw [h1, this]

theorem join_ne (sep : Str) {l : List Str} (hl : ∀ a ∈ l, a ≠ []) (h : l ≠ []) : joinWith sep l ≠ [] := by
  match l, h with
  | [a], _ => exact hl a (by simp)
  | a :: b :: r, _ =>
    have := hl a (by simp)
    simp [joinWith, this]

theorem addSep_ne {sep r : Str} (h : r ≠ []) : addSep sep r = r ++ sep := by
  unfold addSep; rw [if_neg]; simpa using h

/-- The scope of a namespace. -/
theorem scope_ns (base sep : Str) (leaf : EType) (path : Path) (hb : base ≠ []) (hp : ∀ x ∈ path, x ≠ []) (a : Bool) :
    scopeInternal base sep leaf a true (path.map fun n => ({ ty := .ns, name := n } : GElem)).reverse = joinWith sep (base :: path) := by
  revert hp a
  induction path using snoc_ind with
  | h0 => intro hp a; simp [scopeInternal, joinWith]
  | hs q x ih =>
    intro hp a
    simp only [List.map_append, List.map_cons, List.map_nil, List.reverse_append, List.reverse_cons, List.reverse_nil, List.nil_append,
      List.singleton_append, scopeInternal]
    rw [ih (fun y hy => hp y (by simp [hy]))]
    have hx : x ≠ [] := hp x (by simp)
    rw [if_neg (by simp), if_pos trivial, addNsScope, if_neg (by simpa using hx), addSep_ne, ← List.cons_append, joinWith_append _ _ _ (by simp)]
    exact join_ne sep (by intro a ha; rcases List.mem_cons.1 ha with rfl | ha; exact hb; exact hp a (by simp [ha])) (by simp)

theorem common_ns (base sep : Str) (leaf : EType) (path : Path) (hb : base ≠ []) (hp : ∀ x ∈ path, x ≠ []) (a : Bool) :
    commonInternal base sep leaf a (path.map fun n => ({ ty := .ns, name := n } : GElem)).reverse = joinWith sep (base :: path) := by
  revert hp a
  induction path using snoc_ind with
  | h0 => intro hp a; simp [commonInternal, joinWith]
  | hs q x ih =>
    intro hp a
    simp only [List.map_append, List.map_cons, List.map_nil, List.reverse_append, List.reverse_cons, List.reverse_nil, List.nil_append,
      List.singleton_append, commonInternal]
    rw [ih (fun y hy => hp y (by simp [hy]))]
    have hx : x ≠ [] := hp x (by simp)
    rw [if_pos trivial, addNsScope, if_neg (by simpa using hx), addSep_ne, ← List.cons_append, joinWith_append _ _ _ (by simp)]
    exact join_ne sep (by intro a ha; rcases List.mem_cons.1 ha with rfl | ha; exact hb; exact hp a (by simp [ha])) (by simp)

theorem scope_up (base sep : Str) (leaf : EType) (path : Path) (hb : base ≠ []) (hp : ∀ x ∈ path, x ≠ []) (a : Bool) :
    scopeInternal base sep leaf a true (if path.isEmpty then [{ ty := .ns, name := [] }] else (path.map fun n => { ty := .ns, name := n }).reverse) =
      joinWith sep (base :: path) := by
  cases path with
  | nil => simp [scopeInternal, addNsScope, joinWith]
  | cons x r => rw [if_neg (by simp)]; exact scope_ns base sep leaf (x :: r) hb hp a

theorem common_up (base sep : Str) (leaf : EType) (path : Path) (hb : base ≠ []) (hp : ∀ x ∈ path, x ≠ []) (a : Bool) :
    commonInternal base sep leaf a (if path.isEmpty then [{ ty := .ns, name := [] }] else (path.map fun n => { ty := .ns, name := n }).reverse) =
      joinWith sep (base :: path) := by
  cases path with
  | nil => simp [commonInternal, addNsScope, joinWith]
  | cons x r => rw [if_neg (by simp)]; exact common_ns base sep leaf (x :: r) hb hp a

theorem parentTy_up (path : Path) :
    parentTy (if path.isEmpty then [{ ty := .ns, name := [] }] else (path.map fun n => { ty := .ns, name := n }).reverse) = some .ns := by
  induction path using snoc_ind with
  | h0 => rfl
  | hs q x _ => simp [parentTy]

theorem sub_text {k : EType} (hk : HasFile k) (sep r x : Str) (l : List Str) (hl : l ≠ []) (hr : r = joinWith sep l ++ sep) :
    addSubNames k (some .ns) sep r ++ x = joinWith sep (l ++ kindDir k ++ [x]) := by
  subst hr
  rcases hk with rfl | rfl | rfl | rfl
  · rw [joinWith_append _ _ _ (by simp [kindDir]), kindDir, joinWith_append _ _ _ hl]; simp [addSubNames, subNames]
  · rw [joinWith_append _ _ _ (by simp [kindDir]), kindDir, joinWith_append _ _ _ hl]; simp [addSubNames, subNames]
  · rw [joinWith_append _ _ _ (by simp [kindDir]), kindDir, joinWith_append _ _ _ hl]; simp [addSubNames, subNames]
  · rw [show kindDir .iface = [] from rfl, List.append_nil, joinWith_append _ _ _ hl]; simp [addSubNames, subNames]

theorem class_ne {n : Str} (h : n ≠ []) : className n ≠ [] := by
  cases n with
  | nil => exact absurd rfl h
  | cons => simp [className]

/-- The file of an element, spelled out. -/
theorem header_eq {k : EType} (hk : HasFile k) (main : Str) (path : Path) (name : Str) (hm : main ≠ []) (hp : ∀ x ∈ path, x ≠ [])
    (hn : name ≠ []) :
    relHeaderPath main (chainOf k path name) = joinWith pathSep ((main :: path) ++ kindDir k ++ [className name]) ++ ".h".toList := by
  unfold relHeaderPath chainOf
  rw [show leafTy (({ ty := k, name := name } : GElem) :: _) = k from rfl]
  congr 1
  rw [scopeInternal]
  have hns : k ≠ .ns := by rintro rfl; rcases hk with h | h | h | h <;> cases h
  have he : elemClass { ty := k, name := name } = className name := by
    unfold elemClass; rw [if_neg]; rintro ⟨h, -⟩; exact class_ne hn (by simpa using h)
  have hj : joinWith pathSep (main :: path) ≠ [] :=
    join_ne _ (by intro a ha; rcases List.mem_cons.1 ha with rfl | ha; exact hm; exact hp a ha) (by simp)
  rw [if_neg (by simp), if_neg hns, scope_up _ _ _ _ hm hp, parentTy_up, he, addSep_ne hj]
  have hs : (if k = .field ∧ pathSep = scopeSep then fieldScopeSuffix k true else nonFieldScopeSuffix k k) = [] := by
    rw [if_neg (by rintro ⟨-, h⟩; exact absurd h (by decide))]; simp [nonFieldScopeSuffix]
  rw [hs, List.append_nil]
  exact sub_text hk _ _ _ _ (by simp) rfl

theorem common_eq {k : EType} (hk : HasFile k) (main : Str) (path : Path) (name : Str) (hm : main ≠ []) (hp : ∀ x ∈ path, x ≠ []) :
    relCommonHeaderPath main (chainOf k path name) =
      joinWith pathSep ((main :: path) ++ kindDir k ++ [className name ++ "Common".toList]) ++ ".h".toList := by
  unfold relCommonHeaderPath chainOf
  rw [show leafTy (({ ty := k, name := name } : GElem) :: _) = k from rfl]
  congr 1
  rw [commonInternal]
  have hns : k ≠ .ns := by rintro rfl; rcases hk with h | h | h | h <;> cases h
  have hj : joinWith pathSep (main :: path) ≠ [] :=
    join_ne _ (by intro a ha; rcases List.mem_cons.1 ha with rfl | ha; exact hm; exact hp a ha) (by simp)
  rw [if_neg hns, common_up _ _ _ _ hm hp, parentTy_up, addSep_ne hj]
  rw [if_neg (by rintro ⟨-, h⟩; exact absurd h (by decide)), List.append_nil, List.append_assoc]
  exact sub_text hk _ _ _ _ (by simp) rfl

theorem class_iff {a b : Str} (ha : a ≠ []) (hb : b ≠ []) : className a = className b ↔ SameClass a b := by
  cases a with
  | nil => exact absurd rfl ha
  | cons x t =>
    cases b with
    | nil => exact absurd rfl hb
    | cons y u =>
      simp only [className, List.cons.injEq, SameClass]
      constructor
      · rintro ⟨h, rfl⟩; exact ⟨x, y, t, ⟨rfl, rfl⟩, ⟨rfl, rfl⟩, h⟩
      · rintro ⟨x', y', t', ⟨rfl, rfl⟩, ⟨rfl, rfl⟩, h⟩; exact ⟨h, rfl⟩

theorem toUpper_slash {c : Char} (h : c.toUpper = '/') : c = '/' := by
  unfold Char.toUpper at h
  split at h
  · rename_i hc
    exfalso
    have h1 := congrArg Char.val h
    have h2 := hc.1; have h3 := hc.2
    simp only [UInt32.le_iff_toNat_le] at h2 h3
    have h4 := congrArg UInt32.toNat h1
    simp at h4
    have e1 : 'a'.val.toNat = 97 := rfl
    have e2 : 'z'.val.toNat = 122 := rfl
    rw [e1] at h2; rw [e2] at h3
    have e3 : c.toNat = c.val.toNat := rfl
    rw [e3] at h4
    omega
  · exact h

theorem class_slash {n : Str} (h : '/' ∉ n) : '/' ∉ className n := by
  cases n with
  | nil => simp [className]
  | cons c t =>
    simp only [className, List.mem_cons, not_or] at h ⊢
    exact ⟨fun he => h.1 (toUpper_slash he.symm).symm, h.2⟩

theorem name_ne {n : Str} (h : isValidName n = true) : n ≠ [] := by
  obtain ⟨c, cs, rfl, -, -⟩ := (C02_name_iff n).1 h
  simp

theorem name_slash {n : Str} (h : isValidName n = true) : '/' ∉ n := by
  obtain ⟨c, cs, rfl, h1, h2⟩ := (C02_name_iff n).1 h
  have hd : ¬ NameRest '/' := by unfold NameRest; decide
  have hd' : ¬ NameStart '/' := by unfold NameStart; decide
  intro hm
  rcases List.mem_cons.1 hm with rfl | hm
  · exact hd' h1
  · exact hd (h2 _ hm)

theorem kindDir_slash (k : EType) : ∀ a ∈ kindDir k, '/' ∉ a := by cases k <;> decide

/-- What it takes for two files, given by their components, to be one. -/
theorem files_iff {k1 k2 : EType} {main1 main2 : Str} {q1 q2 : Path} {c1 c2 : Str}
    (hm1 : '/' ∉ main1) (hm2 : '/' ∉ main2) (hq1 : ∀ x ∈ q1, isValidName x = true) (hq2 : ∀ x ∈ q2, isValidName x = true)
    (h1 : '/' ∉ c1) (h2 : '/' ∉ c2) :
    joinWith pathSep ((main1 :: q1) ++ kindDir k1 ++ [c1]) ++ ".h".toList = joinWith pathSep ((main2 :: q2) ++ kindDir k2 ++ [c2]) ++ ".h".toList ↔
      main1 = main2 ∧ q1 ++ kindDir k1 = q2 ++ kindDir k2 ∧ c1 = c2 := by
  have hs : ∀ {main c : Str} {q : Path} {k : EType}, '/' ∉ main → (∀ x ∈ q, isValidName x = true) → '/' ∉ c →
      ∀ a ∈ (main :: q) ++ kindDir k ++ [c], '/' ∉ a := by
    intro main c q k hm hq hc a ha
    simp only [List.cons_append, List.mem_cons, List.mem_append, List.not_mem_nil, or_false] at ha
    rcases ha with rfl | (ha | ha) | rfl
    · exact hm
    · exact name_slash (hq a ha)
    · exact kindDir_slash k a ha
    · exact hc
  constructor
  · intro h
    have := join_inj (c := '/') (by simp) (by simp) (hs hm1 hq1 h1) (hs hm2 hq2 h2) (List.append_cancel_right h)
    simp only [List.cons_append, List.cons.injEq] at this
    obtain ⟨ha, hb⟩ := this
    have hc := List.append_inj' hb rfl
    exact ⟨ha, hc.1, by simpa using hc.2⟩
  · rintro ⟨rfl, h, rfl⟩
    simp only [List.cons_append]; rw [h]

/-- What is taken for granted: the main namespace (given by the user or the name of the schema) is a directory name; the namespaces and the
    element have the names that the parser accepts. -/
structure FileArgs (k : EType) (main : Str) (path : Path) (name : Str) : Prop where
  kind : HasFile k
  main : main ≠ [] ∧ '/' ∉ main
  path : ∀ x ∈ path, isValidName x = true
  name : isValidName name = true

theorem FileArgs.ne {k : EType} {main : Str} {path : Path} {name : Str} (h : FileArgs k main path name) : (∀ x ∈ path, x ≠ []) ∧ name ≠ [] :=
  ⟨fun x hx => name_ne (h.path x hx), name_ne h.name⟩

/-- Exactly when two elements are written to the same file: same main namespace, same directory, and names that differ at most in the case of
    the first letter. -/
theorem C55_same_file_iff {k1 k2 : EType} {main1 main2 : Str} {q1 q2 : Path} {n1 n2 : Str} (h1 : FileArgs k1 main1 q1 n1)
    (h2 : FileArgs k2 main2 q2 n2) :
    relHeaderPath main1 (chainOf k1 q1 n1) = relHeaderPath main2 (chainOf k2 q2 n2) ↔
      main1 = main2 ∧ q1 ++ kindDir k1 = q2 ++ kindDir k2 ∧ SameClass n1 n2 := by
  rw [header_eq h1.kind _ _ _ h1.main.1 h1.ne.1 h1.ne.2, header_eq h2.kind _ _ _ h2.main.1 h2.ne.1 h2.ne.2,
    files_iff h1.main.2 h2.main.2 h1.path h2.path (class_slash (name_slash h1.name)) (class_slash (name_slash h2.name)),
    class_iff h1.ne.2 h2.ne.2]

theorem class_common {n : Str} (h : n ≠ []) : className n ++ "Common".toList = className (n ++ "Common".toList) := by
  cases n with
  | nil => exact absurd rfl h
  | cons => rfl

/-- The same for the file with definitions common to all options. -/
theorem C55_same_common_file_iff {k1 k2 : EType} {main1 main2 : Str} {q1 q2 : Path} {n1 n2 : Str} (h1 : FileArgs k1 main1 q1 n1)
    (h2 : FileArgs k2 main2 q2 n2) :
    relCommonHeaderPath main1 (chainOf k1 q1 n1) = relCommonHeaderPath main2 (chainOf k2 q2 n2) ↔
      main1 = main2 ∧ q1 ++ kindDir k1 = q2 ++ kindDir k2 ∧ SameClass n1 n2 := by
  have e1 : '/' ∉ className n1 ++ "Common".toList := by
    rw [List.mem_append]; exact fun h => h.elim (class_slash (name_slash h1.name)) (by decide)
  have e2 : '/' ∉ className n2 ++ "Common".toList := by
    rw [List.mem_append]; exact fun h => h.elim (class_slash (name_slash h2.name)) (by decide)
  rw [common_eq h1.kind _ _ _ h1.main.1 h1.ne.1, common_eq h2.kind _ _ _ h2.main.1 h2.ne.1,
    files_iff h1.main.2 h2.main.2 h1.path h2.path e1 e2, List.append_cancel_right_eq, class_iff h1.ne.2 h2.ne.2]

/-- Exactly when the common file of one element is the file of another one. -/
theorem C55_common_file_iff {k1 k2 : EType} {main1 main2 : Str} {q1 q2 : Path} {n1 n2 : Str} (h1 : FileArgs k1 main1 q1 n1)
    (h2 : FileArgs k2 main2 q2 n2) :
    relCommonHeaderPath main1 (chainOf k1 q1 n1) = relHeaderPath main2 (chainOf k2 q2 n2) ↔
      main1 = main2 ∧ q1 ++ kindDir k1 = q2 ++ kindDir k2 ∧ SameClass (n1 ++ "Common".toList) n2 := by
  have e1 : '/' ∉ className n1 ++ "Common".toList := by
    rw [List.mem_append]; exact fun h => h.elim (class_slash (name_slash h1.name)) (by decide)
  rw [common_eq h1.kind _ _ _ h1.main.1 h1.ne.1, header_eq h2.kind _ _ _ h2.main.1 h2.ne.1 h2.ne.2,
    files_iff h1.main.2 h2.main.2 h1.path h2.path e1 (class_slash (name_slash h2.name)), class_common h1.ne.2,
    class_iff (by simp) h2.ne.2]

theorem declared_args {fo : FloatOps} {p : Proto} (h : Reachable fo p) {s : Schema} (hs : s ∈ p.schemas) {main : Str} (hm : main ≠ [] ∧ '/' ∉ main)
    {k : EType} {q : Path} {n : Str} (hd : Declared s k q n) : FileArgs k main q n ∧ q ∈ s.nss := by
  have hi := (reachable_inv h).each s hs
  cases hd with
  | field he =>
    have := hi.fields.1 _ he
    exact ⟨⟨Or.inr (Or.inl rfl), hm, hi.nsNames _ this.1, this.2.1⟩, this.1⟩
  | message he =>
    have := hi.messages.1 _ he
    exact ⟨⟨Or.inl rfl, hm, hi.nsNames _ this.1, this.2.1⟩, this.1⟩
  | iface he =>
    have := hi.ifaces.1 _ he
    exact ⟨⟨Or.inr (Or.inr (Or.inr rfl)), hm, hi.nsNames _ this.1, this.2.1⟩, this.1⟩
  | frame he =>
    have := hi.frames.1 _ he
    exact ⟨⟨Or.inr (Or.inr (Or.inl rfl)), hm, hi.nsNames _ this.1, this.2.1⟩, this.1⟩

theorem dirs_inj {k1 k2 : EType} (hk1 : HasFile k1) (hk2 : HasFile k2) {q1 q2 : Path}
    (h1 : ∀ x ∈ q1, x ∉ ["message".toList, "field".toList, "frame".toList]) (h2 : ∀ x ∈ q2, x ∉ ["message".toList, "field".toList, "frame".toList])
    (h : q1 ++ kindDir k1 = q2 ++ kindDir k2) : k1 = k2 ∧ q1 = q2 := by
  have key : ∀ {q q' : Path} {d : Str}, d ∈ ["message".toList, "field".toList, "frame".toList] →
      (∀ x ∈ q', x ∉ ["message".toList, "field".toList, "frame".toList]) → q ++ [d] ≠ q' := by
    rintro q q' d hd hq rfl
    exact hq d (by simp) hd
  rcases hk1 with rfl | rfl | rfl | rfl <;> rcases hk2 with rfl | rfl | rfl | rfl <;>
    simp only [kindDir, List.append_nil] at h <;>
    first
    | exact ⟨rfl, List.append_cancel_right h⟩
    | exact ⟨rfl, h⟩
    | exact absurd h (key (by decide) h2)
    | exact absurd h.symm (key (by decide) h1)
    | exact absurd (List.append_inj' h rfl).2 (by decide)

/-- Two different elements of a schema are written to different files, and so are the definitions common to all options – if no namespace is
    called `message`, `field` or `frame`, no two names differ just in the case of the first letter, and no name is another one with `Common` at
    the end. Missing from the full claim: schemas with such names, which the parser accepts, see `C55_case_witness`, `C55_common_witness`,
    `C55_namespace_witness`. -/
theorem C55_files_differ_partial (fo : FloatOps) (p : Proto) (h : Reachable fo p) (s : Schema) (hs : s ∈ p.schemas) (main : Str)
    (hm : main ≠ [] ∧ '/' ∉ main) (hns : ∀ q ∈ s.nss, ∀ x ∈ q, x ∉ ["message".toList, "field".toList, "frame".toList])
    (k1 k2 : EType) (q1 q2 : Path) (n1 n2 : Str) (h1 : Declared s k1 q1 n1) (h2 : Declared s k2 q2 n2)
    (hn : SameClass n1 n2 → n1 = n2) (hc : ¬ SameClass (n1 ++ "Common".toList) n2) (hne : (k1, q1, n1) ≠ (k2, q2, n2)) :
    relHeaderPath main (chainOf k1 q1 n1) ≠ relHeaderPath main (chainOf k2 q2 n2) ∧
    relCommonHeaderPath main (chainOf k1 q1 n1) ≠ relCommonHeaderPath main (chainOf k2 q2 n2) ∧
    relCommonHeaderPath main (chainOf k1 q1 n1) ≠ relHeaderPath main (chainOf k2 q2 n2) := by
  obtain ⟨a1, b1⟩ := declared_args h hs hm h1
  obtain ⟨a2, b2⟩ := declared_args h hs hm h2
  rw [Ne, C55_same_file_iff a1 a2, Ne, C55_same_common_file_iff a1 a2, Ne, C55_common_file_iff a1 a2]
  have key : ¬ (main = main ∧ q1 ++ kindDir k1 = q2 ++ kindDir k2 ∧ SameClass n1 n2) := by
    rintro ⟨-, hd, hcl⟩
    obtain ⟨rfl, rfl⟩ := dirs_inj a1.kind a2.kind (hns _ b1) (hns _ b2) hd
    exact hne (by rw [hn hcl])
  exact ⟨key, key, fun hx => hc hx.2.2⟩

/-- `Declared`, to be computed. -/
def declares (k : EType) (q : Path) (n : String) (s : Schema) : Bool :=
  match k with
  | .field => s.fields.any fun e => e.1 == q && e.2.name == n.toList
  | .message => s.messages.any fun e => e.1 == q && e.2.name == n.toList
  | .iface => s.ifaces.any fun e => e.1 == q && e.2.name == n.toList
  | .frame => s.frames.any fun e => e.1 == q && e.2.name == n.toList
  | _ => false

theorem declares_spec {k : EType} {q : Path} {n : String} {s : Schema} (h : declares k q n s = true) : Declared s k q n.toList := by
  unfold declares at h
  split at h <;> first | contradiction | skip
  all_goals
    obtain ⟨⟨q', a⟩, hm, he⟩ := List.any_eq_true.1 h
    simp only [Bool.and_eq_true, beq_iff_eq] at he
    obtain ⟨rfl, he⟩ := he
    rw [← he]
  · exact .field hm
  · exact .message hm
  · exact .iface hm
  · exact .frame hm

theorem declares_two {docs : List Xml} {k1 k2 : EType} {q1 q2 : Path} {n1 n2 : String}
    (h : schemaIs docs 0 (fun s => declares k1 q1 n1 s && declares k2 q2 n2 s) = true) :
    ∃ p s, Reachable fo0 p ∧ p.validated = true ∧ s ∈ p.schemas ∧ Declared s k1 q1 n1.toList ∧ Declared s k2 q2 n2.toList := by
  obtain ⟨p, s, h1, h2, h3, h4⟩ := schemaIs_spec h
  obtain ⟨h4, h5⟩ := Bool.and_eq_true_iff.1 h4
  exact ⟨p, s, h1, h2, List.mem_of_getElem? h3, declares_spec h4, declares_spec h5⟩

open Sample in
/-- C55 does not hold: the fields `foo` and `Foo` of one namespace are accepted and written to the same file, under any main namespace. -/
theorem C55_case_witness : (∃ p s, Reachable fo0 p ∧ p.validated = true ∧ s ∈ p.schemas ∧ Declared s .field [] "foo".toList ∧
    Declared s .field [] "Foo".toList) ∧
    ∀ main, relHeaderPath main (chainOf .field [] "foo".toList) = relHeaderPath main (chainOf .field [] "Foo".toList) :=
  ⟨declares_two (docs := [schemaEl "S" [el "fields" [] [el "int" [("name", "foo"), ("type", "uint8")], el "int" [("name", "Foo"), ("type", "int8")]]]])
    (by decide +kernel), fun _ => rfl⟩

/-- C55 does not hold: the common definitions of the message `Foo` are written to the file of the message `FooCommon`. -/
theorem C55_common_witness : (∃ p s, Reachable fo0 p ∧ p.validated = true ∧ s ∈ p.schemas ∧ Declared s .message [] "Foo".toList ∧
    Declared s .message [] "FooCommon".toList) ∧
    relCommonHeaderPath "S".toList (chainOf .message [] "Foo".toList) = relHeaderPath "S".toList (chainOf .message [] "FooCommon".toList) :=
  ⟨declares_two (docs := [schemaEl "S" [msgEl "Foo" "1", msgEl "FooCommon" "2"]]) (by decide +kernel), by decide⟩

open Sample in
/-- C55 does not hold: the interface `Foo` of the namespace `message` is written to the file of the global message `Foo`. -/
theorem C55_namespace_witness : (∃ p s, Reachable fo0 p ∧ p.validated = true ∧ s ∈ p.schemas ∧ Declared s .message [] "Foo".toList ∧
    Declared s .iface ["message".toList] "Foo".toList) ∧
    relHeaderPath "S".toList (chainOf .message [] "Foo".toList) = relHeaderPath "S".toList (chainOf .iface ["message".toList] "Foo".toList) :=
  ⟨declares_two (docs := [schemaEl "S" [msgEl "Foo" "1", nsEl "message" [el "interface" [("name", "Foo")]]]]) (by decide +kernel), by decide⟩

open Sample in
/-- C55 does not hold for the files that do not belong to an element: the interface `version` is written to the file with the version of the
    schema, the field `fieldBase` to that of the base class of all fields. -/
theorem C55_reserved_witness : (∃ p s, Reachable fo0 p ∧ p.validated = true ∧ s ∈ p.schemas ∧ Declared s .iface [] "version".toList ∧
    Declared s .field [] "fieldBase".toList) ∧
    relHeaderPath "S".toList (chainOf .iface [] "version".toList) = relHeaderRoot "S".toList "Version".toList ∧
    relHeaderPath "S".toList (chainOf .field [] "fieldBase".toList) = relHeaderField "S".toList "FieldBase".toList :=
  ⟨declares_two (docs := [schemaEl "S" [el "interface" [("name", "version")], el "fields" [] [el "int" [("name", "fieldBase"), ("type", "uint8")]]]])
    (by decide +kernel), by decide, by decide⟩

/-- C55 does not hold for the files with what belongs to a whole namespace (message ids, dispatch functions, lists of input messages, factories):
    the path has the name of the namespace, but not those it is in. Two namespaces `X`, in `A` and in `B`, share these files. -/
theorem C55_member_witness : (∃ p s, Reachable fo0 p ∧ p.validated = true ∧ s ∈ p.schemas ∧ Declared s .message ["A".toList, "X".toList] "M".toList ∧
    Declared s .message ["B".toList, "X".toList] "M".toList) ∧
    relHeaderNsMember "S".toList "MsgId".toList (ownName ["A".toList, "X".toList]) = "S/X/MsgId.h".toList ∧
    relHeaderNsMember "S".toList "MsgId".toList (ownName ["B".toList, "X".toList]) = "S/X/MsgId.h".toList :=
  ⟨declares_two (docs := [schemaEl "S" [nsEl "A" [nsEl "X" [msgEl "M" "1"]], nsEl "B" [nsEl "X" [msgEl "M" "2"]]]]) (by decide +kernel),
    by decide, by decide⟩

/-- The hypotheses of `C55_files_differ_partial` are met: a message and a field of the same name in a namespace, and another message. -/
example : (∃ p s, Reachable fo0 p ∧ p.validated = true ∧ s ∈ p.schemas ∧ Declared s .message ["A".toList] "Foo".toList ∧
    Declared s .iface ["A".toList] "Foo".toList) ∧
    relHeaderPath "S".toList (chainOf .message ["A".toList] "foo".toList) = "S/A/message/Foo.h".toList ∧
    relHeaderPath "S".toList (chainOf .iface ["A".toList] "Foo".toList) = "S/A/Foo.h".toList ∧
    relCommonHeaderPath "S".toList (chainOf .field ["A".toList, "B".toList] "foo".toList) = "S/A/B/field/FooCommon.h".toList :=
  ⟨declares_two (docs := [schemaEl "S" [nsEl "A" [msgEl "Foo" "1", Sample.el "interface" [("name", "Foo")]]]]) (by decide +kernel),
    by decide, by decide, by decide⟩

/-! ## C56 -/

theorem open_eq : openText = openLine := by funext n; rfl
theorem close_eq : closeText = closeLine := by funext n; rfl

theorem texts_open (l : List Str) : texts openText l = opening l := by rw [open_eq]; simp [texts, opening, List.flatMap]
theorem texts_close (l : List Str) : texts closeText l = closing l := by rw [close_eq]; simp [texts, closing, List.flatMap]

theorem opening_append (a b : List Str) : opening (a ++ b) = opening a ++ opening b := by simp [opening]
theorem closing_append (a b : List Str) : closing (a ++ b) = closing a ++ closing b := by simp [closing]

theorem inner_ns (parent : Option EType) : innerNames .ns parent = [] := by simp [innerNames]

theorem inner_reverse (ty : EType) (parent : Option EType) : (innerNames ty parent).reverse = innerNames ty parent := by
  cases ty <;> simp [innerNames]
  split <;> rfl

/-- The namespaces around the code of an element. -/
def around (top main : Str) : Chain → List Str
  | [] => (if top.isEmpty then [] else [top]) ++ [main]
  | e :: up => around top main up ++ innerNames e.ty (parentTy up) ++ (if e.ty = .ns ∧ e.name ≠ [] then [e.name] else [])

theorem begin_around (top main : Str) (c : Chain) : nsBegin top main c = opening (around top main c) := by
  induction c with
  | nil =>
    unfold nsBegin around
    cases top <;> simp [opening, open_eq]
  | cons e up ih =>
    unfold nsBegin around
    rw [ih, texts_open, opening_append, opening_append]
    by_cases h : e.ty = .ns
    · by_cases hn : e.name = []
      · simp [h, hn, opening]
      · simp [h, hn, opening, open_eq]
    · simp [h, opening]

theorem end_around (top main : Str) (c : Chain) : nsEnd top main c = closing (around top main c).reverse := by
  induction c with
  | nil =>
    unfold nsEnd around
    cases top <;> simp [closing, close_eq]
  | cons e up ih =>
    unfold nsEnd around
    rw [ih, texts_close, List.reverse_append, List.reverse_append, closing_append, closing_append, inner_reverse]
    by_cases h : e.ty = .ns
    · rw [h, inner_ns]
      by_cases hn : e.name = []
      · simp [hn, closing]
      · simp [hn, closing, close_eq]
    · simp [h, closing]

/-- Around the code of any element – also a layer, a field of a message, a member – exactly the namespaces that are opened are closed, in
    reverse order. -/
theorem C56_balanced (top main : Str) (c : Chain) :
    ∃ names, nsBegin top main c = opening names ∧ nsEnd top main c = closing names.reverse :=
  ⟨_, begin_around top main c, end_around top main c⟩

theorem around_up (top main : Str) (path : Path) (hp : ∀ x ∈ path, x ≠ []) :
    around top main (if path.isEmpty then [{ ty := .ns, name := [] }] else (path.map fun n => { ty := .ns, name := n }).reverse) =
      (if top.isEmpty then [] else [top]) ++ main :: path := by
  have key : ∀ path : Path, (∀ x ∈ path, x ≠ []) → around top main (path.map fun n => ({ ty := .ns, name := n } : GElem)).reverse =
      (if top.isEmpty then [] else [top]) ++ main :: path := by
    intro path
    induction path using snoc_ind with
    | h0 => intro _; simp [around]
    | hs q x ih =>
      intro hp
      simp only [List.map_append, List.map_cons, List.map_nil, List.reverse_append, List.reverse_cons, List.reverse_nil, List.nil_append,
        List.singleton_append, around, inner_ns]
      rw [ih (fun y hy => hp y (by simp [hy]))]
      simp [hp x (by simp)]
  cases path with
  | nil => simp [around, inner_ns]
  | cons x r => rw [if_neg (by simp)]; exact key _ hp

/-- For messages, fields, frames and interfaces these are: the top namespace if there is one, the main one, those of the schema, that of the kind.
    Without the top namespace they are the scope of the element. -/
theorem C56_namespaces {k : EType} {main : Str} {q : Path} {n : Str} (h : FileArgs k main q n) (top : Str) :
    nsBegin top main (chainOf k q n) = opening ((if top.isEmpty then [] else [top]) ++ main :: q ++ kindDir k) ∧
    nsEnd top main (chainOf k q n) = closing ((if top.isEmpty then [] else [top]) ++ main :: q ++ kindDir k).reverse ∧
    scopeFor main true false (chainOf k q n) = joinWith "::".toList (main :: q ++ kindDir k) := by
  have hns : k ≠ .ns := by rintro rfl; rcases h.kind with h | h | h | h <;> cases h
  have ha : around top main (chainOf k q n) = (if top.isEmpty then [] else [top]) ++ main :: q ++ kindDir k := by
    unfold chainOf
    rw [around, around_up _ _ _ h.ne.1, parentTy_up]
    rcases h.kind with rfl | rfl | rfl | rfl <;> simp [innerNames, kindDir]
  refine ⟨by rw [begin_around, ha], by rw [end_around, ha], ?_⟩
  unfold scopeFor chainOf
  rw [show leafTy (({ ty := k, name := n } : GElem) :: _) = k from rfl, if_pos rfl, scopeInternal]
  rw [if_pos (by rfl), scope_up _ _ _ _ h.main.1 h.ne.1, parentTy_up]
  have hj : joinWith scopeSep (main :: q) ≠ [] :=
    join_ne _ (by intro a ha; rcases List.mem_cons.1 ha with rfl | ha; exact h.main.1; exact h.ne.1 a ha) (by simp)
  unfold withoutElement
  rw [addSep_ne hj]
  rcases h.kind with rfl | rfl | rfl | rfl
  · rw [kindDir, joinWith_append _ _ _ (by simp)]; rfl
  · rw [kindDir, joinWith_append _ _ _ (by simp)]; rfl
  · rw [kindDir, joinWith_append _ _ _ (by simp)]; rfl
  · rw [show kindDir .iface = [] from rfl, List.append_nil]; rfl

example : nsBegin "top".toList "S".toList [⟨.layer, "Id".toList⟩, ⟨.frame, "F".toList⟩, ⟨.ns, "A".toList⟩] =
      "namespace top\n{\n\nnamespace S\n{\n\nnamespace A\n{\n\nnamespace frame\n{\n\nnamespace layer\n{\n\n".toList ∧
    nsEnd "top".toList "S".toList [⟨.layer, "Id".toList⟩, ⟨.frame, "F".toList⟩, ⟨.ns, "A".toList⟩] =
      "} // namespace layer\n\n} // namespace frame\n\n} // namespace A\n\n} // namespace S\n\n} // namespace top\n\n".toList := by
  decide

example : FileArgs .message "S".toList ["A".toList, "B".toList] "Msg".toList :=
  ⟨Or.inl rfl, by decide, by decide, by decide⟩

end Commsdsl.Props
