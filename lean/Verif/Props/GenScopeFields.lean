import Verif.Props.GenScope
/-!
# C96: how the generated code refers to the classes of fields and layers
-/
namespace Commsdsl.Props
open Commsdsl Gen Spec Proto

/-! ## Specification -/

/-- Where a field of the schema is defined: directly in a namespace, in a message, in an interface, or as the field of a layer of a frame. -/
inductive Holder where
  | global (path : Path)
  | message (path : Path) (name : Str)
  | iface (path : Path) (name : Str)
  | layer (path : Path) (frame name : Str)

/-- The element and its parents. -/
def Holder.chain : Holder → Chain
  | .global q => if q.isEmpty then [{ ty := .ns, name := [] }] else (q.map fun n => { ty := .ns, name := n }).reverse
  | .message q n => chainOf .message q n
  | .iface q n => chainOf .iface q n
  | .layer q f n => { ty := .layer, name := n } :: chainOf .frame q f

/-- The namespaces and structs the classes of the fields are declared in (`suffix` is empty, or `Common` for what is common to all options). -/
def Holder.scopes (suffix : Str) : Holder → List Str
  | .global q => q ++ ["field".toList]
  | .message q n => q ++ ["message".toList, className n ++ "Fields".toList ++ suffix]
  | .iface q n => q ++ [className n ++ "Fields".toList ++ suffix]
  | .layer q f n => q ++ ["frame".toList, className f ++ "Layers".toList ++ suffix, className n ++ "Members".toList ++ suffix]

/-- The names are not empty. -/
def Holder.Named : Holder → Prop
  | .global q => ∀ x ∈ q, x ≠ []
  | .message q n => (∀ x ∈ q, x ≠ []) ∧ n ≠ []
  | .iface q n => (∀ x ∈ q, x ≠ []) ∧ n ≠ []
  | .layer q f n => (∀ x ∈ q, x ≠ []) ∧ f ≠ [] ∧ n ≠ []

/-- The chain of a field: `outer` are the names of the fields around it, the outermost first. -/
def fieldChain (h : Holder) (outer : List Str) (name : Str) : Chain :=
  { ty := .field, name := name } :: ((outer.reverse.map fun n => { ty := .field, name := n }) ++ h.chain)

/-! ## Proofs -/

namespace ScopeProofs

theorem elemClass_named {ty : EType} {n : Str} (h : n ≠ []) : elemClass { ty := ty, name := n } = className n := by
  unfold elemClass
  rw [if_neg]
  rintro ⟨h', -⟩
  exact class_ne h (by simpa using h')

theorem ifl {a b : Str} : (if EType.field = EType.field ∧ scopeSep = scopeSep then a else b) = a := if_pos ⟨rfl, rfl⟩

theorem fold_join (sep : Str) : ∀ (l : List Str) (s x : Str), l.foldl (fun s n => s ++ (n ++ sep)) s ++ x = s ++ joinWith sep (l ++ [x]) := by
  intro l
  induction l with
  | nil => intro s x; rfl
  | cons y l ih =>
    intro s x
    rw [List.foldl_cons, ih]
    cases l with
    | nil => simp [joinWith]
    | cons => simp [joinWith]

theorem sep_join (sep : Str) {L M : List Str} (hne : ∀ x ∈ L, x ≠ []) (hM : M ≠ []) : addSep sep (joinWith sep L) ++ joinWith sep M = joinWith sep (L ++ M) := by
  cases L with
  | nil => rfl
  | cons a L =>
    rw [addSep_ne (join_ne _ hne (by simp))]
    clear hne
    induction L generalizing a with
    | nil =>
      cases M with
      | nil => exact absurd rfl hM
      | cons => simp [joinWith]
    | cons b L ih =>
      have := ih b
      simp only [List.cons_append, joinWith] at this ⊢
      rw [← this]
      simp

/-- The text of one more component. -/
theorem step {base sep : Str} {leaf : EType} {e : GElem} {up : Chain} {L : List Str} (isLeaf : Bool) (hns : e.ty ≠ .ns) (he : e.name ≠ [])
    (h : scopeInternal base sep leaf false true up = joinWith sep L) (hne : ∀ x ∈ L, x ≠ []) :
    scopeInternal base sep leaf isLeaf true (e :: up) = joinWith sep (L ++ subNames e.ty (parentTy up) ++
      [className e.name ++ (if leaf = .field ∧ sep = scopeSep then fieldScopeSuffix e.ty isLeaf else nonFieldScopeSuffix e.ty leaf)]) := by
  have hc : elemClass e = className e.name := elemClass_named he
  rw [scopeInternal, h, if_neg (by simp), if_neg hns, hc, List.append_assoc, addSubNames, fold_join, List.append_assoc]
  exact sep_join sep hne (by simp)

theorem cstep {base sep : Str} {leaf : EType} {e : GElem} {up : Chain} {L : List Str} (isLeaf : Bool) (hns : e.ty ≠ .ns)
    (h : commonInternal base sep leaf false up = joinWith sep L) (hne : ∀ x ∈ L, x ≠ []) :
    commonInternal base sep leaf isLeaf (e :: up) = joinWith sep (L ++ subNames e.ty (parentTy up) ++
      [className e.name ++ (if leaf = .field ∧ sep = scopeSep then fieldScopeSuffix e.ty isLeaf else []) ++ "Common".toList]) := by
  rw [commonInternal, h, if_neg hns, List.append_assoc, List.append_assoc, addSubNames, fold_join, List.append_assoc, List.append_assoc]
  exact sep_join sep hne (by simp)

/-- The scope of a namespace, where `base` is the name of the main namespace or empty. -/
theorem up_any (base sep : Str) (leaf : EType) (path : Path) (hp : ∀ x ∈ path, x ≠ []) (a : Bool) :
    scopeInternal base sep leaf a true (if path.isEmpty then [{ ty := .ns, name := [] }] else (path.map fun n => { ty := .ns, name := n }).reverse) =
      joinWith sep ((if base = [] then [] else [base]) ++ path) := by
  by_cases hb : base = []
  · subst hb
    rw [if_pos rfl, List.nil_append]
    have key : ∀ (q : List Str) (a : Bool), (∀ x ∈ q, x ≠ []) →
        scopeInternal [] sep leaf a true (q.map fun n => ({ ty := .ns, name := n } : GElem)).reverse = joinWith sep q := by
      intro q
      induction q using snoc_ind with
      | h0 => intro a _; rfl
      | hs q x ih =>
        intro a hq
        have hx : x ≠ [] := hq x (by simp)
        have hq' : ∀ y ∈ q, y ≠ [] := fun y hy => hq y (by simp [hy])
        simp only [List.map_append, List.map_cons, List.map_nil, List.reverse_append, List.reverse_cons, List.reverse_nil, List.nil_append,
          List.singleton_append, scopeInternal]
        rw [ih _ hq', if_neg (by simp), if_pos trivial, addNsScope, if_neg (by simpa using hx)]
        exact sep_join (M := [x]) sep hq' (by simp)
    cases path with
    | nil => rfl
    | cons x r => rw [if_neg (by simp)]; exact key (x :: r) a hp
  · rw [if_neg hb]
    exact scope_up base sep leaf path hb hp a

/-- The scope of what holds the field, where the kind of global fields is still missing. -/
def Holder.pre (suffix : Str) : Holder → List Str
  | .global q => q
  | h => h.scopes suffix

/-- What the first field adds. -/
def Holder.kind : Holder → List Str
  | .global _ => ["field".toList]
  | _ => []

theorem pre_kind (suffix : Str) (h : Holder) : Holder.pre suffix h ++ Holder.kind h = h.scopes suffix := by
  cases h <;> simp [Holder.pre, Holder.kind, Holder.scopes]

theorem kind_sub (h : Holder) : subNames .field (parentTy h.chain) = Holder.kind h := by
  cases h with
  | global q => rw [Holder.chain, parentTy_up]; rfl
  | _ => rfl

theorem ne_of_append {a b : Str} (h : b ≠ []) : a ++ b ≠ [] := by
  intro e
  exact h (List.append_eq_nil_iff.1 e).2

theorem ne_left {a b : Str} (h : a ≠ []) : a ++ b ≠ [] := by
  intro e
  exact h (List.append_eq_nil_iff.1 e).1

theorem scopes_ne (suffix : Str) {h : Holder} (hn : h.Named) : ∀ x ∈ h.scopes suffix, x ≠ [] := by
  cases h with
  | global q =>
    intro x hx
    simp only [Holder.scopes, List.mem_append, List.mem_singleton] at hx
    rcases hx with hx | rfl
    · exact hn x hx
    · decide
  | message q n =>
    intro x hx
    simp only [Holder.scopes, List.mem_append, List.mem_cons, List.not_mem_nil, or_false] at hx
    rcases hx with hx | rfl | rfl
    · exact hn.1 x hx
    · decide
    · exact ne_left (ne_of_append (by decide))
  | iface q n =>
    intro x hx
    simp only [Holder.scopes, List.mem_append, List.mem_cons, List.not_mem_nil, or_false] at hx
    rcases hx with hx | rfl
    · exact hn.1 x hx
    · exact ne_left (ne_of_append (by decide))
  | layer q f n =>
    intro x hx
    simp only [Holder.scopes, List.mem_append, List.mem_cons, List.not_mem_nil, or_false] at hx
    rcases hx with hx | rfl | rfl | rfl
    · exact hn.1 x hx
    · decide
    · exact ne_left (ne_of_append (by decide))
    · exact ne_left (ne_of_append (by decide))

/-- The main namespace, when it is part of the text. -/
def topOf (base : Str) : List Str := if base = [] then [] else [base]

theorem top_ne {base : Str} {q : Path} (hq : ∀ x ∈ q, x ≠ []) : ∀ x ∈ topOf base ++ q, x ≠ [] := by
  intro x hx
  rcases List.mem_append.1 hx with hx | hx
  · unfold topOf at hx
    split at hx
    · cases hx
    · rename_i h; rw [List.mem_singleton.1 hx]; exact h
  · exact hq x hx

theorem main_ne {main : Str} {q : Path} (hm : main ≠ []) (hq : ∀ x ∈ q, x ≠ []) : ∀ x ∈ main :: q, x ≠ [] := by
  intro x hx
  rcases List.mem_cons.1 hx with rfl | hx
  · exact hm
  · exact hq x hx

theorem holder_scope (main : Str) (h : Holder) (hn : h.Named) :
    scopeInternal main scopeSep .field false true h.chain = joinWith scopeSep (topOf main ++ Holder.pre [] h) := by
  cases h with
  | global q => exact up_any main scopeSep .field q hn false
  | message q n =>
    have := step (e := { ty := .message, name := n }) (leaf := .field) false (by simp) hn.2 (up_any main scopeSep .field q hn.1 false) (top_ne hn.1)
    rw [parentTy_up, ifl] at this
    refine this.trans ?_
    simp [Holder.pre, Holder.scopes, subNames, fieldScopeSuffix, topOf]
  | iface q n =>
    have := step (e := { ty := .iface, name := n }) (leaf := .field) false (by simp) hn.2 (up_any main scopeSep .field q hn.1 false) (top_ne hn.1)
    rw [parentTy_up, ifl] at this
    refine this.trans ?_
    simp [Holder.pre, Holder.scopes, subNames, fieldScopeSuffix, topOf]
  | layer q f n =>
    have h1 := step (e := { ty := .frame, name := f }) (leaf := .field) false (by simp) hn.2.1 (up_any main scopeSep .field q hn.1 false) (top_ne hn.1)
    rw [parentTy_up, ifl] at h1
    have h2 := step (e := { ty := .layer, name := n }) (leaf := .field) false (by simp) hn.2.2 h1 (by
      intro x hx
      rw [List.append_assoc] at hx
      rcases List.mem_append.1 hx with hx | hx
      · exact top_ne hn.1 x hx
      · rcases List.mem_append.1 hx with hx | hx
        · have : x = "frame".toList := by simpa [subNames] using hx
          rw [this]; decide
        · rw [List.mem_singleton.1 hx]; exact ne_of_append (by show "Layers".toList ≠ []; decide))
    rw [ifl] at h2
    refine h2.trans ?_
    simp [Holder.pre, Holder.scopes, subNames, fieldScopeSuffix, topOf]

theorem holder_common (main : Str) (hm : main ≠ []) (h : Holder) (hn : h.Named) :
    commonInternal main scopeSep .field false h.chain = joinWith scopeSep (main :: Holder.pre "Common".toList h) := by
  cases h with
  | global q => exact common_up main scopeSep .field q hm hn false
  | message q n =>
    have := cstep (e := { ty := .message, name := n }) (leaf := .field) false (by simp) (common_up main scopeSep .field q hm hn.1 false) (main_ne hm hn.1)
    rw [parentTy_up, ifl] at this
    refine this.trans ?_
    simp [Holder.pre, Holder.scopes, subNames, fieldScopeSuffix]
  | iface q n =>
    have := cstep (e := { ty := .iface, name := n }) (leaf := .field) false (by simp) (common_up main scopeSep .field q hm hn.1 false) (main_ne hm hn.1)
    rw [parentTy_up, ifl] at this
    refine this.trans ?_
    simp [Holder.pre, Holder.scopes, subNames, fieldScopeSuffix]
  | layer q f n =>
    have h1 := cstep (e := { ty := .frame, name := f }) (leaf := .field) false (by simp) (common_up main scopeSep .field q hm hn.1 false) (main_ne hm hn.1)
    rw [parentTy_up, ifl] at h1
    have h2 := cstep (e := { ty := .layer, name := n }) (leaf := .field) false (by simp) h1 (by
      intro x hx
      simp only [List.mem_append, List.mem_singleton, or_assoc] at hx
      rcases hx with hx | hx | rfl
      · exact main_ne hm hn.1 x hx
      · have : x = "frame".toList := by simpa [subNames] using hx
        rw [this]; decide
      · exact ne_of_append (by decide))
    rw [ifl] at h2
    refine h2.trans ?_
    simp [Holder.pre, Holder.scopes, subNames, fieldScopeSuffix]

/-- The components of the fields around, the innermost first. -/
def around' (suffix : Str) (h : Holder) (rs : List Str) : List Str :=
  Holder.pre suffix h ++ (if rs = [] then [] else Holder.kind h) ++ (rs.reverse.map fun n => className n ++ "Members".toList ++ suffix)

theorem around_parent (h : Holder) (rs : List Str) :
    subNames .field (parentTy ((rs.map fun n => ({ ty := .field, name := n } : GElem)) ++ h.chain)) = if rs = [] then Holder.kind h else [] := by
  cases rs with
  | nil => rw [if_pos rfl]; exact kind_sub h
  | cons r rs => rw [if_neg (by simp)]; rfl

theorem around_cons (suffix : Str) (h : Holder) (r : Str) (rs : List Str) :
    around' suffix h (r :: rs) = around' suffix h rs ++ (if rs = [] then Holder.kind h else []) ++ [className r ++ "Members".toList ++ suffix] := by
  unfold around'
  cases rs with
  | nil => simp
  | cons => simp

theorem around_ne (suffix : Str) {h : Holder} (hn : h.Named) (rs : List Str) : ∀ x ∈ around' suffix h rs, x ≠ [] := by
  intro x hx
  unfold around' at hx
  rcases List.mem_append.1 hx with hx | hx
  · refine scopes_ne suffix hn x ?_
    rw [← pre_kind]
    rcases List.mem_append.1 hx with hx | hx
    · exact List.mem_append_left _ hx
    · split at hx
      · cases hx
      · exact List.mem_append_right _ hx
  · obtain ⟨n, _, rfl⟩ := List.mem_map.1 hx
    exact ne_left (ne_of_append (by decide))

theorem fields_scope (main : Str) (h : Holder) (hn : h.Named) : ∀ rs : List Str, (∀ x ∈ rs, x ≠ []) →
    scopeInternal main scopeSep .field false true ((rs.map fun n => ({ ty := .field, name := n } : GElem)) ++ h.chain) =
      joinWith scopeSep (topOf main ++ around' [] h rs) := by
  intro rs
  induction rs with
  | nil => intro _; simpa [around'] using holder_scope main h hn
  | cons r rs ih =>
    intro hr
    have := step (e := { ty := .field, name := r }) (leaf := .field) false (by simp) (hr r List.mem_cons_self)
      (ih fun x hx => hr x (List.mem_cons_of_mem _ hx)) (top_ne (around_ne [] hn rs))
    rw [List.map_cons, List.cons_append, this, ifl, around_parent, around_cons]
    simp [fieldScopeSuffix]

theorem fields_common (main : Str) (hm : main ≠ []) (h : Holder) (hn : h.Named) : ∀ rs : List Str,
    commonInternal main scopeSep .field false ((rs.map fun n => ({ ty := .field, name := n } : GElem)) ++ h.chain) =
      joinWith scopeSep (main :: around' "Common".toList h rs) := by
  intro rs
  induction rs with
  | nil => simpa [around'] using holder_common main hm h hn
  | cons r rs ih =>
    have := cstep (e := { ty := .field, name := r }) (leaf := .field) false (by simp) ih (main_ne hm (around_ne _ hn rs))
    rw [List.map_cons, List.cons_append, this, ifl, around_parent, around_cons]
    simp [fieldScopeSuffix]

end ScopeProofs
open ScopeProofs

/-- The generated code refers to the class of a field by the namespaces and structs it is declared in: those of what holds it, the structs with the members of the fields
    around it, and its class name; with or without the namespace of the schema. -/
theorem C96_field (main : Str) (hm : main ≠ []) (addMain : Bool) (h : Holder) (hn : h.Named) (outer : List Str) (name : Str) (ho : ∀ x ∈ outer, x ≠ []) (hx : name ≠ []) :
    scopeFor main addMain true (fieldChain h outer name) =
      joinWith "::".toList ((if addMain then [main] else []) ++ h.scopes [] ++ (outer.map fun n => className n ++ "Members".toList) ++ [className name]) := by
  unfold scopeFor fieldChain
  generalize hb : (if addMain = true then main else []) = base
  have ht : topOf base = if addMain then [main] else [] := by
    subst hb
    cases addMain
    · rfl
    · simp [topOf, hm]
  rw [← ht]
  have := step (e := { ty := .field, name := name }) (leaf := .field) true (by simp) hx
    (fields_scope base h hn outer.reverse fun x hx => ho x (List.mem_reverse.1 hx)) (top_ne (around_ne [] hn _))
  refine this.trans ?_
  rw [ifl, around_parent, ← pre_kind]
  unfold around'
  rw [List.reverse_reverse]
  cases outer with
  | nil => simp [fieldScopeSuffix, scopeSep]
  | cons => simp [fieldScopeSuffix, scopeSep]

/-- The same for the class with the definitions common to all options. -/
theorem C96_common (main : Str) (hm : main ≠ []) (h : Holder) (hn : h.Named) (outer : List Str) (name : Str) :
    commonScopeFor main (fieldChain h outer name) =
      joinWith "::".toList (main :: h.scopes "Common".toList ++ (outer.map fun n => className n ++ "Members".toList ++ "Common".toList) ++ [className name ++ "Common".toList]) := by
  unfold commonScopeFor fieldChain
  have := cstep (e := { ty := .field, name := name }) (leaf := .field) true (by simp)
    (fields_common main hm h hn outer.reverse) (main_ne hm (around_ne _ hn _))
  refine this.trans ?_
  rw [ifl, around_parent, ← pre_kind]
  unfold around'
  rw [List.reverse_reverse]
  cases outer with
  | nil => simp [fieldScopeSuffix, scopeSep]
  | cons => simp [fieldScopeSuffix, scopeSep]

/-- The class of a layer is referred to inside the struct of the layers of the frame; a message, interface or frame by its class name in the namespace of its kind. An
    interface without a name has the class `Message`. -/
theorem C96_other (main : Str) (hm : main ≠ []) (addMain : Bool) (q : Path) (hq : ∀ x ∈ q, x ≠ []) (n : Str) (hn : n ≠ []) :
    (∀ k, k = .message ∨ k = .frame ∨ k = .iface →
      scopeFor main addMain true (chainOf k q n) = joinWith "::".toList ((if addMain then [main] else []) ++ q ++ kindDir k ++ [className n])) ∧
    (scopeFor main addMain true (chainOf .iface q []) = joinWith "::".toList ((if addMain then [main] else []) ++ q ++ ["Message".toList])) ∧
    ∀ l, l ≠ [] → scopeFor main addMain true ({ ty := .layer, name := l } :: chainOf .frame q n) =
      joinWith "::".toList ((if addMain then [main] else []) ++ q ++ ["frame".toList, className n ++ "Layers".toList, className l]) := by
  unfold scopeFor
  generalize hb : (if addMain = true then main else []) = base
  have ht : topOf base = if addMain then [main] else [] := by
    subst hb
    cases addMain
    · rfl
    · simp [topOf, hm]
  rw [← ht]
  refine ⟨?_, ?_, ?_⟩
  · intro k hk
    have := step (e := { ty := k, name := n }) (leaf := k) true (by rcases hk with rfl | rfl | rfl <;> simp) hn (up_any base scopeSep k q hq false) (top_ne hq)
    rw [parentTy_up] at this
    refine this.trans ?_
    rcases hk with rfl | rfl | rfl <;> simp [subNames, nonFieldScopeSuffix, kindDir, scopeSep, topOf]
  · have hu := up_any base scopeSep .iface q hq false
    unfold chainOf
    rw [scopeInternal, show leafTy (({ ty := .iface, name := [] } : GElem) :: _) = .iface from rfl, hu]
    have := sep_join (M := ["Message".toList]) scopeSep (top_ne (base := base) hq) (by simp)
    refine Eq.trans ?_ this
    simp [addSubNames, subNames, nonFieldScopeSuffix, elemClass, className, topOf, joinWith]
  · intro l hl
    have h1 := step (e := { ty := .frame, name := n }) (leaf := .layer) false (by simp) hn (up_any base scopeSep .layer q hq false) (top_ne hq)
    rw [parentTy_up] at h1
    have h2 := step (e := { ty := .layer, name := l }) (leaf := .layer) true (by simp) hl h1 (by
      intro x hx
      rw [List.append_assoc] at hx
      rcases List.mem_append.1 hx with hx | hx
      · exact top_ne hq x hx
      · rcases List.mem_append.1 hx with hx | hx
        · have : x = "frame".toList := by simpa [subNames] using hx
          rw [this]; decide
        · rw [List.mem_singleton.1 hx]; exact ne_left (class_ne hn))
    refine h2.trans ?_
    simp [subNames, nonFieldScopeSuffix, scopeSep, topOf]

/-- A member of a member of a field of a layer, and a member of a global field. -/
example : scopeFor "S".toList true true (fieldChain (.layer ["ns".toList] "fr".toList "id".toList) ["a".toList, "b".toList] "c".toList) =
      "S::ns::frame::FrLayers::IdMembers::AMembers::BMembers::C".toList ∧
    commonScopeFor "S".toList (fieldChain (.global []) ["a".toList] "b".toList) = "S::field::AMembersCommon::BCommon".toList := by
  decide

end Commsdsl.Props
