import Verif.Spec.GenC
/-!
# The functions of the C interface for fields: C128, C129
-/
namespace Commsdsl.Props
set_option linter.unusedSimpArgs false
open Commsdsl Gen Spec

namespace CProofs

theorem declared_append (a b : List CDecl) : declared (a ++ b) = declared a ++ declared b := by
  induction a with
  | nil => rfl
  | cons x l ih => cases x <;> simp [declared, ih]

theorem declared_map (l : List CFunc) : declared (l.map .func) = l := by
  induction l with
  | nil => rfl
  | cons x l ih => simp [declared, ih]

/-- Leaves declare what they define. -/
theorem leaf_same (h : CHead) (l : CLeaf) : declared (headerLeaf h l) = sourceLeaf h l := by
  cases l with
  | enum fixed => exact declared_map _
  | num fixed sp => exact declared_map _
  | set fixed bits =>
    show declared ((headerAccess h.base fixed).map .func ++ .type _ :: (headerBits h.base bits).map .func) = _
    rw [declared_append, declared_map]
    exact congrArg _ (declared_map _)
  | string => rfl
  | data fixed => cases fixed <;> rfl
  | ref t => rfl

theorem variant_same (h : CHead) : declared (headerVariant h) = sourceVariant h := rfl

/-- The wrapper of a field without versions -/
theorem wrap_same {st : Str} {h : CHead} (hv : h.verOpt = false) (code : List CDecl) : declared (headerWrap st h code) = sourceWrap st h (declared code) := by
  have hb : h.base = h.name := by simp [CHead.base, hv]
  simp only [headerWrap, sourceWrap, hv, hb]
  show declared ((code ++ _) ++ _) = _
  rw [declared_append, declared_append, declared_map]
  rfl

mutual
theorem plain_same (st : Str) : ∀ f : CFld, (∀ g ∈ within f, g.head.verOpt = false ∧ ¬ isOptional g) → declared (f.header st) = f.source st
  | .leaf h l, hp => by
    have this : h.verOpt = false := (hp (.leaf h l) (by simp [within])).1
    simp only [CFld.header, CFld.source]; rw [wrap_same this, leaf_same]
  | .list h ext, hp => by
    have this : h.verOpt = false := (hp (.list h ext) (by simp [within])).1
    simp only [CFld.header, CFld.source]; rw [wrap_same this, declared_map]; rfl
  | .listOwn h el, hp => by
    have this : h.verOpt = false := (hp (.listOwn h el) (by simp [within])).1
    have ih := plain_same st el fun g hg => hp g (by simp [within, hg])
    simp only [CFld.header, CFld.source]; rw [wrap_same this, declared_append, declared_map, ih]; rfl
  | .optional h ext, hp => absurd trivial (hp (.optional h ext) (by simp [within])).2
  | .optionalOwn h f, hp => absurd trivial (hp (.optionalOwn h f) (by simp [within])).2
  | .bundle h ms, hp => by
    have this : h.verOpt = false := (hp (.bundle h ms) (by simp [within])).1
    have ih := plain_all st ms fun g hg => hp g (by simp [within, hg])
    simp only [CFld.header, CFld.source]; rw [wrap_same this, declared_append, declared_map, ih]
  | .variant h ms, hp => by
    have this : h.verOpt = false := (hp (.variant h ms) (by simp [within])).1
    have ih := plain_all st ms fun g hg => hp g (by simp [within, hg])
    simp only [CFld.header, CFld.source]; rw [wrap_same this, declared_append, declared_append, declared_map, variant_same, ih]
theorem plain_all (st : Str) : ∀ fs : List CFld, (∀ g ∈ withinAll fs, g.head.verOpt = false ∧ ¬ isOptional g) → declared (headersOf st fs) = sourcesOf st fs
  | [], _ => rfl
  | f :: fs, hp => by
    simp only [headersOf, sourcesOf]
    rw [declared_append, plain_same st f fun g hg => hp g (by simp [withinAll, hg]), plain_all st fs fun g hg => hp g (by simp [withinAll, hg])]
end

/-! ## All fields -/

/-- Declared functions are defined, or `P` holds of their names. -/
def Covers (P : Str → Prop) (l : List CDecl) (d : List CFunc) : Prop := ∀ fn ∈ declared l, fn ∈ d ∨ P fn.name

theorem Covers.append {P : Str → Prop} {a b : List CDecl} {c d : List CFunc} (h1 : Covers P a c) (h2 : Covers P b d) : Covers P (a ++ b) (c ++ d) := by
  intro fn hf
  rw [declared_append, List.mem_append] at hf
  rcases hf with h | h
  · exact (h1 fn h).imp (List.mem_append_left _) id
  · exact (h2 fn h).imp (List.mem_append_right _) id

theorem Covers.same {P : Str → Prop} (l : List CFunc) : Covers P (l.map .func) l := by
  intro fn hf; rw [declared_map] at hf; exact .inl hf

theorem Covers.mono {P Q : Str → Prop} {l : List CDecl} {d : List CFunc} (h : Covers P l d) (hi : ∀ s, P s → Q s) : Covers Q l d :=
  fun fn hf => (h fn hf).imp id (hi _)

theorem Covers.typed {P : Str → Prop} {l : List CDecl} {d : List CFunc} (n : Str) (h : Covers P l d) : Covers P (.type n :: l) d := h

theorem covers_opt {P : Str → Prop} {n inner : Str} (h1 : P (n ++ "_isTentative".toList)) (h2 : P (n ++ "_setTentative".toList)) :
    Covers P ((headerOpt n inner).map .func) (sourceOpt n inner) := by
  intro fn hf
  rw [declared_map] at hf
  simp only [headerOpt, List.mem_cons, List.not_mem_nil, or_false] at hf
  rcases hf with h | h | h | h | h | h | h <;> subst h
  · exact .inl (by simp [sourceOpt])
  · exact .inl (by simp [sourceOpt])
  · exact .inl (by simp [sourceOpt])
  · exact .inl (by simp [sourceOpt])
  · exact .inl (by simp [sourceOpt])
  · exact .inr h1
  · exact .inr h2

theorem covers_common {P : Str → Prop} {st name n : Str} (h : name ≠ n → P (n ++ "_name".toList)) :
    Covers P ((headerCommon st n).map .func) (sourceCommon st name n) := by
  intro fn hf
  rw [declared_map] at hf
  simp only [headerCommon, List.mem_cons, List.not_mem_nil, or_false] at hf
  rcases hf with h' | h' | h' | h' | h' <;> subst h'
  · exact .inl (by simp [sourceCommon])
  · exact .inl (by simp [sourceCommon])
  · exact .inl (by simp [sourceCommon])
  · by_cases hn : name = n
    · subst hn; exact .inl (by simp [sourceCommon])
    · exact .inr (h hn)
  · exact .inl (by simp [sourceCommon])

theorem covers_wrap {st : Str} (g : CFld) {P : Str → Prop} (hP : ∀ s, misspelt g s → P s) {code : List CDecl} {d : List CFunc} (hc : Covers P code d) :
    Covers P (headerWrap st g.head code) (sourceWrap st g.head d) := by
  unfold headerWrap sourceWrap
  refine Covers.append (Covers.append (Covers.typed _ hc) (covers_common ?_)) ?_
  · intro hn
    have hv : g.head.verOpt = true := by
      cases hv : g.head.verOpt with
      | true => rfl
      | false => exact absurd (by simp [CHead.base, hv]) hn
    refine hP _ (.inl ⟨hv, .inr (.inr ?_)⟩)
    simp [CHead.base, hv, voptSuffix]
  · cases hv : g.head.verOpt with
    | false => intro fn hf; cases hf
    | true =>
      simp only [if_true, List.map_append]
      refine Covers.typed _ (Covers.append (covers_opt (hP _ ?_) (hP _ ?_)) (covers_common fun h => absurd rfl h))
      · exact .inl ⟨hv, .inl rfl⟩
      · exact .inl ⟨hv, .inr (.inl rfl)⟩

theorem opt_misspelt (g : CFld) (ho : isOptional g) : misspelt g (g.head.base ++ "_isTentative".toList) ∧ misspelt g (g.head.base ++ "_setTentative".toList) := by
  have : g.head.base = g.head.name ++ (if g.head.verOpt then "Field".toList else []) := by
    unfold CHead.base; split <;> simp [voptSuffix]
  rw [this]
  exact ⟨.inr ⟨ho, _, rfl, .inl rfl⟩, .inr ⟨ho, _, rfl, .inr rfl⟩⟩

mutual
theorem covers (st : Str) : ∀ f : CFld, Covers (fun s => ∃ g ∈ within f, misspelt g s) (f.header st) (f.source st)
  | .leaf h l => by
    simp only [CFld.header, CFld.source]
    refine covers_wrap (.leaf h l) (fun s hs => ⟨_, by simp [within], hs⟩) ?_
    intro fn hf; rw [leaf_same] at hf; exact .inl hf
  | .list h ext => by
    simp only [CFld.header, CFld.source]
    exact covers_wrap (.list h ext) (fun s hs => ⟨_, by simp [within], hs⟩) (Covers.same _)
  | .listOwn h el => by
    simp only [CFld.header, CFld.source]
    refine covers_wrap (.listOwn h el) (fun s hs => ⟨_, by simp [within], hs⟩) (Covers.append ?_ (Covers.same _))
    exact (covers st el).mono fun s ⟨g, hg, hm⟩ => ⟨g, by simp [within, hg], hm⟩
  | .optional h ext => by
    simp only [CFld.header, CFld.source]
    refine covers_wrap (.optional h ext) (fun s hs => ⟨_, by simp [within], hs⟩) ?_
    exact covers_opt ⟨_, by simp [within], (opt_misspelt (.optional h ext) trivial).1⟩ ⟨_, by simp [within], (opt_misspelt (.optional h ext) trivial).2⟩
  | .optionalOwn h f => by
    simp only [CFld.header, CFld.source]
    refine covers_wrap (.optionalOwn h f) (fun s hs => ⟨_, by simp [within], hs⟩) (Covers.append ?_ ?_)
    · exact (covers st f).mono fun s ⟨g, hg, hm⟩ => ⟨g, by simp [within, hg], hm⟩
    · exact covers_opt ⟨.optionalOwn h f, by simp [within], (opt_misspelt (.optionalOwn h f) trivial).1⟩
        ⟨.optionalOwn h f, by simp [within], (opt_misspelt (.optionalOwn h f) trivial).2⟩
  | .bundle h ms => by
    simp only [CFld.header, CFld.source]
    refine covers_wrap (.bundle h ms) (fun s hs => ⟨_, by simp [within], hs⟩) (Covers.append ?_ (Covers.same _))
    exact (coversAll st ms).mono fun s ⟨g, hg, hm⟩ => ⟨g, by simp [within, hg], hm⟩
  | .variant h ms => by
    simp only [CFld.header, CFld.source]
    refine covers_wrap (.variant h ms) (fun s hs => ⟨_, by simp [within], hs⟩) (Covers.append (Covers.append ?_ (Covers.same _)) ?_)
    · exact (coversAll st ms).mono fun s ⟨g, hg, hm⟩ => ⟨g, by simp [within, hg], hm⟩
    · intro fn hf; rw [variant_same] at hf; exact .inl hf
theorem coversAll (st : Str) : ∀ fs : List CFld, Covers (fun s => ∃ g ∈ withinAll fs, misspelt g s) (headersOf st fs) (sourcesOf st fs)
  | [] => fun _ hf => nomatch hf
  | f :: fs => by
    simp only [headersOf, sourcesOf]
    exact Covers.append ((covers st f).mono fun s ⟨g, hg, hm⟩ => ⟨g, by simp [withinAll, hg], hm⟩)
      ((coversAll st fs).mono fun s ⟨g, hg, hm⟩ => ⟨g, by simp [withinAll, hg], hm⟩)
end

/-! ## Types -/

theorem known_nil {K : Str → Prop} : TypesKnown K [] := by
  intro pre fn post h; cases pre <;> cases h

theorem known_type {K : Str → Prop} {n : Str} {l : List CDecl} (h : TypesKnown (fun s => K s ∨ s = n) l) : TypesKnown K (.type n :: l) := by
  intro pre fn post he t ht
  cases pre with
  | nil => cases he
  | cons x pre =>
    obtain ⟨rfl, he'⟩ := List.cons.inj he
    rcases h pre fn post he' t ht with (h | h) | h
    · exact .inl h
    · exact .inr (by rw [← h]; exact List.mem_cons_self ..)
    · exact .inr (List.mem_cons_of_mem _ h)

theorem known_append {K : Str → Prop} {a b : List CDecl} (ha : TypesKnown K a) (hb : TypesKnown (fun s => K s ∨ .type s ∈ a) b) : TypesKnown K (a ++ b) := by
  intro pre fn post he t ht
  rcases List.append_eq_append_iff.1 he with ⟨c, hc, hd⟩ | ⟨c, hc, hd⟩
  · rcases hb c fn post hd t ht with (h | h) | h
    · exact .inl h
    · exact .inr (by rw [hc]; exact List.mem_append_left _ h)
    · exact .inr (by rw [hc]; exact List.mem_append_right _ h)
  · cases c with
    | nil =>
      rcases hb [] fn post (by simpa using hd.symm) t ht with (h | h) | h
      · exact .inl h
      · exact .inr (by rw [hc] at h; simpa using h)
      · cases h
    | cons x c =>
      obtain ⟨rfl, hd'⟩ := List.cons.inj hd
      exact ha pre fn c hc t ht

theorem known_mono {K L : Str → Prop} {l : List CDecl} (h : TypesKnown K l) (hi : ∀ s, K s → L s) : TypesKnown L l :=
  fun pre fn post he t ht => (h pre fn post he t ht).imp (hi _) id

/-- The types of a function are known. -/
def Good (K : Str → Prop) (fn : CFunc) : Prop := ∀ t ∈ fn.ret :: fn.params, K t.base

theorem known_funcs {K : Str → Prop} {l : List CFunc} (h : ∀ fn ∈ l, Good K fn) : TypesKnown K (l.map .func) := by
  induction l with
  | nil => exact known_nil
  | cons x l ih =>
    intro pre fn post he t ht
    cases pre with
    | nil => cases he; exact .inl (h _ (List.mem_cons_self ..) t ht)
    | cons y pre =>
      obtain ⟨_, he'⟩ := List.cons.inj he
      exact (ih (fun fn hf => h fn (List.mem_cons_of_mem _ hf)) pre fn post he' t ht).imp id (List.mem_cons_of_mem _)

/-- Names that are always known. -/
def Std (st : Str) (K : Str → Prop) : Prop := K st ∧ ∀ s ∈ builtin, K s

theorem std_list {st : Str} {K : Str → Prop} (hs : Std st K) :
    K st ∧ K "void".toList ∧ K "bool".toList ∧ K "char".toList ∧ K "size_t".toList ∧ K "uint8_t".toList := by
  refine ⟨hs.1, hs.2 _ ?_, hs.2 _ ?_, hs.2 _ ?_, hs.2 _ ?_, hs.2 _ ?_⟩ <;> simp only [builtin, List.map_cons, List.mem_cons, true_or, or_true]

theorem std_common {st n : Str} {K : Str → Prop} (hs : Std st K) (hn : K n) : ∀ fn ∈ headerCommon st n, Good K fn := by
  obtain ⟨h0, h1, h2, h3, h4, h5⟩ := std_list hs
  simp only [headerCommon, Good, List.mem_cons, List.not_mem_nil, or_false, forall_eq_or_imp, forall_eq, cPtr, cConstPtr, cPlain, h0, h1, h2, h3, h4, h5, hn, and_self]

theorem std_opt {st n inner : Str} {K : Str → Prop} (hs : Std st K) (hn : K n) (hi : K inner) : ∀ fn ∈ headerOpt n inner, Good K fn := by
  obtain ⟨h0, h1, h2, h3, h4, h5⟩ := std_list hs
  simp only [headerOpt, Good, List.mem_cons, List.not_mem_nil, or_false, forall_eq_or_imp, forall_eq, cPtr, cConstPtr, cPlain, h0, h1, h2, h3, h4, h5, hn, hi, and_self]

theorem std_elems {st n el : Str} {K : Str → Prop} (hs : Std st K) (hn : K n) (hi : K el) : ∀ fn ∈ headerList n el, Good K fn := by
  obtain ⟨h0, h1, h2, h3, h4, h5⟩ := std_list hs
  simp only [headerList, Good, List.mem_cons, List.not_mem_nil, or_false, forall_eq_or_imp, forall_eq, cPtr, cConstPtr, cPlain, h0, h1, h2, h3, h4, h5, hn, hi, and_self]

theorem std_access {st n : Str} {fixed : Bool} {K : Str → Prop} (hs : Std st K) (hn : K n) (hv : K (cJoin n "ValueType")) :
    ∀ fn ∈ headerAccess n fixed, Good K fn := by
  obtain ⟨h0, h1, h2, h3, h4, h5⟩ := std_list hs
  cases fixed <;>
  simp only [headerAccess, Good, Bool.false_eq_true, if_true, if_false, List.mem_cons, List.not_mem_nil, or_false, forall_eq_or_imp, forall_eq, cPtr, cConstPtr, cPlain,
    cValueType, h0, h1, h2, h3, h4, h5, hn, hv, and_self]

theorem std_specials {st : Str} {h : CHead} {sp : List Str} {K : Str → Prop} (hs : Std st K) (hn : K h.name) (hv : K (cJoin h.name "ValueType")) :
    ∀ fn ∈ headerSpecials h sp, Good K fn := by
  obtain ⟨h0, h1, h2, h3, h4, h5⟩ := std_list hs
  intro fn hf
  obtain ⟨s, _, hm⟩ := List.mem_flatMap.1 hf
  simp only [List.mem_cons, List.not_mem_nil, or_false, cPtr, cConstPtr, cPlain] at hm
  intro t ht
  rcases hm with rfl | rfl | rfl <;> simp only [List.mem_cons, List.not_mem_nil, or_false] at ht
  · subst ht; exact hv
  · rcases ht with rfl | rfl <;> assumption
  · rcases ht with rfl | rfl <;> assumption

theorem std_bits {st n : Str} {bits : List Str} {K : Str → Prop} (hs : Std st K) (hn : K n) (hv : K (cJoin n "BitIdx")) :
    ∀ fn ∈ headerBits n bits, Good K fn := by
  obtain ⟨h0, h1, h2, h3, h4, h5⟩ := std_list hs
  intro fn hf t ht
  simp only [headerBits, List.mem_cons, List.mem_flatMap, List.not_mem_nil, or_false] at hf
  rcases hf with rfl | rfl | ⟨b, _, rfl | rfl⟩ <;> simp only [List.mem_cons, List.not_mem_nil, or_false, cPlain, cConstPtr, cPtr] at ht
  · rcases ht with rfl | rfl | rfl <;> assumption
  · rcases ht with rfl | rfl | rfl | rfl <;> assumption
  · rcases ht with rfl | rfl <;> assumption
  · rcases ht with rfl | rfl | rfl <;> assumption

theorem Std.mono {st : Str} {K L : Str → Prop} (h : Std st K) (hi : ∀ s, K s → L s) : Std st L := ⟨hi _ h.1, fun s hs => hi _ (h.2 s hs)⟩

theorem known_cons {K : Str → Prop} {fn : CFunc} {l : List CDecl} (hf : Good K fn) (h : TypesKnown K l) : TypesKnown K (.func fn :: l) := by
  intro pre f post he t ht
  cases pre with
  | nil => cases he; exact .inl (hf t ht)
  | cons x pre =>
    obtain ⟨rfl, he'⟩ := List.cons.inj he
    exact (h pre f post he' t ht).imp id (List.mem_cons_of_mem _)

theorem known_leaf {st : Str} {K : Str → Prop} (hs : Std st K) (h : CHead) (l : CLeaf) (hn : K h.base) (hv : ¬ optionalSpecials (.leaf h l))
    (hu : ∀ s, usesField (.leaf h l) s → K s) : TypesKnown K (headerLeaf h l) := by
  have up : ∀ {n : Str} s, K s → (K s ∨ s = n) := fun _ => .inl
  obtain ⟨h0, h1, h2, h3, h4, h5⟩ := std_list hs
  cases l with
  | enum fixed => exact known_type (known_funcs (std_access (hs.mono up) (.inl hn) (.inr rfl)))
  | num fixed sp =>
    refine known_type (known_funcs ?_)
    intro fn hf
    rcases List.mem_append.1 hf with hf | hf
    · exact std_access (hs.mono up) (.inl hn) (.inr rfl) fn hf
    · cases hvo : h.verOpt with
      | false =>
        have hb : h.name = h.base := by simp [CHead.base, hvo]
        exact std_specials (h := h) (sp := sp) (K := fun s => K s ∨ s = cJoin h.base "ValueType") (hs.mono up) (.inl (hb ▸ hn)) (.inr (by rw [hb])) fn hf
      | true =>
        have : sp = [] := Classical.byContradiction fun hne => hv ⟨hvo, hne⟩
        subst this; cases hf
  | set fixed bits =>
    refine known_type (known_append (known_funcs (std_access (hs.mono up) (.inl hn) (.inr rfl))) ?_)
    exact known_type (known_funcs (std_bits ((hs.mono up).mono fun s h => .inl (.inl h)) (.inl (.inl (.inl hn))) (.inr rfl)))
  | string =>
    refine known_cons ?_ (known_cons ?_ (known_cons ?_ known_nil)) <;> intro t ht <;>
      simp only [List.mem_cons, List.not_mem_nil, or_false, cPlain, cConstPtr, cPtr] at ht
    · rcases ht with rfl | rfl | rfl | rfl <;> assumption
    · rcases ht with rfl | rfl | rfl | rfl <;> assumption
    · rcases ht with rfl | rfl <;> assumption
  | data fixed =>
    refine known_cons ?_ (known_cons ?_ ?_)
    · intro t ht
      simp only [List.mem_cons, List.not_mem_nil, or_false, cPlain, cConstPtr, cPtr] at ht
      rcases ht with rfl | rfl | rfl | rfl <;> assumption
    · intro t ht
      simp only [List.mem_cons, List.not_mem_nil, or_false, cPlain, cConstPtr, cPtr] at ht
      rcases ht with rfl | rfl <;> assumption
    · cases fixed with
      | true => exact known_nil
      | false =>
        refine known_cons ?_ known_nil
        intro t ht
        simp only [List.mem_cons, List.not_mem_nil, or_false, cPlain, cConstPtr, cPtr] at ht
        rcases ht with rfl | rfl | rfl | rfl <;> assumption
  | ref target =>
    refine known_cons ?_ known_nil
    intro t ht
    simp only [List.mem_cons, List.not_mem_nil, or_false, cPlain, cConstPtr, cPtr] at ht
    rcases ht with rfl | rfl
    · exact hu _ rfl
    · exact hn

theorem known_wrap {st : Str} {K : Str → Prop} (hs : Std st K) (h : CHead) {code : List CDecl} (hc : TypesKnown (fun s => K s ∨ s = h.base) code) :
    TypesKnown K (headerWrap st h code) := by
  unfold headerWrap
  have hbt : CDecl.type h.base ∈ CDecl.type h.base :: code := List.mem_cons_self ..
  refine known_append (known_append (known_type hc) (known_funcs (std_common (hs.mono fun _ => .inl) (.inr hbt)))) ?_
  cases h.verOpt with
  | false => exact known_nil
  | true =>
    refine known_type (known_funcs ?_)
    intro fn hf
    have hbase : (CDecl.type h.base) ∈ (CDecl.type h.base :: code) ++ (headerCommon st h.base).map .func := List.mem_append_left _ hbt
    rcases List.mem_append.1 hf with hf | hf
    · exact std_opt (hs.mono fun _ h => .inl (.inl h)) (.inr rfl) (.inl (.inr hbase)) fn hf
    · exact std_common (hs.mono fun _ h => .inl (.inl h)) (.inr rfl) fn hf

theorem own_type_wrap (st : Str) (h : CHead) (code : List CDecl) : CDecl.type h.name ∈ headerWrap st h code := by
  unfold headerWrap
  cases hv : h.verOpt with
  | false => simp [CHead.base, hv]
  | true => simp

theorem own_type (st : Str) (f : CFld) : CDecl.type f.head.name ∈ f.header st := by
  cases f <;> simp only [CFld.header, CFld.head] <;> exact own_type_wrap ..

theorem own_all (st : Str) (fs : List CFld) (f : CFld) (hf : f ∈ fs) : CDecl.type f.head.name ∈ headersOf st fs := by
  induction fs with
  | nil => cases hf
  | cons x l ih =>
    simp only [headersOf, List.mem_append]
    rcases List.mem_cons.1 hf with rfl | h
    · exact .inl (own_type st f)
    · exact .inr (ih h)

/-- The end of the header of a variant -/
theorem known_variant {st : Str} {K : Str → Prop} (hs : Std st K) (h : CHead) (hn : K h.base) : TypesKnown K (headerVariant h) := by
  obtain ⟨h0, h1, h2, h3, h4, h5⟩ := std_list hs
  refine known_type (known_cons ?_ (known_cons ?_ (known_cons ?_ (known_type (known_cons ?_ known_nil))))) <;> intro t ht <;>
    simp only [List.mem_cons, List.not_mem_nil, or_false, cPlain, cConstPtr, cPtr] at ht
  · rcases ht with rfl | rfl
    · exact .inr rfl
    · exact .inl hn
  · rcases ht with rfl | rfl | rfl
    · exact .inl h1
    · exact .inl hn
    · exact .inr rfl
  · rcases ht with rfl | rfl
    · exact .inl h1
    · exact .inl hn
  · rcases ht with rfl | rfl | rfl
    · exact .inl (.inl h1)
    · exact .inl (.inl hn)
    · exact .inr rfl

mutual
theorem types (st : Str) : ∀ (f : CFld) (K : Str → Prop), Std st K → (∀ g ∈ within f, ¬ optionalSpecials g) → (∀ g ∈ within f, ∀ s, usesField g s → K s) →
    TypesKnown K (f.header st)
  | .leaf h l, K, hs, hv, hu => by
    simp only [CFld.header]
    exact known_wrap hs h (known_leaf (hs.mono fun _ => .inl) h l (.inr rfl) (hv _ (by simp [within])) fun s h => .inl (hu _ (by simp [within]) s h))
  | .list h ext, K, hs, hv, hu => by
    simp only [CFld.header]
    exact known_wrap hs h (known_funcs (std_elems (hs.mono fun _ => .inl) (.inr rfl) (.inl (hu (.list h ext) (by simp [within]) ext rfl))))
  | .listOwn h el, K, hs, hv, hu => by
    simp only [CFld.header]
    refine known_wrap hs h (known_append (types st el _ (hs.mono fun _ => .inl) (fun g hg => hv g (by simp [within, hg]))
      fun g hg s h => .inl (hu g (by simp [within, hg]) s h)) ?_)
    exact known_funcs (std_elems (hs.mono fun _ h => .inl (.inl h)) (.inl (.inr rfl)) (.inr (own_type st el)))
  | .optional h ext, K, hs, hv, hu => by
    simp only [CFld.header]
    exact known_wrap hs h (known_funcs (std_opt (hs.mono fun _ => .inl) (.inr rfl) (.inl (hu (.optional h ext) (by simp [within]) ext rfl))))
  | .optionalOwn h f, K, hs, hv, hu => by
    simp only [CFld.header]
    refine known_wrap hs h (known_append (types st f _ (hs.mono fun _ => .inl) (fun g hg => hv g (by simp [within, hg]))
      fun g hg s h => .inl (hu g (by simp [within, hg]) s h)) ?_)
    exact known_funcs (std_opt (hs.mono fun _ h => .inl (.inl h)) (.inl (.inr rfl)) (.inr (own_type st f)))
  | .bundle h ms, K, hs, hv, hu => by
    simp only [CFld.header]
    refine known_wrap hs h (known_append (typesAll st ms _ (hs.mono fun _ => .inl) (fun g hg => hv g (by simp [within, hg]))
      fun g hg s h => .inl (hu g (by simp [within, hg]) s h)) (known_funcs ?_))
    intro fn hf t ht
    obtain ⟨m, hm, rfl⟩ := List.mem_map.1 hf
    simp only [memberFunc, List.mem_cons, List.not_mem_nil, or_false, cPtr] at ht
    rcases ht with rfl | rfl
    · exact .inr (own_all st ms m hm)
    · exact .inl (.inr rfl)
  | .variant h ms, K, hs, hv, hu => by
    simp only [CFld.header]
    refine known_wrap hs h (known_append (known_append (typesAll st ms _ (hs.mono fun _ => .inl) (fun g hg => hv g (by simp [within, hg]))
      fun g hg s h => .inl (hu g (by simp [within, hg]) s h)) (known_funcs ?_)) (known_variant (hs.mono fun _ h => .inl (.inl h)) h (.inl (.inr rfl))))
    intro fn hf t ht
    have hvoid := (std_list hs).2.1
    obtain ⟨m, hm, hfn⟩ := List.mem_flatMap.1 hf
    simp only [variantFuncs, List.mem_cons, List.not_mem_nil, or_false, cPtr] at hfn
    rcases hfn with rfl | rfl | rfl <;> simp only [List.mem_cons, List.not_mem_nil, or_false, cPlain] at ht <;> rcases ht with rfl | rfl
    · exact .inr (own_all st ms m hm)
    · exact .inl (.inr rfl)
    · exact .inl (.inl hvoid)
    · exact .inl (.inr rfl)
    · exact .inr (own_all st ms m hm)
    · exact .inl (.inr rfl)
theorem typesAll (st : Str) : ∀ (fs : List CFld) (K : Str → Prop), Std st K → (∀ g ∈ withinAll fs, ¬ optionalSpecials g) →
    (∀ g ∈ withinAll fs, ∀ s, usesField g s → K s) → TypesKnown K (headersOf st fs)
  | [], _, _, _, _ => known_nil
  | f :: fs, K, hs, hv, hu => by
    simp only [headersOf]
    exact known_append (types st f K hs (fun g hg => hv g (by simp [withinAll, hg])) fun g hg => hu g (by simp [withinAll, hg]))
      (typesAll st fs _ (hs.mono fun _ => .inl) (fun g hg => hv g (by simp [withinAll, hg])) fun g hg s h => .inl (hu g (by simp [withinAll, hg]) s h))
end

end CProofs

open CProofs

/-! ## C128 -/

/-- C128: for fields that are not `<optional>` and cannot be missing because of their versions, themselves and all fields inside them, the source file defines
    exactly the functions the header declares, with the same signatures and in the same order. -/
theorem C128_partial (st : Str) (f : CFld) (h : ∀ g ∈ within f, g.head.verOpt = false ∧ ¬ isOptional g) : f.source st = declared (f.header st) :=
  (plain_same st f h).symm

/-- C128: for all fields, every function the header declares is defined, unless it is one of the few of `misspelt`. -/
theorem C128_declared_partial (st : Str) (f : CFld) (fn : CFunc) (h : fn ∈ declared (f.header st)) :
    fn ∈ f.source st ∨ ∃ g ∈ within f, misspelt g fn.name := covers st f fn h

/-- C128: in the header of a field every function uses types that are known there, unless a number in it has special values and may be missing. -/
theorem C128_types_partial (st : Str) (f : CFld) (h : ∀ g ∈ within f, ¬ optionalSpecials g) :
    TypesKnown (fun s => s ∈ builtin ∨ s = st ∨ ∃ g ∈ within f, usesField g s) (f.header st) :=
  types st f _ ⟨.inr (.inl rfl), fun _ => .inl⟩ h fun g hg _ hs => .inr (.inr ⟨g, hg, hs⟩)

/-! ### Cases -/
namespace CSample

def hd (n : String) (v : Bool := false) : CHead := ⟨("p_field_" ++ n).toList, n.toList, v⟩
def status : Str := "p_ErrorStatus".toList

/-- A bundle with a number with special values, a set, a list of its own and a variant. -/
def bundle : CFld := .bundle (hd "B") [
  .leaf (hd "B_n") (.num false ["Inf".toList]), .leaf (hd "B_s") (.set false ["b0".toList]), .listOwn (hd "B_l") (.leaf (hd "B_e") .string),
  .variant (hd "B_v") [.leaf (hd "B_x") (.enum true), .list (hd "B_y") "p_field_E".toList]]

def ver : CFld := .leaf (hd "V" true) (.num false ["Inf".toList])
def opt : CFld := .optional (hd "O") "p_field_E".toList

end CSample
open CSample

example : ∀ g ∈ within bundle, g.head.verOpt = false ∧ ¬ isOptional g ∧ ¬ optionalSpecials g := by
  simp [bundle, within, withinAll, CFld.head, hd, isOptional, optionalSpecials]
example : (bundle.source status).length = 81 := by decide +kernel
example : ∃ g ∈ within bundle, usesField g "p_field_E".toList :=
  ⟨.list (hd "B_y") "p_field_E".toList, by simp [bundle, within, withinAll], rfl⟩
/-- A field that may be missing: the functions about being tentative and the one for the name of the field inside have no definition. -/
example : ((declared (ver.header status)).filter fun fn => fn ∉ ver.source status).map (fun fn => String.ofList fn.name)
    = ["p_field_VField_name", "p_field_V_isTentative", "p_field_V_setTentative"] := by decide +kernel
example : ((declared (opt.header status)).filter fun fn => fn ∉ opt.source status).map (fun fn => String.ofList fn.name)
    = ["p_field_O_isTentative", "p_field_O_setTentative"] := by decide +kernel
/-- And its functions for special values use a type that nobody defines. -/
example : ¬ TypesKnown (fun s => s ∈ builtin ∨ s = status ∨ ∃ g ∈ within ver, usesField g s) (ver.header status) := by
  intro h
  have := h [.type "p_field_VField".toList, .type "p_field_VField_ValueType".toList,
      .func { ret := cValueType "p_field_VField".toList, name := "p_field_VField_getValue".toList, params := [cConstPtr "p_field_VField".toList] },
      .func { ret := cPlain "void", name := "p_field_VField_setValue".toList, params := [cPtr "p_field_VField".toList, cValueType "p_field_VField".toList] }]
    { ret := cValueType "p_field_V".toList, name := "p_field_V_valueInf".toList, params := [] } _ rfl (cValueType "p_field_V".toList) (by simp)
  rcases this with (h | h | ⟨g, hg, hu⟩) | h
  · revert h; decide +kernel
  · revert h; decide +kernel
  · simp only [ver, within, List.mem_cons, List.not_mem_nil, or_false] at hg
    subst hg; exact hu
  · revert h; decide +kernel

/-! ## C129 -/

/-- C129: the pointer of `LIST_at` leads to the element with the index if there is one, and is null otherwise. -/
theorem C129_at {α : Type} (s : CStore α) (i : Nat) :
    (i < s.elems.length → s.at' i = some i) ∧ (s.elems.length ≤ i → s.at' i = none) := by
  unfold CStore.at'
  constructor <;> intro h <;> split <;> first | rfl | omega

/-- C129: `LIST_remove` takes out the element with the index, leaves the others in order, and says whether there was one. -/
theorem C129_remove {α : Type} (s : CStore α) (i : Nat) :
    (i < s.elems.length → (s.remove i).1.elems = s.elems.take i ++ s.elems.drop (i + 1) ∧ (s.remove i).2 = true) ∧
    (s.elems.length ≤ i → s.remove i = (s, false)) := by
  unfold CStore.remove
  constructor <;> intro h <;> split
  · omega
  · exact ⟨List.eraseIdx_eq_take_drop_succ .., rfl⟩
  · rfl
  · omega

/-- C129: `LIST_append` puts the new element at the end and leads to it, as long as there is room for two more; otherwise nothing changes. -/
theorem C129_append_partial {α : Type} (new : α) (s : CStore α) :
    (s.elems.length + 1 < s.cap → (s.append new).1.elems = s.elems ++ [new] ∧ (s.append new).2 = some s.elems.length ∧ (s.append new).1.cap = s.cap) ∧
    (s.cap ≤ s.elems.length + 1 → s.append new = (s, none)) := by
  unfold CStore.append CStore.insert
  constructor <;> intro h
  · have h1 : ¬ s.cap ≤ max (s.elems.length + 1) (s.elems.length + 1) := by omega
    have h2 : max (s.elems.length + 1) (s.elems.length + 1) - s.elems.length = 1 := by omega
    simp only [h1, if_false, h2]
    simp
  · have h1 : s.cap ≤ max (s.elems.length + 1) (s.elems.length + 1) := by omega
    simp only [h1, if_true]

/-- C129: `LIST_insert` at the end puts the new element there. With an index inside it does not: the new element is at the end, and the pointer leads to the
    element that was there before. No element before is changed or moved. -/
theorem C129_insert_partial {α : Type} (new : α) (s : CStore α) (i : Nat) (hr : max i s.elems.length + 1 < s.cap) :
    (i = s.elems.length → (s.insert new i).1.elems = placed s.elems i new ∧ (s.insert new i).2 = some i) ∧
    (i < s.elems.length → (s.insert new i).1.elems = s.elems ++ [new] ∧ (s.insert new i).2 = some i) ∧
    (s.elems.length < i → (s.insert new i).1.elems.length = i + 1 ∧ (s.insert new i).1.elems.take s.elems.length = s.elems ∧
      (s.insert new i).1.elems[i]? = some new ∧ (s.insert new i).2 = some i) := by
  have h1 : ¬ s.cap ≤ max (i + 1) (s.elems.length + 1) := by omega
  unfold CStore.insert
  simp only [h1, if_false]
  refine ⟨fun h => ?_, fun h => ?_, fun h => ?_⟩
  · subst h
    have h2 : max (s.elems.length + 1) (s.elems.length + 1) - s.elems.length = 1 := by omega
    rw [h2]
    simp [placed]
  · have h2 : max (i + 1) (s.elems.length + 1) - s.elems.length = 1 := by omega
    rw [h2]; simp
  · have h2 : max (i + 1) (s.elems.length + 1) = i + 1 := by omega
    rw [h2]
    refine ⟨?_, ?_, ?_, trivial⟩
    · simp; omega
    · simp
    · rw [List.getElem?_append_right (by omega), List.getElem?_replicate]
      have : i - s.elems.length < i + 1 - s.elems.length := by omega
      simp [this]

/-- A list with room: all of the hypotheses. -/
example : max 1 [7, 8, 9].length + 1 < (CStore.mk [7, 8, 9] 10).cap := by decide
/-- Not an insertion: the new element 0 is not where the pointer leads to. -/
example : ((CStore.mk [7, 8, 9] 10).insert 0 1).1.elems = [7, 8, 9, 0] ∧ ((CStore.mk [7, 8, 9] 10).insert 0 1).2 = some 1 ∧ placed [7, 8, 9] 1 0 = [7, 0, 8, 9] := by
  decide
/-- Room for one more is not enough. -/
example : ((CStore.mk [7] 2).append 0).2 = none := by decide

end Commsdsl.Props
