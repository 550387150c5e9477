import Verif.Spec.GenOptions
import Verif.Props.GenText
import Verif.Lemmas.Text
/-!
# Command line: C104, C105
-/
namespace Commsdsl.Props
open Commsdsl Text Gen Spec

namespace OptProofs

/-- The same names and kinds. -/
def Same (a b : List Opt) : Prop := a.map (fun o => (o.short, o.long, o.hasParam)) = b.map fun o => (o.short, o.long, o.hasParam)

theorem Same.at {a b : List Opt} (h : Same a b) {k : Nat} {o : Opt} (ho : b[k]? = some o) : ∃ o', a[k]? = some o' ∧ o'.short = o.short ∧ o'.long = o.long ∧ o'.hasParam = o.hasParam := by
  have := congrArg (fun l => l[k]?) h
  simp only [List.getElem?_map, ho, Option.map_some] at this
  obtain ⟨o', h1, h2⟩ := Option.map_eq_some_iff.1 this
  simp only [Prod.mk.injEq] at h2
  exact ⟨o', h1, h2⟩

theorem Same.symm {a b : List Opt} (h : Same a b) : Same b a := Eq.symm h

theorem Same.names {a b : List Opt} (h : Same a b) {t : Str} {k : Nat} (hn : NamesOpt b t k) : NamesOpt a t k := by
  obtain ⟨o, h1, h2⟩ := hn
  obtain ⟨o', h3, h4, h5, _⟩ := h.at h1
  exact ⟨o', h3, by rwa [h4, h5]⟩

theorem Same.sound {a b : List Opt} (h : Same a b) (hs : OptsSound b) : OptsSound a := by
  refine ⟨fun o ho => ?_, fun i j o o' h1 h2 h3 h4 => ?_, fun i j o o' h1 h2 h3 h4 => ?_⟩
  · obtain ⟨k, hk⟩ := List.getElem?_of_mem ho
    obtain ⟨o', h1, h2, _⟩ := h.symm.at hk
    rw [← h2]
    exact hs.single o' (List.mem_of_getElem? h1)
  · obtain ⟨p, p1, p2, _⟩ := h.symm.at h1
    obtain ⟨q, q1, q2, _⟩ := h.symm.at h2
    exact hs.shorts i j p q p1 q1 (by rwa [p2]) (by rw [p2, q2, h4])
  · obtain ⟨p, p1, _, p2, _⟩ := h.symm.at h1
    obtain ⟨q, q1, _, q2, _⟩ := h.symm.at h2
    exact hs.longs i j p q p1 q1 (by rwa [p2]) (by rw [p2, q2, h4])

theorem find_spec (get : Opt → Str) (name : Str) (l : List Opt) : ∀ i k, findName get name i l = some k →
    ∃ j o, k = i + j ∧ l[j]? = some o ∧ get o ≠ [] ∧ get o = name := by
  induction l with
  | nil => intro i k h; cases h
  | cons o os ih =>
    intro i k h
    rw [findName] at h
    split at h
    · rename_i k' hk
      cases h
      obtain ⟨j, o', h1, h2, h3⟩ := ih _ _ hk
      exact ⟨j + 1, o', by omega, by simpa using h2, h3⟩
    · split at h
      · rename_i hc
        cases h
        simp only [Bool.and_eq_true, Bool.not_eq_true', List.isEmpty_eq_false_iff, beq_iff_eq] at hc
        exact ⟨0, o, rfl, rfl, hc⟩
      · cases h

theorem find_none (get : Opt → Str) (name : Str) (l : List Opt) : ∀ i, findName get name i l = none → ∀ o ∈ l, get o ≠ [] → get o ≠ name := by
  induction l with
  | nil => intro i _ o ho; cases ho
  | cons o os ih =>
    intro i h x hx hne
    rw [findName] at h
    split at h
    · cases h
    · rename_i hk
      split at h
      · cases h
      · rename_i hc
        rcases List.mem_cons.1 hx with rfl | hx
        · intro he
          rw [he] at hne hc
          exact hc (by simp [hne])
        · exact ih _ hk x hx hne

/-- The option of a name is found. -/
theorem find_iff {get : Opt → Str} {l : List Opt} (hd : ∀ (i j : Nat) o o', l[i]? = some o → l[j]? = some o' → get o ≠ [] → get o = get o' → i = j) (name : Str) (k : Nat) :
    findName get name 0 l = some k ↔ ∃ o, l[k]? = some o ∧ get o ≠ [] ∧ get o = name := by
  constructor
  · intro h
    obtain ⟨j, o, rfl, h1, h2⟩ := find_spec get name l 0 k h
    exact ⟨o, by simpa using h1, h2⟩
  · rintro ⟨o, h1, h2, h3⟩
    cases hf : findName get name 0 l with
    | none => exact absurd h3 (find_none get name l 0 hf o (List.mem_of_getElem? h1) h2)
    | some k' =>
      obtain ⟨j, o', rfl, h4, h5, h6⟩ := find_spec get name l 0 k' hf
      rw [hd k j o o' h1 h4 h2 (by rw [h3, h6])]
      simp

/-- What one part does to the options. -/
def effect (items : List CmdItem) (os : List Opt) : List Opt := os.mapIdx fun k o => { o with
    used := o.used || items.any (CmdItem.uses k), value := ((items.filterMap (CmdItem.valueFor k)).getLast?).getD o.value }

theorem effect_nil (os : List Opt) : effect [] os = os := by
  unfold effect
  refine List.ext_getElem? fun k => ?_
  rw [List.getElem?_mapIdx]
  cases os[k]? <;> simp

theorem effect_cons (it : CmdItem) (items : List CmdItem) (os : List Opt) : effect (it :: items) os = effect items (effect [it] os) := by
  unfold effect
  refine List.ext_getElem? fun k => ?_
  simp only [List.getElem?_mapIdx]
  cases os[k]? with
  | none => rfl
  | some o =>
    simp only [Option.map_some, Option.some.injEq, Opt.mk.injEq, true_and, and_true, List.any_cons, List.any_nil, Bool.or_false, Bool.or_assoc, List.filterMap_cons, List.filterMap_nil]
    cases it.valueFor k with
    | none => simp
    | some v =>
      simp only [List.getLast?_cons, List.getLast?_nil, Option.getD_none, Option.getD_some]

theorem effect_same (items : List CmdItem) (os : List Opt) : Same (effect items os) os := by
  unfold Same effect
  refine List.ext_getElem? fun k => ?_
  simp only [List.getElem?_map, List.getElem?_mapIdx, Option.map_map]
  rfl

/-- The three cases of a text that starts with a dash. -/
theorem step_dash {st : CmdState} (hc : st.cur = none) (hs : OptsSound st.opts) {t : Str} {k : Nat} {o : Opt} (hn : NamesOpt st.opts t k) (ho : st.opts[k]? = some o) :
    cmdStep st t = { st with opts := st.opts.set k { o with used := true }, cur := if o.hasParam then some k else none } := by
  obtain ⟨o', h1, h2⟩ := hn
  rw [ho] at h1
  cases h1
  unfold cmdStep
  rcases h2 with ⟨h2, rfl⟩ | ⟨h2, rfl⟩
  · rcases hs.single o (List.mem_of_getElem? ho) with h3 | ⟨c, h3, hne⟩
    · exact absurd h3 h2
    · have hf := (find_iff hs.shorts [c] k).2 ⟨o, ho, h2, h3⟩
      simp [h3, hc, useOpt, hf, ho, hne]
  · have hf := (find_iff hs.longs o.long k).2 ⟨o, ho, h2, rfl⟩
    simp [hc, useOpt, hf, ho]

theorem step_unknown {st : CmdState} (hc : st.cur = none) {t : Str} (hd : t.head? = some '-') (hn : ∀ k, ¬ NamesOpt st.opts t k) :
    cmdStep st t = { st with unknown := st.unknown ++ [t] } := by
  cases t with
  | nil => cases hd
  | cons a t =>
    simp only [List.head?_cons, Option.some.injEq] at hd
    subst hd
    unfold cmdStep
    cases t with
    | nil => simp [hc]
    | cons b t =>
      by_cases hb : b = '-'
      · subst hb
        have hf : findName Opt.long t 0 st.opts = none := by
          cases hf : findName Opt.long t 0 st.opts with
          | none => rfl
          | some k =>
            obtain ⟨j, o, rfl, h1, h2, h3⟩ := find_spec _ _ _ _ _ hf
            exact absurd ⟨o, h1, .inr ⟨h2, by rw [h3]⟩⟩ (hn j)
        simp [hc, useOpt, hf]
      · have hf : findName Opt.short (b :: t) 0 st.opts = none := by
          cases hf : findName Opt.short (b :: t) 0 st.opts with
          | none => rfl
          | some k =>
            obtain ⟨j, o, rfl, h1, h2, h3⟩ := find_spec _ _ _ _ _ hf
            exact absurd ⟨o, h1, .inl ⟨h2, by rw [h3]⟩⟩ (hn j)
        simp [hc, useOpt, hf, hb]

theorem set_flag {os : List Opt} {k : Nat} {o : Opt} (ho : os[k]? = some o) (t : Str) : os.set k { o with used := true } = effect [.flag t k] os := by
  unfold effect
  refine List.ext_getElem? fun j => ?_
  rw [List.getElem?_set, List.getElem?_mapIdx]
  by_cases hj : k = j
  · subst hj
    have hl : k < os.length := (List.getElem?_eq_some_iff.1 ho).1
    rw [if_pos rfl, if_pos hl, ho]
    simp [CmdItem.uses, CmdItem.valueFor]
  · rw [if_neg hj]
    cases hoj : os[j]? with
    | none => rfl
    | some p =>
      have hk : (k == j) = false := by simp [hj]
      simp [CmdItem.uses, CmdItem.valueFor, hk]

theorem set_param {os : List Opt} {k : Nat} {o : Opt} (ho : os[k]? = some o) (t v : Str) :
    os.set k { o with used := true, value := v } = effect [.param t k v] os := by
  unfold effect
  refine List.ext_getElem? fun j => ?_
  rw [List.getElem?_set, List.getElem?_mapIdx]
  by_cases hj : k = j
  · subst hj
    have hl : k < os.length := (List.getElem?_eq_some_iff.1 ho).1
    rw [if_pos rfl, if_pos hl, ho]
    simp [CmdItem.uses, CmdItem.valueFor]
  · rw [if_neg hj]
    cases hoj : os[j]? with
    | none => rfl
    | some p =>
      have hk : (k == j) = false := by simp [hj]
      simp [CmdItem.uses, CmdItem.valueFor, hj, hk]

/-- One part is read. -/
theorem read_item {st : CmdState} (hc : st.cur = none) (hs : OptsSound st.opts) {it : CmdItem} (hi : it.Ok st.opts) :
    it.tokens.foldl cmdStep st = { opts := effect [it] st.opts, args := st.args ++ ([it].filterMap CmdItem.asArg), cur := none, unknown := st.unknown ++ [it].filterMap CmdItem.asUnknown } := by
  have hset : ∀ t : Str, effect [.arg t] st.opts = st.opts := by
    intro t
    unfold effect
    refine List.ext_getElem? fun k => ?_
    rw [List.getElem?_mapIdx]
    cases st.opts[k]? <;> simp [CmdItem.uses, CmdItem.valueFor]
  have hset' : ∀ t : Str, effect [.unknown t] st.opts = st.opts := by
    intro t
    unfold effect
    refine List.ext_getElem? fun k => ?_
    rw [List.getElem?_mapIdx]
    cases st.opts[k]? <;> simp [CmdItem.uses, CmdItem.valueFor]
  cases it with
  | flag t k =>
    obtain ⟨hn, o, ho, hp⟩ := hi
    rw [CmdItem.tokens, List.foldl_cons, List.foldl_nil, step_dash hc hs hn ho, set_flag ho t]
    simp [hp, CmdItem.asArg, CmdItem.asUnknown]
  | param t k v =>
    obtain ⟨hn, ⟨o, ho, hp⟩, hv⟩ := hi
    rw [CmdItem.tokens, List.foldl_cons, List.foldl_cons, List.foldl_nil, step_dash hc hs hn ho, hp, if_pos rfl]
    have hl : k < st.opts.length := (List.getElem?_eq_some_iff.1 ho).1
    have := set_param ho t v
    rw [hp] at this
    unfold cmdStep
    simp [hv, hl, this, CmdItem.asArg, CmdItem.asUnknown]
  | arg t =>
    obtain ⟨h1, h2⟩ := hi
    rw [CmdItem.tokens, List.foldl_cons, List.foldl_nil, hset]
    unfold cmdStep
    simp [hc, h1, h2, CmdItem.asArg, CmdItem.asUnknown]
  | unknown t =>
    obtain ⟨h1, h2⟩ := hi
    rw [CmdItem.tokens, List.foldl_cons, List.foldl_nil, hset', step_unknown hc h1 h2]
    simp [hc, CmdItem.asArg, CmdItem.asUnknown]

theorem ok_same {a b : List Opt} (h : Same a b) {it : CmdItem} (hi : it.Ok b) : it.Ok a := by
  cases it with
  | flag t k =>
    obtain ⟨hn, o, ho, hp⟩ := hi
    obtain ⟨o', h1, _, _, h2⟩ := h.at ho
    exact ⟨h.names hn, o', h1, h2.trans hp⟩
  | param t k v =>
    obtain ⟨hn, ⟨o, ho, hp⟩, hv⟩ := hi
    obtain ⟨o', h1, _, _, h2⟩ := h.at ho
    exact ⟨h.names hn, ⟨o', h1, h2.trans hp⟩, hv⟩
  | arg t => exact hi
  | unknown t => exact ⟨hi.1, fun k hk => hi.2 k (h.symm.names hk)⟩

theorem read_items (items : List CmdItem) : ∀ st : CmdState, st.cur = none → OptsSound st.opts → (∀ it ∈ items, it.Ok st.opts) →
    (items.flatMap CmdItem.tokens).foldl cmdStep st = { opts := effect items st.opts, args := st.args ++ items.filterMap CmdItem.asArg, cur := none, unknown := st.unknown ++ items.filterMap CmdItem.asUnknown } := by
  induction items with
  | nil => intro st hc _ _; cases st; simp [effect_nil] at hc ⊢; exact hc
  | cons it items ih =>
    intro st hc hs hi
    rw [List.flatMap_cons, List.foldl_append, read_item hc hs (hi it List.mem_cons_self)]
    have hsame := effect_same [it] st.opts
    rw [ih _ rfl (hsame.sound hs) fun x hx => ok_same hsame (hi x (List.mem_cons_of_mem _ hx))]
    rw [effect_cons it items]
    simp only [List.append_assoc, ← List.filterMap_append, List.singleton_append]

end OptProofs
open OptProofs

/-- C104: the command line is read part by part: flags, options with their values, arguments and unknown options, whatever their order; at the end there may be an
    option whose value is missing. An option is used if it is there; its value is the last one given, or the default; arguments and unknown options are kept in order. -/
theorem C104_read (opts : List Opt) (hs : OptsSound opts) (items : List CmdItem) (hi : ∀ it ∈ items, it.Ok opts) (last : Option (Str × Nat))
    (hl : ∀ p, last = some p → NamesOpt opts p.1 p.2 ∧ ∃ o, opts[p.2]? = some o ∧ o.hasParam = true) :
    CmdResult opts items (last.map Prod.snd) (parseCmd opts (items.flatMap CmdItem.tokens ++ last.toList.map Prod.fst)) := by
  unfold parseCmd
  rw [List.foldl_append, read_items items { opts := opts } rfl hs hi]
  have hget : ∀ (k : Nat) o, opts[k]? = some o → (effect items opts)[k]? = some { o with
      used := o.used || items.any (CmdItem.uses k), value := ((items.filterMap (CmdItem.valueFor k)).getLast?).getD o.value } := by
    intro k o ho
    unfold effect
    rw [List.getElem?_mapIdx, ho]
    rfl
  have hlen : (effect items opts).length = opts.length := by unfold effect; simp
  cases last with
  | none =>
    refine ⟨by simp, by simp, hlen, fun k o ho => ?_⟩
    simp only [Option.toList_none, List.map_nil, List.foldl_nil, Option.map_none, reduceCtorEq, decide_false, Bool.or_false]
    exact hget k o ho
  | some p =>
    obtain ⟨hn, o, ho, hp⟩ := hl p rfl
    have hsame := effect_same items opts
    simp only [Option.toList_some, List.map_cons, List.map_nil, List.foldl_cons, List.foldl_nil, Option.map_some]
    rw [step_dash rfl (hsame.sound hs) (hsame.names hn) (hget _ o ho)]
    refine ⟨by simp, by simp, by simp [hlen], fun k o' ho' => ?_⟩
    simp only [List.getElem?_set, hlen]
    by_cases hk : p.2 = k
    · subst hk
      rw [ho] at ho'
      cases ho'
      rw [if_pos rfl, if_pos (List.getElem?_eq_some_iff.1 ho).1]
      simp
    · rw [if_neg hk, hget k o' ho']
      simp [hk]

/-- C104: every command line without empty texts is made of such parts. -/
theorem C104_total (opts : List Opt) (argv : List Str) (he : ∀ t ∈ argv, t ≠ []) :
    ∃ (items : List CmdItem) (last : Option (Str × Nat)), (∀ it ∈ items, CmdItem.Ok opts it) ∧ (∀ p, last = some p → NamesOpt opts p.1 p.2 ∧ ∃ o, opts[p.2]? = some o ∧ o.hasParam = true) ∧
      argv = items.flatMap CmdItem.tokens ++ last.toList.map Prod.fst := by
  match argv with
  | [] => exact ⟨[], none, by simp, by simp, rfl⟩
  | t :: ts =>
    have ht := he t List.mem_cons_self
    have hts := fun x hx => he x (List.mem_cons_of_mem t hx)
    by_cases hd : t.head? = some '-'
    · by_cases hn : ∃ k, NamesOpt opts t k
      · obtain ⟨k, hn⟩ := hn
        obtain ⟨o, ho, _⟩ := id hn
        by_cases hp : o.hasParam = true
        · match ts, hts with
          | [], _ => exact ⟨[], some (t, k), by simp, by rintro p ⟨⟩; exact ⟨hn, o, ho, hp⟩, rfl⟩
          | v :: vs, hts =>
            obtain ⟨items, last, h1, h2, h3⟩ := C104_total opts vs fun x hx => hts x (List.mem_cons_of_mem _ hx)
            refine ⟨.param t k v :: items, last, ?_, h2, by simp [CmdItem.tokens, h3]⟩
            intro it hit
            rcases List.mem_cons.1 hit with rfl | hit
            · exact ⟨hn, ⟨o, ho, hp⟩, hts v List.mem_cons_self⟩
            · exact h1 it hit
        · obtain ⟨items, last, h1, h2, h3⟩ := C104_total opts ts hts
          refine ⟨.flag t k :: items, last, ?_, h2, by simp [CmdItem.tokens, h3]⟩
          intro it hit
          rcases List.mem_cons.1 hit with rfl | hit
          · exact ⟨hn, o, ho, by simpa using hp⟩
          · exact h1 it hit
      · obtain ⟨items, last, h1, h2, h3⟩ := C104_total opts ts hts
        refine ⟨.unknown t :: items, last, ?_, h2, by simp [CmdItem.tokens, h3]⟩
        intro it hit
        rcases List.mem_cons.1 hit with rfl | hit
        · exact ⟨hd, fun k hk => hn ⟨k, hk⟩⟩
        · exact h1 it hit
    · obtain ⟨items, last, h1, h2, h3⟩ := C104_total opts ts hts
      refine ⟨.arg t :: items, last, ?_, h2, by simp [CmdItem.tokens, h3]⟩
      intro it hit
      rcases List.mem_cons.1 hit with rfl | hit
      · exact ⟨ht, hd⟩
      · exact h1 it hit
termination_by argv.length


namespace OptProofs

theorem result_same {opts : List Opt} {items : List CmdItem} {last : Option Nat} {st : CmdState} (h : CmdResult opts items last st) : Same st.opts opts := by
  unfold Same
  refine List.ext_getElem? fun k => ?_
  simp only [List.getElem?_map]
  cases ho : opts[k]? with
  | none =>
    have : st.opts[k]? = none := by rw [List.getElem?_eq_none_iff, h.size]; exact List.getElem?_eq_none_iff.1 ho
    rw [this]
  | some o => rw [h.each k o ho]; rfl

end OptProofs

/-- C104: what the program is told about an option: `isOptUsed` and `optValue` with its long name, or with its short one. -/
theorem C104_asked (opts : List Opt) (hs : OptsSound opts) (items : List CmdItem) (last : Option Nat) (st : CmdState) (h : CmdResult opts items last st) (k : Nat) (o : Opt)
    (ho : opts[k]? = some o) (name : Str) (hn : name = o.long ∧ 1 < name.length ∨ name = o.short ∧ name ≠ [] ∧ ∀ o' ∈ opts, o'.long ≠ name) :
    isOptUsed st.opts name = (o.used || items.any (CmdItem.uses k) || decide (last = some k)) ∧
    optValue st.opts name = if o.hasParam then ((items.filterMap (CmdItem.valueFor k)).getLast?).getD o.value else [] := by
  have hsame := result_same h
  have hs' := hsame.sound hs
  have hk := h.each k o ho
  rcases hn with ⟨rfl, hlen⟩ | ⟨rfl, hne, hno⟩
  · have hf : findName Opt.long o.long 0 st.opts = some k := (find_iff hs'.longs _ _).2 ⟨_, hk, (by intro h0; rw [h0] at hlen; cases hlen), rfl⟩
    have h1 : (o.long.length == 1) = false := by rw [beq_eq_false_iff_ne]; omega
    simp only [isOptUsed, optValue, usedIn, valueIn, h1, Bool.false_and, Bool.false_eq_true, if_false, hf, hk]
    exact ⟨trivial, trivial⟩
  · have hf : findName Opt.short o.short 0 st.opts = some k := (find_iff hs'.shorts _ _).2 ⟨_, hk, hne, rfl⟩
    have hfl : findName Opt.long o.short 0 st.opts = none := by
      cases hc : findName Opt.long o.short 0 st.opts with
      | none => rfl
      | some j =>
        obtain ⟨i, o', rfl, h1, _, h3⟩ := find_spec _ _ _ _ _ hc
        obtain ⟨o2, h4, _, h5, _⟩ := hsame.symm.at h1
        exact absurd (h5.trans h3) (hno o2 (List.mem_of_getElem? h4))
    have h1 : (o.short.length == 1) = true := by
      rcases hs.single o (List.mem_of_getElem? ho) with h0 | ⟨c, h0, _⟩
      · exact absurd h0 hne
      · simp [h0]
    simp only [isOptUsed, optValue, usedIn, valueIn, h1, Bool.true_and, hf, hfl, hk, Option.isSome_some, if_true]
    refine ⟨?_, trivial⟩
    generalize (o.used || items.any (CmdItem.uses k) || decide (last = some k)) = b
    cases b <;> rfl

/-- C104: a name that no option has is never used and has no value. -/
theorem C104_asked_other (opts : List Opt) (items : List CmdItem) (last : Option Nat) (st : CmdState) (h : CmdResult opts items last st) (name : Str)
    (hn : ∀ o ∈ opts, o.long ≠ name ∧ o.short ≠ name) : isOptUsed st.opts name = false ∧ optValue st.opts name = [] := by
  have hsame := result_same h
  have hno : ∀ get : Opt → Str, (∀ o ∈ st.opts, get o ≠ name) → findName get name 0 st.opts = none := by
    intro get hg
    cases hc : findName get name 0 st.opts with
    | none => rfl
    | some j =>
      obtain ⟨i, o', rfl, h1, _, h3⟩ := find_spec _ _ _ _ _ hc
      exact absurd h3 (hg o' (List.mem_of_getElem? h1))
  have hall : ∀ o ∈ st.opts, o.long ≠ name ∧ o.short ≠ name := by
    intro o ho
    obtain ⟨i, hi⟩ := List.getElem?_of_mem ho
    obtain ⟨o2, h4, h6, h5, _⟩ := hsame.symm.at hi
    rw [← h5, ← h6]
    exact hn o2 (List.mem_of_getElem? h4)
  have h1 := hno Opt.long fun o ho => (hall o ho).1
  have h2 := hno Opt.short fun o ho => (hall o ho).2
  simp [isOptUsed, optValue, usedIn, valueIn, h1, h2]

namespace OptProofs

/-- A check of the options. -/
def soundOpts (l : List Opt) : Bool :=
  l.all (fun o => o.short == [] || (o.short.length == 1 && o.short != ['-'])) &&
  (List.range l.length).all fun i => (List.range l.length).all fun j => match l[i]?, l[j]? with
    | some o, some o' => (o.short == [] || o.short != o'.short || i == j) && (o.long == [] || o.long != o'.long || i == j)
    | _, _ => true

theorem soundOpts_spec {l : List Opt} (h : soundOpts l = true) : OptsSound l := by
  simp only [soundOpts, Bool.and_eq_true, List.all_eq_true, List.mem_range] at h
  obtain ⟨h1, h2⟩ := h
  have h3 : ∀ (i j : Nat) o o', l[i]? = some o → l[j]? = some o' → (o.short = [] ∨ o.short ≠ o'.short ∨ i = j) ∧ (o.long = [] ∨ o.long ≠ o'.long ∨ i = j) := by
    intro i j o o' hi hj
    have := h2 i (List.getElem?_eq_some_iff.1 hi).1 j (List.getElem?_eq_some_iff.1 hj).1
    simpa [hi, hj, or_assoc] using this
  refine ⟨fun o ho => ?_, fun i j o o' hi hj hne he => ?_, fun i j o o' hi hj hne he => ?_⟩
  · have := h1 o ho
    simp only [Bool.or_eq_true, beq_iff_eq, Bool.and_eq_true, bne_iff_ne, ne_eq] at this
    rcases this with h | ⟨h, h'⟩
    · exact .inl h
    · obtain ⟨c, hc⟩ := List.length_eq_one_iff.1 h
      exact .inr ⟨c, hc, fun h0 => h' (by rw [hc, h0])⟩
  · rcases (h3 i j o o' hi hj).1 with h | h | h
    · exact absurd h hne
    · exact absurd he h
    · exact h
  · rcases (h3 i j o o' hi hj).2 with h | h | h
    · exact absurd h hne
    · exact absurd he h
    · exact h

end OptProofs

/-- C104: no two options of a program share a name. -/
theorem C104_programs : ∀ opts ∈ [commsOpts, cOpts, swigOpts, latexOpts, testOpts, toolsOpts], OptsSound opts := by
  have : ∀ opts ∈ [commsOpts, cOpts, swigOpts, latexOpts, testOpts, toolsOpts], soundOpts opts = true := by decide +kernel
  exact fun opts ho => soundOpts_spec (this opts ho)

/-- C104: an option declared as `x,name` has the short name `x` and the long name `name`; declared as `name` only, of more than one character, it has no short name. -/
theorem C104_names (x : Char) (name : Str) (hasParam : Bool) (default : Str) (hx : x ≠ ',') (hn : ',' ∉ name) (hne : name ≠ []) :
    makeOpt (x :: ',' :: name) hasParam default = { short := [x], long := name, value := default, hasParam := hasParam, used := false } ∧
    (1 < name.length → makeOpt name hasParam default = { short := [], long := name, value := default, hasParam := hasParam, used := false }) := by
  have hp2 : PiecesAny (· ∈ [',']) name [name] := .last (by intro c hc h0; simp at h0; exact hn (h0 ▸ hc))
  have hp1 : PiecesAny (· ∈ [',']) (x :: ',' :: name) [[x], name] :=
    .cons (p := [x]) (c := ',') (by intro c hc h0; simp at hc h0; exact hx (hc ▸ h0)) (by simp) hp2
  have hc : ∀ s ps, PiecesAny (· ∈ [',']) s ps → commaParts s = ps.filter fun p => !p.isEmpty := by
    intro s ps h
    obtain ⟨ps', h1, h2⟩ := C50_split_any s [','] true
    cases C50_pieces_unique _ _ _ _ h h1
    unfold commaParts
    show (splitByAnyChar s [','] true).getD [] = _
    rw [h2]
    rfl
  have hemp : name.isEmpty = false := by cases name <;> simp_all
  refine ⟨?_, fun hl => ?_⟩
  · unfold makeOpt
    rw [hc _ _ hp1]
    simp [optNames, hemp]
  · unfold makeOpt
    rw [hc _ _ hp2]
    have : (name.length == 1) = false := by simp; omega
    simp [optNames, hemp, this]

/-- C104: removing an option by its names removes every option that has one of the names, and no other. -/
theorem C104_removed (text : Str) (ps : List Str) (hp : PiecesAny (· = ',') text ps) (opts : List Opt) (o : Opt) :
    o ∈ removeOpt text opts ↔ o ∈ opts ∧ ∀ p ∈ ps, p ≠ [] → o.short ≠ p ∧ o.long ≠ p := by
  obtain ⟨ps', h1, h2⟩ := C50_split_any text ",".toList true
  have he : (fun c => c ∈ ",".toList) = fun c => c = ',' := by funext c; simp
  rw [he] at h1
  cases C50_pieces_unique _ _ _ _ hp h1
  unfold removeOpt commaParts
  rw [h2]
  simp only [if_true, Option.getD_some, List.mem_filter, Bool.not_eq_true', List.any_eq_false, Bool.or_eq_true, beq_iff_eq, not_or]
  refine and_congr_right fun _ => forall_congr' fun p => ?_
  cases p <;> simp

/-- C104: two of the programs have no option `-m`, `--min-remote-version`; the other common ones are there. -/
theorem C104_without : ∀ opts ∈ [testOpts, toolsOpts], (∀ o ∈ opts, o.short ≠ "m".toList ∧ o.long ≠ "min-remote-version".toList) ∧
    ∀ o ∈ commonOpts, o.long ≠ "min-remote-version".toList → o ∈ opts := by decide +kernel

/-- C104: the names the programs ask for (GenProgramOptions.cpp:454-579, CommsProgramOptions.cpp:64-82, CProgramOptions.cpp:55-67, SwigProgramOptions.cpp:50-58) are
    long names of their options, and have more than one character. -/
theorem C104_queried :
    (∀ opts ∈ [commsOpts, cOpts, swigOpts, latexOpts], ∀ name ∈ ["help", "version", "quiet", "debug", "warn-as-err", "output-dir", "input-files-list", "input-files-prefix",
      "code-input-dir", "multiple-schemas-enabled", "namespace", "min-remote-version", "force-schema-version", "code-inject-comments"].map String.toList,
      1 < name.length ∧ ∃ o ∈ opts, o.long = name) ∧
    (∀ name ∈ ["code-version", "customization", "version-independent-code", "extra-messages-bundle", "force-main-ns-in-options"].map String.toList,
      1 < name.length ∧ ∃ o ∈ commsOpts, o.long = name) ∧
    (∀ name ∈ ["code-version", "messages-list", "force-platform", "force-interface", "names-prefix", "comms-options", "comms-input"].map String.toList,
      1 < name.length ∧ ∃ o ∈ cOpts, o.long = name) ∧
    (∀ name ∈ ["code-version", "messages-list", "force-platform", "force-interface", "force-main-ns-in-names", "has-code-version"].map String.toList,
      1 < name.length ∧ ∃ o ∈ swigOpts, o.long = name) ∧
    (∀ name ∈ ["code-version", "protocol", "force-main-ns-in-options"].map String.toList, 1 < name.length ∧ ∃ o ∈ toolsOpts, o.long = name) := by decide +kernel

/-- C104: the hypotheses are met: a command line with a flag, an option given twice, a value that looks like an option, an unknown option, arguments and an option
    without its value. -/
theorem C104_example : ∃ (items : List CmdItem) (last : Option (Str × Nat)), (∀ it ∈ items, CmdItem.Ok commsOpts it) ∧
    (∀ p, last = some p → NamesOpt commsOpts p.1 p.2 ∧ ∃ o, commsOpts[p.2]? = some o ∧ o.hasParam = true) ∧
    items.flatMap CmdItem.tokens ++ last.toList.map Prod.fst =
      ["-q", "--namespace", "a", "schema.xml", "-n", "--quiet", "--nosuch", "other.xml", "-V"].map String.toList := by
  refine ⟨[.flag "-q".toList 2, .param "--namespace".toList 10 "a".toList, .arg "schema.xml".toList, .param "-n".toList 10 "--quiet".toList, .unknown "--nosuch".toList,
    .arg "other.xml".toList], some ("-V".toList, 14), ?_, ?_, by decide +kernel⟩
  · intro it hit
    simp only [List.mem_cons, List.not_mem_nil, or_false] at hit
    rcases hit with rfl | rfl | rfl | rfl | rfl | rfl
    · exact ⟨⟨flagOpt "q,quiet", by decide +kernel, by decide +kernel⟩, flagOpt "q,quiet", by decide +kernel, by decide +kernel⟩
    · exact ⟨⟨paramOpt "n,namespace", by decide +kernel, by decide +kernel⟩, ⟨paramOpt "n,namespace", by decide +kernel, by decide +kernel⟩, by decide +kernel⟩
    · exact ⟨by decide +kernel, by decide +kernel⟩
    · exact ⟨⟨paramOpt "n,namespace", by decide +kernel, by decide +kernel⟩, ⟨paramOpt "n,namespace", by decide +kernel, by decide +kernel⟩, by decide +kernel⟩
    · refine ⟨by decide +kernel, ?_⟩
      rintro k ⟨o, ho, hn⟩
      have h0 : ∀ o ∈ commsOpts, ¬ (o.short ≠ [] ∧ "--nosuch".toList = '-' :: o.short ∨ o.long ≠ [] ∧ "--nosuch".toList = '-' :: '-' :: o.long) := by decide +kernel
      exact h0 o (List.mem_of_getElem? ho) hn
    · exact ⟨by decide +kernel, by decide +kernel⟩
  · rintro p ⟨⟩
    exact ⟨⟨paramOpt "V,code-version", by decide +kernel, by decide +kernel⟩, paramOpt "V,code-version", by decide +kernel, by decide +kernel⟩

/-- C104, a finding: an empty text on the command line is skipped even where the value of an option is expected, so the next text becomes the value: with
    `--namespace "" schema.xml` the namespace is `schema.xml` and there is no input file. -/
theorem C104_empty_witness : let st := parseCmd commsOpts (["--namespace", "", "schema.xml"].map String.toList)
    optValue st.opts "namespace".toList = "schema.xml".toList ∧ st.args = [] := by decide +kernel

/-! ## Values -/

/-- C105: the input files are the lines of the list file, in order and without the empty ones, each behind the prefix, and then the arguments. -/
theorem C105_inputs (read : Str → Option Str) (st : CmdState) : ∃ listed, inputFiles read st = listed ++ st.args ∧
    ((optValue st.opts "input-files-list".toList = [] ∨ read (optValue st.opts "input-files-list".toList) = none) ∧ listed = [] ∨
      ∃ contents ps, read (optValue st.opts "input-files-list".toList) = some contents ∧ PiecesAny (fun c => c = '\r' ∨ c = '\n') contents ps ∧
        listed = (ps.filter fun p => !p.isEmpty).map fun l =>
          let pre := optValue st.opts "input-files-prefix".toList
          if pre = [] then l else if pre.getLast? = some '/' then pre ++ l else pre ++ '/' :: l) := by
  refine ⟨_, rfl, ?_⟩
  generalize optValue st.opts "input-files-list".toList = f
  cases f with
  | nil => exact .inl ⟨.inl rfl, rfl⟩
  | cons a f =>
    dsimp only
    cases hr : read (a :: f) with
    | none => exact .inl ⟨.inr rfl, rfl⟩
    | some contents =>
      obtain ⟨ps, h1, h2⟩ := C50_split_any contents "\r\n".toList true
      refine .inr ⟨contents, ps, rfl, ?_, ?_⟩
      · have he : (fun c => c ∈ "\r\n".toList) = fun c => c = '\r' ∨ c = '\n' := by
          funext c
          simp
        rwa [he] at h1
      · dsimp only
        rw [h2]
        generalize optValue st.opts "input-files-prefix".toList = pre
        simp only [if_true, Option.getD_some]
        cases pre with
        | nil => simp
        | cons b pre =>
          simp only [List.isEmpty_cons, Bool.false_eq_true, if_false, reduceCtorEq]
          refine List.map_congr_left fun l _ => ?_
          unfold pathAddElem
          by_cases hl : (b :: pre).getLast? = some '/' <;> simp [hl]

/-- C105: a decimal number below 2^32 is taken as it is. -/
theorem C105_number (s : Str) (hne : s ≠ []) (hd : ∀ c ∈ s, DecDigit c) (hb : posVal 10 s < 2 ^ 32) : strToUnsigned32 s = posVal 10 s := by
  have hd' : ∀ c ∈ s, digitVal c < 10 := fun c hc => (decDigit_iff c).1 (hd c hc)
  have hscan := scanDigits_all 10 (by omega) 0 s hd'
  cases s with
  | nil => exact absurd rfl hne
  | cons c cs =>
    have hc := hd' c List.mem_cons_self
    have hns : isSpace c = false ∧ c ≠ '-' ∧ c ≠ '+' := by
      have key : ∀ n : Fin 128, digitVal (Char.ofNat n.val) < 10 → isSpace (Char.ofNat n.val) = false ∧ Char.ofNat n.val ≠ '-' ∧ Char.ofNat n.val ≠ '+' := by decide +kernel
      exact ascii_cases (P := fun c => digitVal c < 10 → isSpace c = false ∧ c ≠ '-' ∧ c ≠ '+') c (digitVal_lt16 (by omega)) key hc
    have h1 : (c :: cs).dropWhile isSpace = c :: cs := by simp [List.dropWhile, hns.1]
    have hm : ¬ u64Max < posVal 10 (c :: cs) := by unfold u64Max; omega
    have h2 : stoulDec (c :: cs) = some (posVal 10 (c :: cs)) := by
      unfold stoulDec
      rw [h1]
      have : (0 : Nat) * 10 ^ (c :: cs).length + posVal 10 (c :: cs) = posVal 10 (c :: cs) := by omega
      rw [this] at hscan
      split
      · rename_i h; cases h; exact absurd rfl hns.2.1
      · rename_i h; cases h; exact absurd rfl hns.2.2
      · simp only [hscan, hc, if_true, Bool.false_eq_true, if_false, hm]
    unfold strToUnsigned32
    rw [h2]
    show castU32 (posVal 10 (c :: cs)) = _
    unfold castU32
    omega

/-- C105: so is one behind a plus sign and white space. -/
theorem C105_number_plus (w s : Str) (hw : ∀ c ∈ w, c = ' ' ∨ c = '\t') (hne : s ≠ []) (hd : ∀ c ∈ s, DecDigit c) (hb : posVal 10 s < 2 ^ 32) :
    strToUnsigned32 (w ++ '+' :: s) = posVal 10 s ∧ strToUnsigned32 (w ++ s) = posVal 10 s := by
  have hw' : ∀ c ∈ w, isSpace c = true := by
    intro c hc
    rcases hw c hc with rfl | rfl <;> decide
  have hnum := C105_number s hne hd hb
  have hdrop : ∀ r : Str, stoulDec (w ++ r) = stoulDec r := by
    intro r
    unfold stoulDec
    rw [List.dropWhile_append_of_pos hw']
  have hd' : ∀ c ∈ s, digitVal c < 10 := fun c hc => (decDigit_iff c).1 (hd c hc)
  have hscan := scanDigits_all 10 (by omega) 0 s hd'
  refine ⟨?_, ?_⟩
  · unfold strToUnsigned32
    rw [hdrop]
    cases s with
    | nil => exact absurd rfl hne
    | cons c cs =>
      have hc := hd' c List.mem_cons_self
      have hz : (0 : Nat) * 10 ^ (c :: cs).length + posVal 10 (c :: cs) = posVal 10 (c :: cs) := by omega
      rw [hz] at hscan
      have hm : ¬ u64Max < posVal 10 (c :: cs) := by unfold u64Max; omega
      have h2 : stoulDec ('+' :: c :: cs) = some (posVal 10 (c :: cs)) := by
        unfold stoulDec
        have h1 : ('+' :: c :: cs).dropWhile isSpace = '+' :: c :: cs := by
          rw [List.dropWhile_cons_of_neg (by decide)]
        rw [h1]
        simp only [hscan, hc, if_true, Bool.false_eq_true, if_false, hm]
      rw [h2]
      show castU32 (posVal 10 (c :: cs)) = _
      unfold castU32
      omega
  · unfold strToUnsigned32 at hnum ⊢
    rw [hdrop]
    exact hnum

/-- C105: all other texts are taken as some number, without an error. -/
theorem C105_number_witness : strToUnsigned32 "abc".toList = 0 ∧ strToUnsigned32 "3.5".toList = 3 ∧ strToUnsigned32 "4294967297".toList = 1 ∧
    strToUnsigned32 "-1".toList = 4294967295 ∧ strToUnsigned32 "99999999999999999999".toList = 0 := by decide +kernel

/-- C105: the options `min-remote-version` and `force-schema-version` as they reach the generator. -/
theorem C105_versions (opts : List Opt) (s : Str) (hne : s ≠ []) (hd : ∀ c ∈ s, DecDigit c) (hb : posVal 10 s < 2 ^ 32) :
    (isOptUsed opts "min-remote-version".toList = true → optValue opts "min-remote-version".toList = s → minRemoteOpt opts = posVal 10 s) ∧
    (isOptUsed opts "min-remote-version".toList = false → minRemoteOpt opts = 0) ∧
    (isOptUsed opts "force-schema-version".toList = true → optValue opts "force-schema-version".toList = s → forcedVersionOpt opts = some (posVal 10 s)) ∧
    (isOptUsed opts "force-schema-version".toList = false → forcedVersionOpt opts = none) := by
  unfold minRemoteOpt forcedVersionOpt
  refine ⟨fun h1 h2 => ?_, fun h1 => ?_, fun h1 h2 => ?_, fun h1 => ?_⟩
  · rw [h1, h2]; exact C105_number s hne hd hb
  · rw [h1]; rfl
  · rw [h1, h2, if_pos rfl, C105_number s hne hd hb]
  · rw [h1]; rfl

/-- C105: the version of the code has at least three parts, the missing ones are `0`. -/
theorem C105_code_version (v : Str) (ps : List Str) (hp : PiecesAny (· = '.') v ps) (hne : v ≠ []) :
    codeVersionTokens v = (ps.filter fun p => !p.isEmpty) ++ List.replicate (3 - (ps.filter fun p => !p.isEmpty).length) "0".toList ∧ 3 ≤ (codeVersionTokens v).length := by
  obtain ⟨ps', h1, h2⟩ := C50_split_any v ".".toList true
  have he : (fun c => c ∈ ".".toList) = fun c => c = '.' := by funext c; simp
  rw [he] at h1
  cases C50_pieces_unique _ _ _ _ hp h1
  have h3 : codeVersionTokens v = (ps.filter fun p => !p.isEmpty) ++ List.replicate (3 - (ps.filter fun p => !p.isEmpty).length) "0".toList := by
    unfold codeVersionTokens
    rw [h2, if_neg (by simpa using hne)]
    rfl
  refine ⟨h3, ?_⟩
  rw [h3, List.length_append, List.length_replicate]
  omega

example : codeVersionTokens "1.2".toList = ["1", "2", "0"].map String.toList := by decide +kernel

/-- C105: a bundle of messages `name@path` has this name and path; without `@` the name is taken from the path. -/
theorem C105_bundle (stem : Str → Str) (name path : Str) (hn : '@' ∉ name) :
    (name ≠ [] → bundleName stem (name ++ '@' :: path) = (name, path)) ∧ bundleName stem ('@' :: path) = (stem path, path) ∧
    ('@' ∉ path → bundleName stem path = (stem path, path)) := by
  refine ⟨fun hne => ?_, ?_, fun hp => ?_⟩
  · have h1 : (name ++ '@' :: path).dropWhile (· != '@') = '@' :: path := by
      rw [List.dropWhile_append_of_pos (by intro c hc; simp; rintro rfl; exact hn hc)]
      simp
    have h2 : (name ++ '@' :: path).takeWhile (· != '@') = name := by
      rw [List.takeWhile_append_of_pos (by intro c hc; simp; rintro rfl; exact hn hc)]
      simp
    unfold bundleName
    simp only [h1, h2]
    simp [hne]
  · unfold bundleName
    simp
  · unfold bundleName
    have : path.contains '@' = false := by simpa using hp
    simp only [this, Bool.false_eq_true, if_false]
    rfl

/-- C105: the parts of a plugin are separated by colons; missing ones are empty, and so is a last empty one. -/
theorem C105_plugin (text : Str) (ps : List Str) (hp : PiecesAny (· = ':') text ps) :
    pluginInfo text = ⟨ps.getD 0 [], ps.getD 1 [], ps.getD 2 [], ps.getD 3 [], ps.getD 4 []⟩ := by
  obtain ⟨ps', h1, h2⟩ := C50_split_any text ":".toList false
  have he : (fun c => c ∈ ":".toList) = fun c => c = ':' := by funext c; simp
  rw [he] at h1
  cases C50_pieces_unique _ _ _ _ hp h1
  have hdrop : ∀ i : Nat, (dropEmptyLast ps).getD i [] = ps.getD i [] := by
    intro i
    unfold dropEmptyLast
    split
    · rename_i hl
      rw [List.getD_eq_getElem?_getD, List.getD_eq_getElem?_getD, List.getElem?_dropLast]
      by_cases hi : i < ps.length - 1
      · rw [if_pos hi]
      · rw [if_neg hi]
        by_cases hi2 : i = ps.length - 1
        · rw [List.getLast?_eq_getElem?] at hl
          rw [hi2, hl]; rfl
        · rw [List.getElem?_eq_none (by omega)]
    · rfl
  unfold pluginInfo
  rw [h2]
  simp only [Bool.false_eq_true, if_false, Option.getD_some, hdrop]

/-- C105: the plugins are separated by commas; empty ones are left out. -/
theorem C105_plugins (opts : List Opt) (ps : List Str) (hp : PiecesAny (· = ',') (optValue opts "protocol".toList) ps) (hu : isOptUsed opts "protocol".toList = true) :
    pluginInfos opts = (ps.filter fun p => !p.isEmpty).map pluginInfo := by
  obtain ⟨ps', h1, h2⟩ := C50_split_any (optValue opts "protocol".toList) ",".toList true
  have he : (fun c => c ∈ ",".toList) = fun c => c = ',' := by funext c; simp
  rw [he] at h1
  cases C50_pieces_unique _ _ _ _ hp h1
  unfold pluginInfos commaParts
  rw [hu, h2]
  rfl

example : pluginInfo "f::name:desc".toList = ⟨"f".toList, [], "name".toList, "desc".toList, []⟩ := by decide +kernel

end Commsdsl.Props
