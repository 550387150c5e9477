import Verif.Props.GenMsgs
import Verif.Props.ProtocolCalls
/-!
# Files with lists of messages, factories and dispatch functions: C84, C85, C86, and the enum of message ids: C87
-/
namespace Commsdsl.Props
open Commsdsl Text Fld Msg Frm Proto Spec Gen

namespace MsgProofs

/-! ## Names of files -/

theorem relHeaderIn_eq {main : Str} (hm : main ≠ []) (dir name ns : Str) :
    relHeaderIn main dir name ns = (if ns = [] then main else main ++ '/' :: ns) ++ '/' :: (dir ++ '/' :: (name ++ ".h".toList)) := by
  unfold relHeaderIn scopeForElement addSep pathSep
  by_cases h : ns = []
  · subst h
    simp [hm]
  · simp [hm, h]

theorem relHeaderIn_inj {main : Str} (hm : main ≠ []) {d d' a b ns : Str} (h : relHeaderIn main d a ns = relHeaderIn main d' b ns) :
    d ++ '/' :: (a ++ ".h".toList) = d' ++ '/' :: (b ++ ".h".toList) := by
  rw [relHeaderIn_eq hm, relHeaderIn_eq hm] at h
  exact (List.cons.inj (List.append_cancel_left h)).2

theorem same_dir {d a b : Str} (h : d ++ '/' :: (a ++ ".h".toList) = d ++ '/' :: (b ++ ".h".toList)) : a = b :=
  List.append_cancel_right (List.cons.inj (List.append_cancel_left h)).2

/-- A class name that cannot be mistaken for the text added for a side. -/
def Clear (x : Str) : Prop := x ≠ [] ∧ x ≠ "All".toList ∧ ¬ "ClientInput".toList <:+ x ∧ ¬ "ServerInput".toList <:+ x

theorem append_suffix {x y a b : Str} (hl : a.length = b.length) (h : x ++ a = y ++ b) : x = y ∧ a = b := by
  have := List.append_inj' h hl
  exact this

/-- The texts of the sides, with any two different texts of the same length. -/
theorem sides_inj (C S : Str) (hl : C.length = S.length) (hne : C ≠ S) (hC : C ≠ []) (x y : Str) (hx : x = [] ∨ (¬ C <:+ x ∧ ¬ S <:+ x))
    (hy : y = [] ∨ (¬ C <:+ y ∧ ¬ S <:+ y)) : ∀ s t : Side, ∀ f : Side → Str, f .all = [] → f .client = C → f .server = S →
    x ++ f s = y ++ f t → x = y ∧ s = t := by
  have hS : S ≠ [] := by rintro rfl; exact hC (List.length_eq_zero_iff.1 hl)
  have hno : ∀ z : Str, z = [] ∨ (¬ C <:+ z ∧ ¬ S <:+ z) → ∀ w, z ≠ w ++ C ∧ z ≠ w ++ S := by
    rintro z (rfl | hz) w
    · exact ⟨fun h => hC (List.append_eq_nil_iff.1 h.symm).2, fun h => hS (List.append_eq_nil_iff.1 h.symm).2⟩
    · exact ⟨fun h => hz.1 ⟨w, h.symm⟩, fun h => hz.2 ⟨w, h.symm⟩⟩
  intro s t f h0 h1 h2 h
  cases s <;> cases t <;> simp only [h0, h1, h2, List.append_nil] at h
  · exact ⟨h, rfl⟩
  · exact absurd h (hno x hx _).1
  · exact absurd h (hno x hx _).2
  · exact absurd h.symm (hno y hy _).1
  · exact ⟨(append_suffix rfl h).1, rfl⟩
  · exact absurd (append_suffix hl h).2 hne
  · exact absurd h.symm (hno y hy _).2
  · exact absurd (append_suffix hl.symm h).2 hne.symm
  · exact ⟨(append_suffix rfl h).1, rfl⟩

theorem side_inj {x y : Str} {s t : Side} (hx : x = [] ∨ Clear x) (hy : y = [] ∨ Clear y) (h : x ++ s.text = y ++ t.text) : x = y ∧ s = t :=
  sides_inj "ClientInput".toList "ServerInput".toList (by decide) (by decide) (by decide) x y (hx.imp_right fun h => h.2.2) (hy.imp_right fun h => h.2.2)
    s t Side.text rfl rfl rfl h

theorem text_len : ∀ s : Side, s = .all ∨ 3 < s.text.length := by intro s; cases s <;> decide

theorem text_all (s : Side) (x : Str) (hx : x = [] ∨ Clear x) : x ++ s.text ≠ "All".toList := by
  intro h
  have hl := congrArg List.length h
  have h3 : "All".toList.length = 3 := by decide
  rw [List.length_append, h3] at hl
  rcases text_len s with rfl | hs
  · have h : x = "All".toList := by rw [← h]; exact (List.append_nil x).symm
    rcases hx with rfl | hx
    · revert h; decide
    · exact hx.2.1 h
  · omega

theorem inputStem_inj {a b : Sel} {s t : Side} (ha : a = .every ∨ Clear a.prefix) (hb : b = .every ∨ Clear b.prefix)
    (h : inputStem a s = inputStem b t) : a.prefix = b.prefix ∧ s = t := by
  have hp : ∀ a : Sel, a = .every ∨ Clear a.prefix → a.prefix = [] ∨ Clear a.prefix := by
    rintro a (rfl | h)
    · exact .inl rfl
    · exact .inr h
  have hc : ∀ (a : Sel) (s : Side), (a = .every ∧ s = .all ∧ inputStem a s = "All".toList) ∨ (inputStem a s = a.prefix ++ s.text ∧ ¬ (a = .every ∧ s = .all)) := by
    intro a s
    cases a <;> cases s <;> first | exact .inl ⟨rfl, rfl, rfl⟩ | exact .inr ⟨rfl, by simp⟩
  rcases hc a s with ⟨rfl, rfl, h1⟩ | ⟨h1, _⟩ <;> rcases hc b t with ⟨rfl, rfl, h2⟩ | ⟨h2, _⟩
  · exact ⟨rfl, rfl⟩
  · rw [h1, h2] at h; exact absurd h.symm (text_all t _ (hp _ hb))
  · rw [h1, h2] at h; exact absurd h (text_all s _ (hp _ ha))
  · rw [h1, h2] at h; exact side_inj (hp _ ha) (hp _ hb) h

theorem selections_nodup {β : Type} (f : Sel → Side → β) (sels : List Sel) (hn : (sels.map Sel.prefix).Nodup)
    (hinj : ∀ a ∈ sels, ∀ b ∈ sels, ∀ s t, f a s = f b t → a.prefix = b.prefix ∧ s = t) :
    ((sels.flatMap fun s => [(s, Side.all), (s, .client), (s, .server)]).map fun x => f x.1 x.2).Nodup := by
  rw [List.map_flatMap]
  unfold List.Nodup
  rw [List.pairwise_flatMap]
  constructor
  · intro a ha
    have h := fun s t => hinj a ha a ha s t
    have h' : ∀ s t, s ≠ t → f a s ≠ f a t := fun s t hne he => hne (h s t he).2
    simp only [List.map_cons, List.map_nil, List.pairwise_cons, List.mem_cons, List.not_mem_nil, or_false, forall_eq_or_imp, forall_eq, List.Pairwise.nil,
      and_true, false_imp_iff, implies_true]
    exact ⟨⟨h' _ _ (by decide), h' _ _ (by decide)⟩, h' _ _ (by decide)⟩
  · have hn' : sels.Pairwise fun a b => a.prefix ≠ b.prefix := List.pairwise_map.1 hn
    refine hn'.imp_of_mem ?_
    intro a b ha hb hne x hx y hy he
    obtain ⟨⟨a', s⟩, hs, rfl⟩ := List.mem_map.1 hx
    obtain ⟨⟨b', t⟩, ht, rfl⟩ := List.mem_map.1 hy
    have h1 : a' = a := by simp at hs; rcases hs with ⟨h, _⟩ | ⟨h, _⟩ | ⟨h, _⟩ <;> exact h
    have h2 : b' = b := by simp at ht; rcases ht with ⟨h, _⟩ | ⟨h, _⟩ | ⟨h, _⟩ <;> exact h
    subst h1 h2
    exact hne (hinj _ ha _ hb _ _ he).1

end MsgProofs
open MsgProofs

/-- C84 to C86: all the lists, factories and dispatch functions of a namespace are in different files, if the names of platforms and bundles, with the
    first letter in upper case, are different, are not `All` and do not end with the text that is added for a side. Missing: names that do, see the
    witnesses. -/
theorem C84_files_differ_partial (main : Str) (hm : main ≠ []) (platforms : List Str) (bundles : List (Str × List MsgKey)) (n : GNs)
    (hd : ((platforms ++ bundles.map (·.1)).map upperFirst).Nodup)
    (hc : ∀ x ∈ (platforms ++ bundles.map (·.1)).map upperFirst,
      x ≠ [] ∧ x ≠ "All".toList ∧ ¬ "ClientInput".toList <:+ x ∧ ¬ "ServerInput".toList <:+ x) :
    (listHeaders main platforms bundles n).Nodup := by
  unfold listHeaders
  split
  · exact List.nodup_nil
  let sels : List Sel := Sel.every :: (platforms.map Sel.platform ++ bundles.map fun b => Sel.bundle b.1 b.2)
  have hpre : (sels.map Sel.prefix) = [] :: (platforms ++ bundles.map (·.1)).map upperFirst := by
    simp only [sels, List.map_cons, List.map_append, List.map_map, Sel.prefix]
    congr 1
  have hclear : ∀ a ∈ sels, a = .every ∨ Clear a.prefix := by
    intro a ha
    have : a.prefix ∈ sels.map Sel.prefix := List.mem_map_of_mem ha
    rw [hpre] at this
    rcases List.mem_cons.1 ha with h | h
    · exact .inl h
    · right
      have hin : a.prefix ∈ (platforms ++ bundles.map (·.1)).map upperFirst := by
        rw [List.mem_append] at h
        rcases h with h | h
        · obtain ⟨x, hx, rfl⟩ := List.mem_map.1 h
          exact List.mem_map.2 ⟨x, by simp [hx], (upperFirst_eq x).symm⟩
        · obtain ⟨x, hx, rfl⟩ := List.mem_map.1 h
          exact List.mem_map.2 ⟨x.1, List.mem_append.2 (.inr (List.mem_map_of_mem hx)), (upperFirst_eq x.1).symm⟩
      exact hc _ hin
  have hnd : (sels.map Sel.prefix).Nodup := by
    rw [hpre]
    exact List.nodup_cons.2 ⟨fun h => (hc _ h).1 rfl, hd⟩
  have hp : ∀ a ∈ sels, a.prefix = [] ∨ Clear a.prefix := fun a ha => by
    rcases hclear a ha with rfl | h
    · exact .inl rfl
    · exact .inr h
  have hdisj : ∀ (d d' : Str) (f g : Sel × Side → Str), d.head? ≠ d'.head? → d ≠ [] → d' ≠ [] →
      ∀ x ∈ (selections platforms bundles).map (fun y => relHeaderIn main d (f y) n.name),
      ∀ z ∈ (selections platforms bundles).map (fun y => relHeaderIn main d' (g y) n.name), x ≠ z := by
    intro d d' f g hne hd0 hd1 x hx z hz he
    obtain ⟨y, -, rfl⟩ := List.mem_map.1 hx
    obtain ⟨y', -, rfl⟩ := List.mem_map.1 hz
    have := congrArg List.head? (relHeaderIn_inj hm he)
    cases d with
    | nil => exact hd0 rfl
    | cons => cases d' with
      | nil => exact hd1 rfl
      | cons => exact hne this
  have e1 : (selections platforms bundles) = sels.flatMap fun s => [(s, Side.all), (s, .client), (s, .server)] := rfl
  rw [List.nodup_append, List.nodup_append]
  refine ⟨⟨?_, ?_, ?_⟩, ?_, ?_⟩
  · rw [e1]
    refine selections_nodup (fun a s => relHeaderIn main "dispatch".toList (dispatchName a s) n.name) sels hnd ?_
    intro a ha b hb s t he
    have := same_dir (relHeaderIn_inj hm he)
    unfold dispatchName at this
    exact side_inj (hp a ha) (hp b hb) (List.append_cancel_left (List.append_cancel_right this))
  · rw [e1]
    refine selections_nodup (fun a s => relHeaderIn main "factory".toList (factoryName a s) n.name) sels hnd ?_
    intro a ha b hb s t he
    have := same_dir (relHeaderIn_inj hm he)
    unfold factoryName inputName at this
    exact inputStem_inj (hclear a ha) (hclear b hb)
      (List.append_cancel_right (List.append_cancel_right (List.append_cancel_right this)))
  · exact hdisj _ _ _ _ (by decide) (by decide) (by decide)
  · rw [e1]
    refine selections_nodup (fun a s => relHeaderIn main "input".toList (inputName a s) n.name) sels hnd ?_
    intro a ha b hb s t he
    have := same_dir (relHeaderIn_inj hm he)
    unfold inputName at this
    exact inputStem_inj (hclear a ha) (hclear b hb) (List.append_cancel_right this)
  · intro x hx z hz
    rcases List.mem_append.1 hx with hx | hx
    · exact hdisj _ _ _ _ (by decide) (by decide) (by decide) x hx z hz
    · exact hdisj _ _ _ _ (by decide) (by decide) (by decide) x hx z hz

/-- C85, C86: the factory and the dispatch functions include the list of the messages of the same selection. -/
theorem C85_list_included (main : Str) (hm : main ≠ [] ∧ main.head? ≠ some '#' ∧ main.head? ≠ some '<') (i : Nat) (n : GNs) (sel : Sel) (side : Side) :
    (∀ f, factory main i n sel side = .ok f → "#include \"".toList ++ (inputFile main i n sel side).header ++ "\"".toList ∈ f.includes) ∧
    ∀ d, dispatch main i n sel side = .ok d → "#include \"".toList ++ (inputFile main i n sel side).header ++ "\"".toList ∈ d.includes := by
  have hh : (inputFile main i n sel side).header ≠ [] ∧ (inputFile main i n sel side).header.head? = main.head? := by
    unfold inputFile
    simp only
    rw [relHeaderIn_eq hm.1]
    obtain ⟨c, m, rfl⟩ : ∃ c m, main = c :: m := by
      cases main with
      | nil => exact absurd rfl hm.1
      | cons c m => exact ⟨c, m, rfl⟩
    split <;> simp
  have key : ∀ l : List Str, (inputFile main i n sel side).header ∈ l →
      "#include \"".toList ++ (inputFile main i n sel side).header ++ "\"".toList ∈ prepareIncludes l :=
    fun l hl => mem_includes hl hh.1 (hh.2 ▸ hm.2.1) (hh.2 ▸ hm.2.2)
  constructor
  · intro f hf
    unfold factory at hf
    simp only [Res.bind_eq_ok, Res.pure_eq] at hf
    obtain ⟨_, _, _, _, he⟩ := hf
    have := Res.ok.inj he
    rw [← this]
    refine key _ ?_
    unfold inputFile
    simp only [List.mem_cons, true_or, or_true]
  · intro d hd
    unfold dispatch at hd
    simp only [Res.bind_eq_ok, Res.pure_eq] at hd
    obtain ⟨_, _, he⟩ := hd
    have := Res.ok.inj he
    rw [← this]
    refine key _ ?_
    unfold inputFile inputName
    simp only [List.mem_cons, true_or, or_true]

/-! ## Examples -/

namespace MsgSample
open Sample

/-- Validation succeeds, and a namespace of the first schema is as told. -/
def nsIs (docs : List Xml) (P : Schema → GNs → Bool) : Bool := schemaIs docs 0 fun s => (allNsOf (buildSchema s)).any (P s)

theorem nsIs_spec {docs : List Xml} {P : Schema → GNs → Bool} (h : nsIs docs P = true) :
    ∃ p s n, Reachable fo0 p ∧ p.validated = true ∧ p.schemas[0]? = some s ∧ n ∈ allNsOf (buildSchema s) ∧ P s n = true := by
  obtain ⟨p, s, h1, h2, h3, h4⟩ := schemaIs_spec h
  obtain ⟨n, hn, hP⟩ := List.any_eq_true.1 h4
  exact ⟨p, s, n, h1, h2, h3, hn, hP⟩

/-- A frame with a payload only. -/
def frEl (name : String) : Xml := el "frame" [("name", name)] [el "payload" [("name", "Data")]]

/-- A message for platforms. -/
def pmEl (name id plat : String) : Xml := el "message" [("name", name), ("id", id), ("platforms", plat)]

/-- A message for one side. -/
def smEl (name id sender : String) : Xml := el "message" [("name", name), ("id", id), ("sender", sender)]

def t (s : String) : Str := s.toList

/-- Messages for both sides in nested namespaces. -/
def docs1 : List Xml := [schemaEl "S" [nsEl "A" [frEl "F", smEl "m3" "300" "client", smEl "m1" "1" "server", nsEl "B" [smEl "m2" "2" "both"]]]]

/-- A schema that allows equal ids, with an id that one message has and an id that two have. -/
def docs2 : List Xml := [el "schema" [("name", "S"), ("version", "3"), ("endian", "little"), ("nonUniqueMsgIdAllowed", "true")]
  [frEl "F", msgEl "M1" "1", el "message" [("name", "M3"), ("id", "2"), ("order", "1")], el "message" [("name", "M2"), ("id", "2"), ("order", "0")]]]

end MsgSample
open MsgSample Sample

/-- The hypotheses of C84_list, and what the list of all messages is: messages of the namespace and of the one inside in the order of their ids, and
    without those that the client itself sends in the list of the client. -/
example : ∃ p s n, Reachable fo0 p ∧ p.validated = true ∧ p.schemas[0]? = some s ∧ n ∈ allNsOf (buildSchema s) ∧
    ((inputFile (t "prot") 0 n .every .all).types == [t "prot::A::message::M1", t "prot::A::B::message::M2", t "prot::A::message::M3"] &&
      (inputFile (t "prot") 0 n .every .client).types == [t "prot::A::message::M1", t "prot::A::B::message::M2"] &&
      (inputFile (t "prot") 0 n .every .server).aliases == [(t "M2", t "prot::A::B::message::M2"), (t "M3", t "prot::A::message::M3")] &&
      (inputFile (t "prot") 0 n .every .client).header == t "prot/A/input/ClientInputMessages.h") = true :=
  nsIs_spec (docs := docs1) (by decide +kernel)

/-- The hypotheses of C84_files_differ_partial are met: platforms and a bundle. -/
example : ∃ p s n, Reachable fo0 p ∧ p.validated = true ∧ p.schemas[0]? = some s ∧ n ∈ allNsOf (buildSchema s) ∧
    ((listHeaders (t "prot") [t "P1", t "P2"] [(t "b", [])] n).length == 36) = true := nsIs_spec (docs := docs1) (by decide +kernel)

/-- C84 to C86 do not hold for a platform called `All`: the list of its messages is in the file of the list of all messages. -/
theorem C84_all_witness : ∃ p s n, Reachable fo0 p ∧ p.validated = true ∧ p.schemas[0]? = some s ∧ n ∈ allNsOf (buildSchema s) ∧ t "All" ∈ s.platforms ∧
    (inputFile (t "prot") 0 n (.platform (t "All")) .all).header = (inputFile (t "prot") 0 n .every .all).header ∧
    (inputFile (t "prot") 0 n (.platform (t "All")) .all).types ≠ (inputFile (t "prot") 0 n .every .all).types ∧
    ¬ (listHeaders (t "prot") s.platforms [] n).Nodup := by
  obtain ⟨p, s, n, h1, h2, h3, h4, h5⟩ := nsIs_spec (docs := [schemaEl "S" [el "platform" [("name", "All")], el "platform" [("name", "P2")], frEl "F",
      pmEl "M1" "1" "+All", pmEl "M2" "2" "+P2"]])
    (P := fun s n => decide (t "All" ∈ s.platforms ∧ (inputFile (t "prot") 0 n (.platform (t "All")) .all).header = (inputFile (t "prot") 0 n .every .all).header ∧
      (inputFile (t "prot") 0 n (.platform (t "All")) .all).types ≠ (inputFile (t "prot") 0 n .every .all).types ∧
      ¬ (listHeaders (t "prot") s.platforms [] n).Nodup)) (by decide +kernel)
  exact ⟨p, s, n, h1, h2, h3, h4, of_decide_eq_true h5⟩

/-- Platforms whose names differ in the case of the first letter share their files, although different messages are for them. -/
theorem C84_case_witness : ∃ p s n, Reachable fo0 p ∧ p.validated = true ∧ p.schemas[0]? = some s ∧ n ∈ allNsOf (buildSchema s) ∧
    s.platforms = [t "P", t "p"] ∧
    (inputFile (t "prot") 0 n (.platform (t "p")) .all).header = (inputFile (t "prot") 0 n (.platform (t "P")) .all).header ∧
    (inputFile (t "prot") 0 n (.platform (t "p")) .all).types ≠ (inputFile (t "prot") 0 n (.platform (t "P")) .all).types := by
  obtain ⟨p, s, n, h1, h2, h3, h4, h5⟩ := nsIs_spec (docs := [schemaEl "S" [el "platform" [("name", "p")], el "platform" [("name", "P")], frEl "F",
      pmEl "M1" "1" "+p", pmEl "M2" "2" "+P"]])
    (P := fun s n => decide (s.platforms = [t "P", t "p"] ∧
      (inputFile (t "prot") 0 n (.platform (t "p")) .all).header = (inputFile (t "prot") 0 n (.platform (t "P")) .all).header ∧
      (inputFile (t "prot") 0 n (.platform (t "p")) .all).types ≠ (inputFile (t "prot") 0 n (.platform (t "P")) .all).types)) (by decide +kernel)
  exact ⟨p, s, n, h1, h2, h3, h4, of_decide_eq_true h5⟩

/-- Messages of the same name in nested namespaces: the same alias is defined twice, for different types. -/
theorem C84_alias_witness : ∃ p s n, Reachable fo0 p ∧ p.validated = true ∧ p.schemas[0]? = some s ∧ n ∈ allNsOf (buildSchema s) ∧
    (inputFile (t "prot") 0 n .every .all).aliases = [(t "M", t "prot::A::message::M"), (t "M", t "prot::A::B::message::M")] := by
  obtain ⟨p, s, n, h1, h2, h3, h4, h5⟩ := nsIs_spec (docs := [schemaEl "S" [nsEl "A" [frEl "F", msgEl "M" "1", nsEl "B" [msgEl "M" "2"]]]])
    (P := fun _ n => decide ((inputFile (t "prot") 0 n .every .all).aliases = [(t "M", t "prot::A::message::M"), (t "M", t "prot::A::B::message::M")]))
    (by decide +kernel)
  exact ⟨p, s, n, h1, h2, h3, h4, of_decide_eq_true h5⟩

/-- A list may have a message for which no code is generated: a request for one platform leaves the messages of others out, the lists do not. -/
theorem C84_unrequested_witness : ∃ p s n, Reachable fo0 p ∧ p.validated = true ∧ p.schemas[0]? = some s ∧ n ∈ allNsOf (buildSchema s) ∧
    referenceRequested p.schemas none (t "P1") = .ok [(0, [], t "M1")] ∧
    (inputFile (t "prot") 0 n .every .all).types = [t "prot::message::M1", t "prot::message::M2"] := by
  refine ⟨after [schemaEl "S" [el "platform" [("name", "P1")], el "platform" [("name", "P2")], frEl "F", pmEl "M1" "1" "+P1", pmEl "M2" "2" "+P2"]], ?_⟩
  obtain ⟨s, hs, n, hn, h⟩ : ∃ s, (after [schemaEl "S" [el "platform" [("name", "P1")], el "platform" [("name", "P2")], frEl "F", pmEl "M1" "1" "+P1",
      pmEl "M2" "2" "+P2"]]).schemas[0]? = some s ∧ ∃ n ∈ allNsOf (buildSchema s),
      (inputFile (t "prot") 0 n .every .all).types = [t "prot::message::M1", t "prot::message::M2"] := by
    have h : (match (after [schemaEl "S" [el "platform" [("name", "P1")], el "platform" [("name", "P2")], frEl "F", pmEl "M1" "1" "+P1",
        pmEl "M2" "2" "+P2"]]).schemas[0]? with
      | some s => (allNsOf (buildSchema s)).any fun n =>
          decide ((inputFile (t "prot") 0 n .every .all).types = [t "prot::message::M1", t "prot::message::M2"])
      | none => false) = true := by decide +kernel
    split at h
    · rename_i s hs
      obtain ⟨n, hn, h⟩ := List.any_eq_true.1 h
      exact ⟨s, hs, n, hn, of_decide_eq_true h⟩
    · cases h
  exact ⟨s, n, after_reachable _, by decide +kernel, hs, hn, by decide +kernel, h⟩

/-! ## C85, C86: examples and witnesses -/

/-- The hypotheses of the theorems on factories and dispatch functions are met. -/
example : ∃ p s n f d, Reachable fo0 p ∧ p.validated = true ∧ p.schemas[0]? = some s ∧ n ∈ allNsOf (buildSchema s) ∧
    factory (t "prot") 0 n .every .all = .ok f ∧ f.unique = false ∧ f.cases.map Prod.fst = [t "1 /* 0x1 */", t "2 /* 0x2 */"] ∧ f.counts = [(t "1 /* 0x1 */", t "1"), (t "2 /* 0x2 */", t "2")] ∧
    dispatch (t "prot") 0 n .every .all = .ok d ∧ d.multi = true ∧ d.cases.map Prod.fst = [t "1 /* 0x1 */", t "2 /* 0x2 */"] := by
  obtain ⟨p, s, n, h1, h2, h3, h4, h5⟩ := nsIs_spec (docs := docs2) (P := fun _ n =>
    (okIs (factory (t "prot") 0 n .every .all) fun f => decide (f.unique = false ∧ f.cases.map Prod.fst = [t "1 /* 0x1 */", t "2 /* 0x2 */"] ∧
      f.counts = [(t "1 /* 0x1 */", t "1"), (t "2 /* 0x2 */", t "2")])) &&
    (okIs (dispatch (t "prot") 0 n .every .all) fun d => decide (d.multi = true ∧ d.cases.map Prod.fst = [t "1 /* 0x1 */", t "2 /* 0x2 */"]))) (by decide +kernel)
  obtain ⟨h5, h6⟩ := Bool.and_eq_true_iff.1 h5
  obtain ⟨f, hf, h7⟩ := okIs_spec h5
  obtain ⟨d, hd, h8⟩ := okIs_spec h6
  obtain ⟨a, b, c⟩ := of_decide_eq_true h7
  obtain ⟨x, y⟩ := of_decide_eq_true h8
  exact ⟨p, s, n, f, d, h1, h2, h3, h4, hf, a, b, c, hd, x, y⟩

/-- C85, C86: with a message whose id is 2^63 the number for the label is undefined, and so are the factory and the dispatch function. -/
theorem C85_label_witness : ∃ p s n, Reachable fo0 p ∧ p.validated = true ∧ p.schemas[0]? = some s ∧ n ∈ allNsOf (buildSchema s) ∧
    n.hasFrames = true ∧ factory (t "prot") 0 n .every .all = .ub ∧ dispatch (t "prot") 0 n .every .all = .ub := by
  obtain ⟨p, s, n, h1, h2, h3, h4, h5⟩ := nsIs_spec (docs := [schemaEl "S" [frEl "F", msgEl "M" "9223372036854775808"]]) (P := fun _ n =>
    decide (n.hasFrames = true ∧ isUb (factory (t "prot") 0 n .every .all) = true ∧ isUb (dispatch (t "prot") 0 n .every .all) = true)) (by decide +kernel)
  obtain ⟨a, b, c⟩ := of_decide_eq_true h5
  exact ⟨p, s, n, h1, h2, h3, h4, a, isUb_spec b, isUb_spec c⟩

/-- C86 does not hold for an index past the only message of its id, if another id occurs twice: the message is cast to the type, although the factory creates
    nothing for the index. -/
theorem C86_index_witness : ∃ p s n f d e, Reachable fo0 p ∧ p.validated = true ∧ p.schemas[0]? = some s ∧ n ∈ allNsOf (buildSchema s) ∧
    factory (t "prot") 0 n .every .all = .ok f ∧ dispatch (t "prot") 0 n .every .all = .ok d ∧
    (∀ x, Meant s 0 n.path .every .all x ∧ x.2.id = 1 ↔ x = e) ∧ (∀ ty, ¬ Creates f 1 1 ty) ∧ CastsTo d 1 1 (typeText (t "prot") e) := by
  obtain ⟨p, s, n, h1, h2, h3, h4, h5⟩ := nsIs_spec (docs := docs2) (P := fun s n => decide (s.messages.length < 2 ^ 31) &&
    okIs (factory (t "prot") 0 n .every .all) (fun _ => true) && okIs (dispatch (t "prot") 0 n .every .all) (fun d => d.multi) &&
    decide ((grp 0 n .every .all 1).length = 1)) (by decide +kernel)
  simp only [Bool.and_eq_true] at h5
  obtain ⟨⟨⟨h0, h5⟩, h6⟩, h7⟩ := h5
  have h0 := of_decide_eq_true h0
  obtain ⟨f, hf, _⟩ := okIs_spec h5
  obtain ⟨d, hd, hm⟩ := okIs_spec h6
  obtain ⟨e, he⟩ := List.length_eq_one_iff.1 (of_decide_eq_true h7)
  have a : FileArgsM s 0 n (t "prot") := args h1 h3 h4 (by decide)
  have hl := listing_withId (listed_spec a.inv a.node 0 .every .all) 1
  refine ⟨p, s, n, f, d, e, h1, h2, h3, h4, hf, hd, ?_, ?_, ?_⟩
  · intro x
    rw [← hl.exact x]
    have : x ∈ grp 0 n .every .all 1 ↔ x = e := by rw [he]; simp
    exact this
  · intro ty hc
    obtain ⟨x, hx, _⟩ := (creates_iff a hf (by decide) (grp_len a h0 .every .all 1) 1 ty).1 hc
    rw [he] at hx
    simp at hx
  · exact (casts_iff a hd (by decide) (grp_len a h0 .every .all 1) 1 (by decide) _).2 (.inr ⟨hm, e, he, rfl⟩)

end Commsdsl.Props
