import Verif.Lemmas.StrOrder
import Verif.Lemmas.Message
import Verif.Lemmas.SampleMsg
import Verif.Spec.Platform
import Verif.Props.Text
/-!
# C47 – platforms of messages
-/
namespace Commsdsl.Props
open Commsdsl Fld Msg Spec Text

namespace PlatProofs

theorem comma_pre {s : Str} {pre tok post : Str} (h : s = pre ++ tok ++ post) (hp : pre = [] ∨ ∃ q, pre = q ++ [',']) :
    (pre = [] ∧ s = tok ++ post) ∨ ∃ q, s = q ++ ',' :: tok ++ post := by
  rcases hp with rfl | ⟨q, rfl⟩
  · exact .inl ⟨rfl, by simpa using h⟩
  · exact .inr ⟨q, by simpa using h⟩

theorem split_sound (cur : Option Str) (s t : Str) (hc : ∀ x, cur = some x → ',' ∉ x) (h : t ∈ splitPlatforms cur s) :
    (∃ tok post, s = tok ++ post ∧ ',' ∉ tok ∧ (post = [] ∨ ∃ q, post = ',' :: q) ∧ t = (cur.getD []).reverse ++ tok) ∨
    ∃ q post, s = q ++ ',' :: t ++ post ∧ ',' ∉ t ∧ (post = [] ∨ ∃ q, post = ',' :: q) := by
  induction s generalizing cur with
  | nil =>
    cases cur with
    | none => simp [splitPlatforms] at h
    | some x =>
      simp only [splitPlatforms, List.mem_singleton] at h
      exact .inl ⟨[], [], by simp [h]⟩
  | cons c cs ih =>
    have h' : t ∈ (if c = ',' then (cur.getD []).reverse :: splitPlatforms none cs
      else splitPlatforms (some (c :: cur.getD [])) cs) := by cases cur <;> exact h
    split at h'
    · rename_i e
      subst e
      rcases List.mem_cons.1 h' with rfl | h'
      · exact .inl ⟨[], ',' :: cs, by simp⟩
      · rcases ih none (by simp) h' with ⟨tok, post, rfl, h2, h3, rfl⟩ | ⟨q, post, rfl, h2, h3⟩
        · exact .inr ⟨[], post, by simp, by simpa using h2, h3⟩
        · exact .inr ⟨',' :: q, post, by simp, h2, h3⟩
    · rename_i e
      have hc' : ∀ x, some (c :: cur.getD []) = some x → ',' ∉ x := by
        intro x hx
        cases hx
        cases cur with
        | none => simpa using fun h => e h.symm
        | some y => simp only [Option.getD_some, List.mem_cons, not_or]; exact ⟨fun h => e h.symm, hc y rfl⟩
      rcases ih _ hc' h' with ⟨tok, post, rfl, h2, h3, rfl⟩ | ⟨q, post, rfl, h2, h3⟩
      · refine .inl ⟨c :: tok, post, by simp, ?_, h3, by simp⟩
        simp only [List.mem_cons, not_or]
        exact ⟨fun h => e h.symm, h2⟩
      · exact .inr ⟨c :: q, post, by simp, h2, h3⟩

theorem split_first (cur : Option Str) (tok post : Str) (h : ',' ∉ tok) (hp : post = [] ∨ ∃ q, post = ',' :: q)
    (hne : (cur.getD []).reverse ++ tok ≠ []) : (cur.getD []).reverse ++ tok ∈ splitPlatforms cur (tok ++ post) := by
  induction tok generalizing cur with
  | nil =>
    rcases hp with rfl | ⟨q, rfl⟩
    · cases cur with
      | none => simp at hne
      | some x => simp [splitPlatforms]
    · have : splitPlatforms cur ([] ++ ',' :: q) = (cur.getD []).reverse :: splitPlatforms none q := by cases cur <;> rfl
      rw [this]; simp
  | cons c cs ih =>
    simp only [List.mem_cons, not_or] at h
    have e : splitPlatforms cur (c :: cs ++ post) = splitPlatforms (some (c :: cur.getD [])) (cs ++ post) := by
      have : ¬ c = ',' := fun e => h.1 e.symm
      cases cur <;> simp [splitPlatforms, this]
    rw [e]
    have := ih (some (c :: cur.getD [])) h.2 (by simp)
    simpa using this

theorem split_later (cur : Option Str) (q tok post : Str) (h : ',' ∉ tok) (hp : post = [] ∨ ∃ q, post = ',' :: q)
    (hne : tok ≠ []) : tok ∈ splitPlatforms cur (q ++ ',' :: tok ++ post) := by
  induction q generalizing cur with
  | nil =>
    have : splitPlatforms cur ([] ++ ',' :: tok ++ post) = (cur.getD []).reverse :: splitPlatforms none (tok ++ post) := by
      cases cur <;> rfl
    rw [this]
    exact List.mem_cons_of_mem _ (by simpa using split_first none tok post h hp (by simpa using hne))
  | cons c q ih =>
    have : splitPlatforms cur (c :: q ++ ',' :: tok ++ post) = (if c = ',' then (cur.getD []).reverse :: splitPlatforms none (q ++ ',' :: tok ++ post)
      else splitPlatforms (some (c :: cur.getD [])) (q ++ ',' :: tok ++ post)) := by cases cur <;> rfl
    rw [this]
    split
    · exact List.mem_cons_of_mem _ (ih none)
    · exact ih _

theorem piece_iff (s t : Str) (ht : t ≠ []) : t ∈ splitPlatforms none s ↔ Piece s t := by
  constructor
  · intro h
    rcases split_sound none s t (by simp) h with ⟨tok, post, rfl, h2, h3, rfl⟩ | ⟨q, post, rfl, h2, h3⟩
    · exact ⟨[], post, by simp, by simpa using h2, .inl rfl, h3⟩
    · exact ⟨q ++ [','], post, by simp, h2, .inr ⟨q, rfl⟩, h3⟩
  · rintro ⟨pre, post, hs, h2, hp, h3⟩
    rcases comma_pre hs hp with ⟨_, rfl⟩ | ⟨q, rfl⟩
    · simpa using split_first none t post h2 h3 (by simpa using ht)
    · exact split_later none q t post h2 h3 ht

theorem listed_iff (s p : Str) (hp : p ≠ []) : p ∈ (splitPlatforms none s).map trim ↔ Listed s p := by
  rw [List.mem_map]
  constructor
  · rintro ⟨t, ht, rfl⟩
    obtain ⟨a, b, e, ha, hb, hh, hl⟩ := C04_trim_exact t
    have : t ≠ [] := by rintro rfl; exact hp (by decide)
    exact ⟨a, b, e ▸ (piece_iff s t this).1 ht, ha, hb, hp, hh, hl⟩
  · rintro ⟨a, b, hpc, ha, hb, _, hh, hl⟩
    exact ⟨a ++ p ++ b, (piece_iff s _ (by simp [hp])).2 hpc, C04_trim_unique a p b ha hb hh hl⟩

theorem platformList_ok {all : List Str} {rest : Str} {l : List Str} (h : platformList all rest = .ok l) :
    l.Pairwise (· < ·) ∧ (∀ p ∈ l, p ∈ all) ∧ l ≠ [] ∧ ∀ p, p ∈ l ↔ Listed rest p := by
  unfold platformList at h
  simp only at h
  split at h
  · cases h
  · rename_i hne
    split at h
    · cases h
    · rename_i hall
      cases h
      have hall : ∀ p ∈ (splitPlatforms none rest).map trim, p ≠ [] ∧ knownPlatform all p = true := by
        intro p hp
        simp only [List.any_eq_true, not_exists, not_and, Bool.or_eq_true, not_or, Bool.not_eq_true', List.isEmpty_iff,
          Bool.not_eq_false] at hall
        exact hall p hp
      have hm : ∀ p, p ∈ uniqueAdj (sortBy strLt ((splitPlatforms none rest).map trim)) ↔ p ∈ (splitPlatforms none rest).map trim := by
        intro p; rw [uniqueAdj_mem, mem_sortBy]
      refine ⟨uniqueAdj_sorted _ (sorted_strs _), ?_, ?_, ?_⟩
      · intro p hp
        exact knownPlatform_mem (hall p ((hm p).1 hp)).2
      · intro e
        cases hl : (splitPlatforms none rest).map trim with
        | nil => rw [hl] at hne; simp at hne
        | cons a r =>
          have := (hm a).2 (by rw [hl]; simp)
          rw [e] at this; simp at this
      · intro p
        rw [hm]
        constructor
        · intro hp; exact (listed_iff rest p (hall p hp).1).1 hp
        · intro hp
          have : p ≠ [] := by obtain ⟨_, _, _, _, _, h, _⟩ := hp; exact h
          exact (listed_iff rest p this).2 hp

end PlatProofs
open PlatProofs

/-- C47: when the platforms of the schema are strictly sorted (which they are, see `C47_declared_sorted`), the platforms of a message whose
    `platforms` property is `+…` are strictly sorted and exactly those listed; all of them are declared. -/
theorem C47_plus (env : MEnv) (node : Xml) (m : Message) (h : parseMessage env node = .ok m) (props : Props) (rest : Str)
    (hp : msgProps node = some props) (hf : props.find "platforms".toList = some ('+' :: rest)) :
    m.platforms.Pairwise (· < ·) ∧ m.platforms ≠ [] ∧ (∀ p ∈ m.platforms, p ∈ env.platforms) ∧
    ∀ p, p ∈ m.platforms ↔ Listed rest p := by
  obtain ⟨props', m0, m1, src, fs, al, r⟩ := parseMessage_run h
  have e := r.coll
  rw [hp] at e
  cases e
  have hh := (msgHead_ok r.head).2.2.2.2.2.2.1
  rw [← r.platforms] at hh
  unfold msgPlatforms at hh
  split at hh
  · cases hh
  · rw [hf] at hh
    obtain ⟨h1, h2, h3, h4⟩ := platformList_ok hh
    exact ⟨h1, h3, h2, h4⟩

/-- C47 for `-…`, partial: in a message that reuses nothing the platforms are strictly sorted and exactly the declared ones that are not listed.
    Missing: messages with `reuse`, see `C47_reuse_witness`. -/
theorem C47_minus_partial (env : MEnv) (hs : env.platforms.Pairwise (· < ·)) (node : Xml) (m : Message) (h : parseMessage env node = .ok m)
    (props : Props) (rest : Str) (hp : msgProps node = some props) (hf : props.find "platforms".toList = some ('-' :: rest))
    (hr : props.find "reuse".toList = none) :
    m.platforms.Pairwise (· < ·) ∧ m.platforms ≠ [] ∧ (∀ p, p ∈ m.platforms ↔ p ∈ env.platforms ∧ ¬ Listed rest p) ∧
    ∀ p, Listed rest p → p ∈ env.platforms := by
  obtain ⟨props', m0, m1, src, fs, al, r⟩ := parseMessage_run h
  have e := r.coll
  rw [hp] at e
  cases e
  have h0 : m0 = {} := by
    rcases msgReuse_ok r.reuse with ⟨e, _⟩ | ⟨s, x, y, hs, _⟩
    · exact e
    · rw [hr] at hs; cases hs
  have hh := (msgHead_ok r.head).2.2.2.2.2.2.1
  rw [← r.platforms, h0] at hh
  unfold msgPlatforms at hh
  split at hh
  · cases hh
  · rw [hf] at hh
    simp only [Res.bind_eq_ok] at hh
    obtain ⟨l, hl, hh⟩ := hh
    obtain ⟨h1, h2, h3, h4⟩ := platformList_ok hl
    obtain ⟨h5, h6⟩ := setDiff_spec env.platforms l hs h1
    split at hh
    · cases hh
    · rename_i hne
      have e : setDiff env.platforms l = m.platforms := by
        have := Res.ok.inj hh
        simpa using this
      rw [← e]
      refine ⟨by simpa using h5, by simpa [List.isEmpty_iff] using hne, ?_, fun p hp => h2 p ((h4 p).2 hp)⟩
      intro p
      rw [h6, h4]

/-- C47: a message without the property and without reuse is for every platform (empty list); with any other text it is rejected. -/
theorem C47_other (env : MEnv) (node : Xml) (m : Message) (h : parseMessage env node = .ok m) (props : Props)
    (hp : msgProps node = some props) :
    (props.find "platforms".toList = none → props.find "reuse".toList = none → m.platforms = []) ∧
    ∀ s, props.find "platforms".toList = some s → ∃ rest, s = '+' :: rest ∨ s = '-' :: rest := by
  obtain ⟨props', m0, m1, src, fs, al, r⟩ := parseMessage_run h
  have e := r.coll
  rw [hp] at e
  cases e
  have hh := (msgHead_ok r.head).2.2.2.2.2.2.1
  rw [← r.platforms] at hh
  unfold msgPlatforms at hh
  constructor
  · intro hf hr
    have h0 : m0 = {} := by
      rcases msgReuse_ok r.reuse with ⟨e, _⟩ | ⟨s, x, y, hs, _⟩
      · exact e
      · rw [hr] at hs; cases hs
    rw [hf, h0] at hh
    split at hh
    · cases hh
    · exact (Res.ok.inj hh).symm
  · intro s hf
    rw [hf] at hh
    split at hh
    · cases hh
    · simp only at hh
      split at hh
      · rename_i e; cases e
      · rename_i e; cases e; exact ⟨_, .inl rfl⟩
      · rename_i e; cases e; exact ⟨_, .inr rfl⟩
      · cases hh

open Sample in
/-- The hypotheses are met: platforms A, B, C; `+ B , A,B,` and `-A`. -/
theorem C47_witness :
    (∃ m, parseMessage menv0 (el "message" [("name", "M"), ("id", "1"), ("platforms", "+ B , A,B,")]) = .ok m ∧
      m.platforms = ["A".toList, "B".toList]) ∧
    ∃ m, parseMessage menv0 (el "message" [("name", "M"), ("id", "1"), ("platforms", "-A")]) = .ok m ∧
      m.platforms = ["B".toList, "C".toList] := by
  obtain ⟨m, h1, _, h2⟩ := acceptedMsg menv0_ok (x := el "message" [("name", "M"), ("id", "1"), ("platforms", "+ B , A,B,")])
    (p := fun m => decide (m.platforms = ["A".toList, "B".toList])) (by decide +kernel)
  obtain ⟨m', h1', _, h2'⟩ := acceptedMsg menv0_ok (x := el "message" [("name", "M"), ("id", "1"), ("platforms", "-A")])
    (p := fun m => decide (m.platforms = ["B".toList, "C".toList])) (by decide +kernel)
  exact ⟨⟨m, h1, of_decide_eq_true h2⟩, m', h1', of_decide_eq_true h2'⟩

open Sample in
/-- Refutation of the full property: a message that reuses another one and says `-C` keeps the platforms of the reused one and gets A and B
    added: the list is neither sorted nor free of duplicates, and it contains C, which is excluded. -/
theorem C47_reuse_witness : ∃ m, AcceptedMsg m ∧ m.platforms = ["A".toList, "C".toList, "A".toList, "B".toList] := by
  obtain ⟨m, _, h1, h2⟩ := acceptedMsg (withMsg_ok menv0_ok "M" (el "message" [("name", "M"), ("id", "1"), ("platforms", "+A,C")]))
    (x := el "message" [("name", "N"), ("id", "2"), ("reuse", "M"), ("platforms", "-C")])
    (p := fun m => decide (m.platforms = ["A".toList, "C".toList, "A".toList, "B".toList])) (by decide +kernel)
  exact ⟨m, h1, of_decide_eq_true h2⟩

end Commsdsl.Props
