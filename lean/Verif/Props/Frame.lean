import Verif.Spec.Frame
import Verif.Lemmas.SampleMsg
/-!
# Frames: C38, C39, C40, C41
-/
namespace Commsdsl.Props
open Commsdsl Fld Msg Frm Spec Text

namespace FrameProofs

theorem markAfter_name (dsl : Nat) (ls : List Layer) (i : Nat) (l : Layer) : (markAfter dsl ls i l).name = l.name := by
  unfold markAfter
  repeat' split
  all_goals rfl

theorem markAfter_kind (dsl : Nat) (ls : List Layer) (i : Nat) (l : Layer) : (markAfter dsl ls i l).kind = l.kind := by
  unfold markAfter
  split
  · rename_i h
    split
    · rfl
    · split
      · rfl
      · simp only [Layer.kind, h, LData.kind]
  · rfl

/-- The layer before the mark was set. -/
theorem markAfter_data {dsl : Nat} {ls : List Layer} {i : Nat} {l : Layer} {d : LData} (h : (markAfter dsl ls i l).data = d) :
    l.data = d ∨ ∃ s v a a' e f, l.data = .sync s v a e f ∧ d = .sync s v a' e f := by
  unfold markAfter at h
  split at h
  · rename_i s v a e f hd
    split at h
    · exact .inl h
    · split at h
      · exact .inl h
      · exact .inr ⟨s, v, a, _, e, f, hd, h.symm⟩
  · exact .inl h

theorem markAll_get (dsl : Nat) (ls : List Layer) (i : Nat) (rest : List Layer) (j : Nat) :
    (markAll dsl ls i rest)[j]? = (rest[j]?).map (markAfter dsl ls (i + j)) := by
  induction rest generalizing i j with
  | nil => simp [markAll]
  | cons l rest ih =>
    cases j with
    | zero => simp [markAll]
    | succ j =>
      simp only [markAll, List.getElem?_cons_succ, ih]
      congr 2
      omega

theorem verifyAll_get {dsl : Nat} {ls : List Layer} {i : Nat} {rest : List Layer} (h : verifyAll dsl ls i rest = .ok true) {j : Nat}
    {l : Layer} (hl : rest[j]? = some l) : verifyLayer dsl ls (i + j) l.data = .ok true := by
  induction rest generalizing i j with
  | nil => simp at hl
  | cons x rest ih =>
    simp only [verifyAll, Res.bind_eq_ok] at h
    obtain ⟨ok, h1, h2⟩ := h
    split at h2
    · rename_i hok
      subst hok
      cases j with
      | zero => simp only [List.getElem?_cons_zero, Option.some.injEq] at hl; subst hl; exact h1
      | succ j =>
        have := ih h2 (j := j) (by simpa using hl)
        rwa [show i + 1 + j = i + (j + 1) by omega] at this
    · simp at h2

theorem parseFrame_run {env : LEnv} {node : Xml} {f : Frame} (h : parseFrame env node = .ok f) :
    ∃ ns ls, layerNodes node = .ok ns ∧ parseLayers env ns = .ok ls ∧ (∃ l ∈ ls, l.kind = .payload) ∧
      verifyAll env.dsl ls 0 ls = .ok true ∧ f.layers = markAll env.dsl ls 0 ls := by
  simp only [parseFrame, frameLayers, Res.bind_eq_ok, Res.ofOption_eq_ok, Res.pure_eq] at h
  obtain ⟨props, _, name, _, disp, _, descr, _, ls', ⟨ns, h1, ls, h2, _, h3, ok, h4, _, h5, h6⟩, h⟩ := h
  cases h6
  cases h
  have h3 := Res.check_eq_ok.1 h3
  simp only [List.any_eq_true, beq_iff_eq] at h3
  have h5 := Res.check_eq_ok.1 h5
  subst h5
  exact ⟨ns, ls, h1, h2, h3, h4, rfl⟩

theorem findIdx_some {α : Type} {p : α → Bool} {l : List α} {i : Nat} (h : l.findIdx? p = some i) :
    (∃ x, l[i]? = some x ∧ p x = true) ∧ ∀ j x, j < i → l[j]? = some x → p x = false := by
  induction l generalizing i with
  | nil => simp at h
  | cons a l ih =>
    rw [List.findIdx?_cons] at h
    split at h
    · rename_i ha
      simp only [Option.some.injEq] at h
      subst h
      exact ⟨⟨a, by simp, ha⟩, by intro j x hj; omega⟩
    · rename_i ha
      obtain ⟨k, hk, rfl⟩ := Option.map_eq_some_iff.1 h
      obtain ⟨⟨x, h1, h2⟩, h3⟩ := ih hk
      refine ⟨⟨x, by simpa using h1, h2⟩, ?_⟩
      intro j y hj hy
      cases j with
      | zero => simp only [List.getElem?_cons_zero, Option.some.injEq] at hy; subst hy; simpa using ha
      | succ j => exact h3 j y (by omega) (by simpa using hy)

theorem findIdx_unique {α : Type} {p : α → Bool} {l : List α} {i : Nat} {x : α} (h : l[i]? = some x) (hx : p x = true)
    (hb : ∀ j y, j < i → l[j]? = some y → p y = false) : l.findIdx? p = some i := by
  cases e : l.findIdx? p with
  | none =>
    rw [List.findIdx?_eq_none_iff] at e
    have := e x (List.mem_of_getElem? h)
    rw [hx] at this; cases this
  | some k =>
    obtain ⟨⟨y, h1, h2⟩, h3⟩ := findIdx_some e
    congr 1
    rcases Nat.lt_trichotomy k i with hlt | rfl | hlt
    · rw [hb k y hlt h1] at h2; cases h2
    · rfl
    · rw [h3 i x hlt h] at hx; cases hx

theorem single_spec {ls : List Layer} {i : Nat} {k : LKind} (h : Frm.verifySingle ls i k = true) {j : Nat} {l : Layer}
    (hl : ls[j]? = some l) (hk : l.kind = k) : j = i := by
  unfold Frm.verifySingle at h
  simp only [List.all_eq_true, List.mem_range] at h
  have hj : j < ls.length := by
    by_cases hj : j < ls.length
    · exact hj
    · rw [List.getElem?_eq_none (by omega)] at hl; cases hl
  have := h j hj
  rw [hl] at this
  simp only [Bool.or_eq_true, beq_iff_eq, bne_iff_ne] at this
  exact this.resolve_right (fun h => h hk)

/-- The frame and the list of layers it was made from. -/
theorem at_of {f : Frame} {dsl : Nat} {ls : List Layer} (h : f.layers = markAll dsl ls 0 ls) {i : Nat} {l : Layer} (hl : At f i l) :
    ∃ l0, ls[i]? = some l0 ∧ l = markAfter dsl ls i l0 := by
  unfold At at hl
  rw [h, markAll_get] at hl
  obtain ⟨l0, h1, h2⟩ := Option.map_eq_some_iff.1 hl
  exact ⟨l0, h1, by rw [← h2, Nat.zero_add]⟩

theorem at_mk {f : Frame} {dsl : Nat} {ls : List Layer} (h : f.layers = markAll dsl ls 0 ls) {i : Nat} {l0 : Layer} (hl : ls[i]? = some l0) :
    At f i (markAfter dsl ls i l0) := by
  unfold At
  rw [h, markAll_get, hl]; simp

theorem nameIdx_first {f : Frame} {dsl : Nat} {ls : List Layer} (h : f.layers = markAll dsl ls 0 ls) {n : Str} {i : Nat} :
    nameIdx ls n = some i ↔ FirstNamed f n i := by
  constructor
  · intro e
    obtain ⟨⟨x, h1, h2⟩, h3⟩ := findIdx_some e
    refine ⟨⟨_, at_mk h h1, by rw [markAfter_name]; simpa using h2⟩, ?_⟩
    intro j l hj hl
    obtain ⟨l0, h4, rfl⟩ := at_of h hl
    rw [markAfter_name]
    simpa using h3 j l0 hj h4
  · rintro ⟨⟨l, h1, h2⟩, h3⟩
    obtain ⟨l0, h4, rfl⟩ := at_of h h1
    refine findIdx_unique h4 (by simpa [markAfter_name] using h2) ?_
    intro j y hj hy
    have := h3 j _ hj (at_mk h hy)
    rw [markAfter_name] at this
    simpa using this

end FrameProofs
open FrameProofs

/-! ## C38 -/

/-- C38: in every accepted frame there is exactly one payload layer; there are no two identifier layers and no two size layers; identifier, size
    and value layers come before the payload. -/
theorem C38_frame_wellformed (env : LEnv) (node : Xml) (f : Frame) (h : parseFrame env node = .ok f) :
    ∃ p, (∃ l, At f p l) ∧ (∀ i l, At f i l → (l.kind = .payload ↔ i = p)) ∧
      (∀ i j a b, At f i a → At f j b → a.kind = b.kind → a.kind = .id ∨ a.kind = .size → i = j) ∧
      ∀ i l, At f i l → l.kind = .id ∨ l.kind = .size ∨ l.kind = .value → i < p := by
  obtain ⟨ns, ls, _, _, ⟨l, hl, hk⟩, hv, hf⟩ := parseFrame_run h
  obtain ⟨p, hp⟩ : ∃ p, kindIdx ls .payload = some p := by
    cases e : kindIdx ls .payload with
    | some p => exact ⟨p, rfl⟩
    | none =>
      unfold kindIdx at e
      rw [List.findIdx?_eq_none_iff] at e
      have := e l hl
      rw [hk] at this; cases this
  have ver : ∀ {j l}, ls[j]? = some l → verifyLayer env.dsl ls j l.data = .ok true := by
    intro j l hl
    have := verifyAll_get hv hl
    rwa [Nat.zero_add] at this
  obtain ⟨⟨lp, hp1, hp2⟩, _⟩ := findIdx_some hp
  have hp2 : lp.kind = .payload := by simpa using hp2
  have one : ∀ (i j : Nat) (a b : Layer), ls[i]? = some a → ls[j]? = some b → a.kind = b.kind → a.kind = .id ∨ a.kind = .size ∨ a.kind = .payload → i = j := by
    intro i j a b ha hb hab hk
    have := ver hb
    unfold Layer.kind at hk hab
    cases hd : b.data <;> rw [hd] at this hab <;> rw [hab] at hk <;> simp [LData.kind] at hk
    all_goals simp only [verifyLayer, Res.ok.injEq, Bool.and_eq_true] at this
    · exact single_spec this ha hab
    · exact single_spec this.1 ha hab
    · exact single_spec this.1 ha hab
  refine ⟨p, ⟨_, at_mk hf hp1⟩, ?_, ?_, ?_⟩
  · intro i l hl
    obtain ⟨l0, h1, rfl⟩ := at_of hf hl
    rw [markAfter_kind]
    constructor
    · intro e; exact one i p l0 lp h1 hp1 (by rw [e, hp2]) (.inr (.inr e))
    · rintro rfl
      rw [hp1] at h1; cases h1; exact hp2
  · intro i j a b ha hb hab hk
    obtain ⟨a0, h1, rfl⟩ := at_of hf ha
    obtain ⟨b0, h2, rfl⟩ := at_of hf hb
    rw [markAfter_kind] at hab hk
    rw [markAfter_kind] at hab
    exact one i j a0 b0 h1 h2 hab (hk.imp_right .inl)
  · intro i l hl hk
    obtain ⟨l0, h1, rfl⟩ := at_of hf hl
    rw [markAfter_kind] at hk
    have := ver h1
    have hb : verifyBefore ls i = true := by
      unfold Layer.kind at hk
      cases hd : l0.data <;> rw [hd] at this hk <;> simp [LData.kind] at hk
      all_goals simp only [verifyLayer, Res.ok.injEq, Bool.and_eq_true] at this
      · exact this.2
      · exact this.2
      · exact this
    unfold verifyBefore at hb
    rw [hp] at hb
    simpa using hb

/-! ## C39 -/

namespace FrameProofs

theorem checkUntil_spec {ls : List Layer} {i : Nat} {un : Str} (h : checkUntil ls i un = true) (hne : un ≠ []) :
    ∃ j, nameIdx ls un = some j ∧ i < j := by
  unfold checkUntil at h
  simp only [Bool.or_eq_true, List.isEmpty_iff] at h
  have h := h.resolve_left hne
  split at h
  · cases h
  · rename_i j e; exact ⟨j, e, by simpa using h⟩

theorem checkFrom_spec {ls : List Layer} {i : Nat} {fr : Str} (h : checkFrom ls i fr = .ok true) (hne : fr ≠ []) :
    ∃ j, nameIdx ls fr = some j ∧ j < i := by
  unfold checkFrom at h
  split at h
  · rename_i e; exact absurd (List.isEmpty_iff.1 e) hne
  · split at h
    · simp at h
    · rename_i j e
      split at h
      · simp at h
      · exact ⟨j, e, by omega⟩

theorem custom_spec {ls : List Layer} {i : Nat} {fr un : Str} (h : verifyCustom ls i .checksum fr un = true) :
    (fr ≠ [] ∨ un ≠ []) ∧ (fr ≠ [] → ∃ j, nameIdx ls fr = some j ∧ j < i) ∧ (un ≠ [] → ∃ j, nameIdx ls un = some j ∧ i < j) := by
  unfold verifyCustom at h
  rw [if_neg (by simp)] at h
  split at h
  · cases h
  · rename_i hne
    simp only [Bool.and_eq_true, Bool.or_eq_true, List.isEmpty_iff] at h hne
    refine ⟨?_, ?_, fun hu => checkUntil_spec h.2 hu⟩
    · by_cases e : fr = []
      · exact .inr (fun e2 => hne ⟨e, e2⟩)
      · exact .inl e
    · intro hf
      have h := h.1.resolve_left hf
      split at h
      · cases h
      · rename_i j e; exact ⟨j, e, by simpa using h⟩

theorem midsOk_spec {ls : List Layer} {b : Nat} {l : List Layer} (h : midsOk ls b l = .ok true) {x : Layer} (hx : x ∈ l) :
    midOk ls b x = .ok true := by
  induction l with
  | nil => simp at hx
  | cons a l ih =>
    simp only [midsOk, Res.bind_eq_ok] at h
    obtain ⟨ok, h1, h2⟩ := h
    split at h2
    · rename_i e; subst e
      rcases List.mem_cons.1 hx with rfl | hx
      · exact h1
      · exact ih h2 hx
    · simp at h2

theorem midOk_spec {ls : List Layer} {b : Nat} {x : Layer} {n : Str} {j : Nat} (h : midOk ls b x = .ok true) (hx : HasFrom x n)
    (hj : nameIdx ls n = some j) : b ≤ j := by
  obtain ⟨hne, hx⟩ := hx
  have e : fromOf x.data = .ok (some n) := by
    rcases hx with ⟨s, v, a, e, hd⟩ | ⟨alg, an, un, v, hd⟩ <;> rw [hd] <;> rfl
  unfold midOk at h
  rw [e] at h
  simp only [Res.bind_ok, hj, Res.pure_eq] at h
  rw [if_neg (by simpa [List.isEmpty_iff] using hne)] at h
  simp only [Res.ok.injEq, Bool.not_eq_true', decide_eq_false_iff_not] at h
  omega

theorem suffix_mem {ls : List Layer} {p i k : Nat} {x : Layer} (h1 : p < i) (h2 : i < k) (hx : ls[i]? = some x) :
    x ∈ (ls.take k).drop (p + 1) := by
  apply List.mem_of_getElem? (i := i - (p + 1))
  rw [List.getElem?_drop, List.getElem?_take]
  rw [if_pos (by omega), show p + 1 + (i - (p + 1)) = i by omega, hx]

end FrameProofs

/-- C39, bounds: every checksum layer of an accepted frame names at least one bound; `from` denotes an earlier layer and `until` a later one (the
    first layer of that name). -/
theorem C39_checksum_bounds (env : LEnv) (node : Xml) (f : Frame) (h : parseFrame env node = .ok f) (i : Nat) (l : Layer) (hl : At f i l)
    (fr un : Str) (hd : (∃ alg an v, l.data = .checksum alg an fr un v) ∨ l.data = .custom .checksum fr un) :
    (fr ≠ [] ∨ un ≠ []) ∧ (fr ≠ [] → ∃ j, FirstNamed f fr j ∧ j < i) ∧ (un ≠ [] → ∃ j, FirstNamed f un j ∧ i < j) := by
  obtain ⟨ns, ls, _, _, _, hv, hf⟩ := parseFrame_run h
  obtain ⟨l0, h1, rfl⟩ := at_of hf hl
  have ver := verifyAll_get hv h1
  rw [Nat.zero_add] at ver
  rcases hd with ⟨alg, an, v, hd⟩ | hd
  · have hd : l0.data = .checksum alg an fr un v := by
      rcases markAfter_data hd with h | ⟨_, _, _, _, _, _, _, h⟩
      · exact h
      · cases h
    rw [hd] at ver
    simp only [verifyLayer, verifyChecksum] at ver
    split at ver
    · simp at ver
    · rename_i hne
      simp only [Bool.and_eq_true, List.isEmpty_iff] at hne
      simp only [Res.bind_eq_ok, Res.pure_eq, Res.ok.injEq, Bool.and_eq_true] at ver
      obtain ⟨ok, h2, h3, h4⟩ := ver
      subst h3
      refine ⟨?_, ?_, ?_⟩
      · by_cases e : fr = []
        · exact .inr (fun e2 => hne ⟨e, e2⟩)
        · exact .inl e
      · intro hne
        obtain ⟨j, h5, h6⟩ := checkFrom_spec h2 hne
        exact ⟨j, (nameIdx_first hf).1 h5, h6⟩
      · intro hne
        obtain ⟨j, h5, h6⟩ := checkUntil_spec h4 hne
        exact ⟨j, (nameIdx_first hf).1 h5, h6⟩
  · have hd : l0.data = .custom .checksum fr un := by
      rcases markAfter_data hd with h | ⟨_, _, _, _, _, _, _, h⟩
      · exact h
      · cases h
    rw [hd] at ver
    simp only [verifyLayer, Res.ok.injEq] at ver
    obtain ⟨h2, h3, h4⟩ := custom_spec ver
    refine ⟨h2, fun hne => ?_, fun hne => ?_⟩
    · obtain ⟨j, h5, h6⟩ := h3 hne; exact ⟨j, (nameIdx_first hf).1 h5, h6⟩
    · obtain ⟨j, h5, h6⟩ := h4 hne; exact ⟨j, (nameIdx_first hf).1 h5, h6⟩

namespace FrameProofs

theorem seek_supported (dsl : Nat) : Dsl.propertySupported dsl "seekField".toList = Dsl.isSupported dsl .syncSuffixLayer := by
  have : Dsl.supportedTable.find? (fun p => p.1 == "seekField".toList) = some ("seekField".toList, 8) := by decide
  unfold Dsl.propertySupported
  rw [this]; rfl

/-- The `from` of an accepted synchronisation layer is there, and empty when the DSL version does not support it. -/
theorem syncImpl_from {env : LEnv} {node : Xml} {props : Props} {s v a : Bool} {e : Slot Field} {fr : Option Str}
    (h : syncImpl env node props = .ok (.sync s v a e fr)) :
    ∃ n, fr = some n ∧ (Dsl.isSupported env.dsl .syncSuffixLayer = false → n = []) := by
  simp only [syncImpl, Res.bind_eq_ok, Res.pure_eq, Res.ok.injEq, LData.sync.injEq] at h
  obtain ⟨seek, h1, esc, _, vv, h3, fr', h4, rfl, rfl, _, _, rfl⟩ := h
  cases hs : Dsl.isSupported env.dsl .syncSuffixLayer with
  | true =>
    unfold syncFrom at h4
    split at h4
    · cases h4
    · split at h4
      · cases h4
      · rename_i x _
        refine ⟨x, ?_, by simp⟩
        repeat' split at h4
        all_goals first | (rename_i hx; rw [hs] at hx; simp at hx; done) | (cases h4; rfl) | cases h4
  | false =>
    have hseek : seek = false := by
      unfold syncSeek at h1
      split at h1
      · cases h1
      · split at h1
        · cases h1; rfl
        · rw [seek_supported, hs] at h1; cases h1; rfl
    have hver : vv.1 = false := by
      unfold syncVerify at h3
      split at h3
      · cases h3
      · split at h3
        · cases h3; rfl
        · split at h3
          · cases h3
          · rw [hs] at h3; cases h3; rfl
    unfold syncFrom at h4
    split at h4
    · cases h4
    · split at h4
      · cases h4
      · rename_i x _
        split at h4
        · rename_i he
          cases h4
          exact ⟨x, rfl, fun _ => List.isEmpty_iff.1 he⟩
        · rw [hseek, hver] at h4; simp at h4

theorem syncImpl_kind {env : LEnv} {node : Xml} {props : Props} {d : LData} (h : syncImpl env node props = .ok d) :
    ∃ s v e fr, d = .sync s v false e fr := by
  simp only [syncImpl, Res.bind_eq_ok, Res.pure_eq, Res.ok.injEq] at h
  obtain ⟨seek, h1, esc, _, vv, h3, fr', h4, rfl⟩ := h
  exact ⟨_, _, _, _, rfl⟩

theorem layer_from {env : LEnv} {node : Xml} {l : Layer} (h : parseLayer env node = .ok l) {s v a : Bool} {e : Slot Field}
    {fr : Option Str} (hd : l.data = .sync s v a e fr) :
    ∃ n, fr = some n ∧ (Dsl.isSupported env.dsl .syncSuffixLayer = false → n = []) := by
  unfold parseLayer at h
  split at h
  · cases h
  · rename_i k _
    simp only [Res.bind_eq_ok, Res.pure_eq, Res.ok.injEq] at h
    obtain ⟨props, _, name, _, disp, _, descr, _, f, _, d, hi, rfl⟩ := h
    simp only at hd
    subst hd
    cases k <;> simp only [layerImpl] at hi
    · simp only [customImpl, Res.bind_eq_ok, Res.pure_eq, Res.ok.injEq] at hi
      obtain ⟨_, _, _, _, _, _, _, _, h⟩ := hi; cases h
    · exact syncImpl_from hi
    · cases hi
    · cases hi
    · simp only [valueImpl, Res.bind_eq_ok, Res.pure_eq, Res.ok.injEq] at hi
      obtain ⟨_, _, _, _, _, _, h⟩ := hi; cases h
    · cases hi
    · simp only [checksumImpl, Res.bind_eq_ok, Res.pure_eq, Res.ok.injEq] at hi
      obtain ⟨_, _, _, _, _, _, _, _, h⟩ := hi; cases h

theorem parseLayers_mem {env : LEnv} {ns : List Xml} {ls : List Layer} (h : parseLayers env ns = .ok ls) {l : Layer} (hl : l ∈ ls) :
    ∃ n ∈ ns, parseLayer env n = .ok l := by
  induction ns generalizing ls with
  | nil => cases h; simp at hl
  | cons n ns ih =>
    simp only [parseLayers, Res.bind_eq_ok, Res.pure_eq, Res.ok.injEq] at h
    obtain ⟨x, h1, xs, h2, rfl⟩ := h
    rcases List.mem_cons.1 hl with rfl | hl
    · exact ⟨n, by simp, h1⟩
    · obtain ⟨n', h3, h4⟩ := ih h2 hl
      exact ⟨n', by simp [h3], h4⟩

end FrameProofs

/-- C39, nesting: of two synchronisation or checksum layers after the payload the outer one does not begin after the inner one. -/
theorem C39_suffix_nesting (env : LEnv) (node : Xml) (f : Frame) (h : parseFrame env node = .ok f) (p i k : Nat) (pl a b : Layer)
    (hp : At f p pl) (hpk : pl.kind = .payload) (hi : At f i a) (hk : At f k b) (hpi : p < i) (hik : i < k) (n m : Str) (ha : HasFrom a n)
    (hb : HasFrom b m) (ia ib : Nat) (hia : FirstNamed f n ia) (hib : FirstNamed f m ib) :
    ib ≤ ia := by
  obtain ⟨q, _, hq1, _, _⟩ := C38_frame_wellformed env node f h
  have hqp : p = q := (hq1 p pl hp).1 hpk
  subst hqp
  obtain ⟨ns, ls, _, hls, _, hv, hf⟩ := parseFrame_run h
  obtain ⟨p0, h0, rfl⟩ := at_of hf hp
  obtain ⟨a0, h1, rfl⟩ := at_of hf hi
  obtain ⟨b0, h2, rfl⟩ := at_of hf hk
  have hpidx : kindIdx ls .payload = some p := by
    rw [markAfter_kind] at hpk
    refine findIdx_unique h0 (by simpa using hpk) ?_
    intro j y hj hy
    by_cases e : y.kind = .payload
    · have := (hq1 j _ (at_mk hf hy)).1 (by rw [markAfter_kind]; exact e)
      omega
    · simpa using e
  have hia' := (nameIdx_first hf).2 hia
  have hib' := (nameIdx_first hf).2 hib
  have ha0 : HasFrom a0 n := by
    obtain ⟨hne, ha⟩ := ha
    refine ⟨hne, ?_⟩
    rcases ha with ⟨s, v, x, e, hd⟩ | ⟨alg, an, un, v, hd⟩
    · rcases markAfter_data hd with h | ⟨_, _, _, _, _, _, h, h'⟩
      · exact .inl ⟨_, _, _, _, h⟩
      · cases h'; exact .inl ⟨_, _, _, _, h⟩
    · rcases markAfter_data hd with h | ⟨_, _, _, _, _, _, h, h'⟩
      · exact .inr ⟨_, _, _, _, h⟩
      · cases h'
  have ver := verifyAll_get hv h2
  rw [Nat.zero_add] at ver
  have done : suffixOk ls p k ib = .ok true → ib ≤ ia := by
    intro hm
    exact midOk_spec (midsOk_spec hm (suffix_mem hpi hik h1)) ha0 hia'
  obtain ⟨hne, hb⟩ := hb
  rcases hb with ⟨s, v, x, e, hd⟩ | ⟨alg, an, un, v, hd⟩
  · have hd0 : ∃ x, b0.data = .sync s v x e (some m) := by
      rcases markAfter_data hd with h | ⟨_, _, _, _, _, _, h, h'⟩
      · exact ⟨_, h⟩
      · cases h'; exact ⟨_, h⟩
    obtain ⟨x0, hd0⟩ := hd0
    have hsup : Dsl.isSupported env.dsl .syncSuffixLayer = true := by
      obtain ⟨n', _, hn'⟩ := parseLayers_mem hls (List.mem_of_getElem? h2)
      obtain ⟨n'', h5, h6⟩ := layer_from hn' hd0
      cases h5
      cases hs : Dsl.isSupported env.dsl .syncSuffixLayer with
      | true => rfl
      | false => exact absurd (h6 hs) hne
    rw [hd0] at ver
    simp only [verifyLayer, verifySync, hsup, Bool.not_true, Bool.false_eq_true, if_false, hpidx, verifySyncAt, hib'] at ver
    rw [if_neg (by simp; omega)] at ver
    split at ver
    · simp at ver
    · split at ver
      · rename_i e; exact absurd (List.isEmpty_iff.1 e) hne
      · split at ver
        · simp at ver
        · exact done ver
  · have hd0 : b0.data = .checksum alg an m un v := by
      rcases markAfter_data hd with h | ⟨_, _, _, _, _, _, h, h'⟩
      · exact h
      · cases h'
    rw [hd0] at ver
    simp only [verifyLayer, verifyChecksum] at ver
    split at ver
    · simp at ver
    · simp only [Res.bind_eq_ok, Res.pure_eq, Res.ok.injEq, Bool.and_eq_true] at ver
      obtain ⟨ok, h3, h4, _⟩ := ver
      subst h4
      unfold checkFrom at h3
      split at h3
      · rename_i e; exact absurd (List.isEmpty_iff.1 e) hne
      · rw [hib'] at h3
        simp only [hpidx] at h3
        split at h3
        · simp at h3
        · exact done h3


namespace FrameProofs
open Sample

/-- The environment of `menv0` with another DSL version. -/
def lenv (dsl : Nat) : LEnv := { m := { menv0 with fld := { env0 with int := { env0.int with dsl := dsl } } } }

/-- A layer with a one-byte field. -/
def lay (kind name : String) (as : List (String × String) := []) : Xml :=
  el kind (("name", name) :: as) [el "field" [] [el "int" [("name", "F"), ("type", "uint8")]]]

/-- A payload layer. -/
def pay (name : String) : Xml := el "payload" [("name", name)]

theorem frameWith {env : LEnv} {x : Xml} {p : Frame → Bool} (h : okIs (parseFrame env x) p = true) :
    ∃ f, parseFrame env x = .ok f ∧ p f = true := okIs_spec h

end FrameProofs

open Sample in
/-- The hypotheses of C38 and C39 are met: a frame with sync, size, id, payload, checksum and a closing sync layer. -/
theorem C39_witness : ∃ f, parseFrame (lenv 8) (el "frame" [("name", "Fr")] [lay "sync" "S", lay "size" "Z", lay "id" "I", pay "D",
      lay "checksum" "C" [("alg", "sum"), ("from", "Z")], lay "sync" "E" [("verifyBeforeRead", "true"), ("from", "S")]]) = .ok f ∧
    (∃ a b, At f 4 a ∧ At f 5 b ∧ HasFrom a "Z".toList ∧ HasFrom b "S".toList) ∧ FirstNamed f "Z".toList 1 ∧ FirstNamed f "S".toList 0 := by
  obtain ⟨f, h1, h2⟩ := frameWith (env := lenv 8) (x := el "frame" [("name", "Fr")] [lay "sync" "S", lay "size" "Z", lay "id" "I", pay "D",
      lay "checksum" "C" [("alg", "sum"), ("from", "Z")], lay "sync" "E" [("verifyBeforeRead", "true"), ("from", "S")]])
    (p := fun f => (match f.layers with
      | [a, b, _, _, c, d] => decide (a.name = "S".toList) && decide (b.name = "Z".toList) &&
        (match c.data with | .checksum _ _ n _ _ => decide (n = "Z".toList) | _ => false) &&
        (match d.data with | .sync _ _ _ _ (some n) => decide (n = "S".toList) | _ => false)
      | _ => false)) (by decide +kernel)
  refine ⟨f, h1, ?_⟩
  simp only at h2
  split at h2
  · rename_i a b x y c d hf
    simp only [Bool.and_eq_true, decide_eq_true_eq] at h2
    obtain ⟨⟨⟨e1, e2⟩, e3⟩, e4⟩ := h2
    have at_ : ∀ i : Nat, f.layers[i]? = [a, b, x, y, c, d][i]? := by intro i; rw [hf]
    refine ⟨⟨c, d, by unfold At; rw [at_]; rfl, by unfold At; rw [at_]; rfl, ?_, ?_⟩, ⟨⟨b, by unfold At; rw [at_]; rfl, e2⟩, ?_⟩,
      ⟨⟨a, by unfold At; rw [at_]; rfl, e1⟩, ?_⟩⟩
    · split at e3
      · rename_i hd
        simp only [decide_eq_true_eq] at e3
        subst e3
        exact ⟨by decide, .inr ⟨_, _, _, _, hd⟩⟩
      · cases e3
    · split at e4
      · rename_i hd
        simp only [decide_eq_true_eq] at e4
        subst e4
        exact ⟨by decide, .inl ⟨_, _, _, _, hd⟩⟩
      · cases e4
    · intro j l hj hl
      have : j = 0 := by omega
      subst this
      unfold At at hl
      rw [at_] at hl
      simp only [List.getElem?_cons_zero, Option.some.injEq] at hl
      subst hl
      rw [e1]; decide
    · intro j l hj; omega
  · cases h2

open Sample in
/-- Custom layers that stand for a checksum are not compared with the others: one that begins at S (0) is followed by one that begins at Z (1). -/
theorem C39_custom_witness : ∃ f, parseFrame (lenv 8) (el "frame" [("name", "Fr")] [lay "sync" "S", lay "size" "Z", pay "D",
      lay "custom" "C" [("semanticLayerType", "checksum"), ("checksumFrom", "S")], lay "checksum" "E" [("alg", "sum"), ("from", "Z")]]) = .ok f := by
  obtain ⟨f, h1, _⟩ := frameWith (env := lenv 8) (x := el "frame" [("name", "Fr")] [lay "sync" "S", lay "size" "Z", pay "D",
      lay "custom" "C" [("semanticLayerType", "checksum"), ("checksumFrom", "S")], lay "checksum" "E" [("alg", "sum"), ("from", "Z")]])
    (p := fun _ => true) (by decide +kernel)
  exact ⟨f, h1⟩

/-! ## C40 -/

open Sample in
/-- Refutation of C40: a frame with two layers named S is accepted (the error is only reported), also with a checksum from S. -/
theorem C40_duplicate_witness : ∃ f a b, parseFrame (lenv 8) (el "frame" [("name", "Fr")] [lay "sync" "S", lay "size" "S", pay "D",
      lay "checksum" "C" [("alg", "sum"), ("from", "S")]]) = .ok f ∧ At f 0 a ∧ At f 1 b ∧ a.name = "S".toList ∧ b.name = "S".toList := by
  obtain ⟨f, h1, h2⟩ := frameWith (env := lenv 8) (x := el "frame" [("name", "Fr")] [lay "sync" "S", lay "size" "S", pay "D",
      lay "checksum" "C" [("alg", "sum"), ("from", "S")]])
    (p := fun f => (match f.layers with
      | a :: b :: _ => decide (a.name = "S".toList) && decide (b.name = "S".toList)
      | _ => false)) (by decide +kernel)
  split at h2
  · rename_i a b x hf
    simp only [Bool.and_eq_true, decide_eq_true_eq] at h2
    exact ⟨f, a, b, h1, by unfold At; rw [hf]; rfl, by unfold At; rw [hf]; rfl, h2.1, h2.2⟩
  · cases h2

/-- C40, the part that holds: a reference denotes at most one position (the first of that name), so its meaning does not depend on later layers of
    the same name. -/
theorem C40_reference_partial (f : Frame) (n : Str) (i j : Nat) (hi : FirstNamed f n i) (hj : FirstNamed f n j) : i = j := by
  obtain ⟨⟨a, ha, ea⟩, hi⟩ := hi
  obtain ⟨⟨b, hb, eb⟩, hj⟩ := hj
  rcases Nat.lt_trichotomy i j with h | h | h
  · exact absurd ea (hj i a h ha)
  · exact h
  · exact absurd eb (hi j b h hb)

/-! ## C41 -/

namespace FrameProofs

theorem ofOption_ne_ub {α : Type} (o : Option α) : Res.ofOption o ≠ .ub := by cases o <;> simp [Res.ofOption]

theorem syncSeek_ne_ub (dsl : Nat) (props : Props) : syncSeek dsl props ≠ .ub := by
  unfold syncSeek
  repeat' split
  all_goals first | exact ofOption_ne_ub _ | simp

theorem syncVerify_ne_ub (dsl : Nat) (props : Props) (s : Bool) : syncVerify dsl props s ≠ .ub := by
  unfold syncVerify
  repeat' split
  all_goals simp

theorem bind_eq_ub {α β : Type} {r : Res α} {f : α → Res β} : (r >>= f) = .ub ↔ r = .ub ∨ ∃ a, r = .ok a ∧ f a = .ub := by
  cases r <;> simp

theorem syncFrom_ub {dsl : Nat} {props : Props} {s v : Bool} {cur : Option Str} :
    syncFrom dsl props s v cur = .ub ↔ props.validateSingle "from".toList = true ∧ props.find "from".toList = none ∧ cur = none := by
  unfold syncFrom
  split
  · rename_i h; simp at h; simp [h]
  · rename_i h
    simp only [Bool.not_eq_true', Bool.not_eq_false] at h
    split
    · rename_i h2
      rw [Option.or_eq_none_iff] at h2
      exact ⟨fun _ => ⟨h, h2.1, h2.2⟩, fun _ => rfl⟩
    · rename_i h2
      have : ¬ (props.find "from".toList = none ∧ cur = none) := by rw [← Option.or_eq_none_iff, h2]; simp
      simp only [this, and_false, iff_false]
      repeat' split
      all_goals simp

end FrameProofs

/-- C41, exactly: interpreting the properties of a synchronisation layer has undefined behaviour precisely when the escape field has it, or
    the DSL version is between 1 and 7, the properties are well formed, `verifyBeforeRead` is given (and what was read before is fine) and `from` is not. -/
theorem C41_undefined_iff (env : LEnv) (node : Xml) (props : Props) : layerImpl env node props .sync = .ub ↔
    (∃ seek, syncSeek env.dsl props = .ok seek ∧ syncEsc env node props seek = .ub) ∨
    ((env.dsl ≠ 0 ∧ env.dsl < 8) ∧ props.find "verifyBeforeRead".toList ≠ none ∧ props.find "from".toList = none ∧
      props.validateSingle "seekField".toList = true ∧ props.validateSingle "verifyBeforeRead".toList = true ∧
      props.validateSingle "from".toList = true ∧ ∃ e, syncEsc env node props false = .ok e) := by
  have hsup : Dsl.isSupported env.dsl .syncSuffixLayer = false ↔ env.dsl ≠ 0 ∧ env.dsl < 8 := by
    simp only [Dsl.isSupported, Dsl.featureSupported]
    split
    · rename_i h; simp [h]
    · rename_i h; simp [h]
  simp only [layerImpl, syncImpl]
  constructor
  · intro h
    rcases bind_eq_ub.1 h with h | ⟨seek, h1, h⟩
    · exact absurd h (syncSeek_ne_ub _ _)
    · rcases bind_eq_ub.1 h with h | ⟨esc, h2, h⟩
      · exact .inl ⟨seek, h1, h⟩
      · right
        rcases bind_eq_ub.1 h with h | ⟨v, h3, h⟩
        · exact absurd h (syncVerify_ne_ub _ _ _)
        · rcases bind_eq_ub.1 h with h | ⟨fr, h4, h⟩
          · obtain ⟨h5, h6, h7⟩ := syncFrom_ub.1 h
            unfold syncVerify at h3
            split at h3
            · cases h3
            · rename_i hv
              simp only [Bool.not_eq_true', Bool.not_eq_false] at hv
              split at h3
              · cases h3; cases h7
              · rename_i s hs
                split at h3
                · cases h3
                · rename_i hseek
                  simp only [Bool.not_eq_true] at hseek
                  subst hseek
                  split at h3
                  · rename_i hu
                    simp only [Bool.not_eq_true'] at hu
                    have hvs : props.validateSingle "seekField".toList = true := by
                      unfold syncSeek at h1
                      split at h1
                      · cases h1
                      · rename_i h; simpa using h
                    exact ⟨hsup.1 hu, by rw [hs]; simp, h6, hvs, hv, h5, esc, h2⟩
                  · split at h3
                    · cases h3
                    · cases h3; cases h7
          · cases h
  · rintro (⟨seek, h1, h2⟩ | ⟨hd, h1, h2, h3, h4, h5, e, h6⟩)
    · rw [h1, Res.bind_ok, h2]; rfl
    · have hd := hsup.2 hd
      have e1 : syncSeek env.dsl props = .ok false := by
        unfold syncSeek
        rw [h3]
        simp only [Bool.not_true, Bool.false_eq_true, if_false]
        split
        · rfl
        · rw [seek_supported, hd]; rfl
      have e2 : syncVerify env.dsl props false = .ok (false, none) := by
        unfold syncVerify
        rw [h4]
        simp only [Bool.not_true, Bool.false_eq_true, if_false]
        split
        · rename_i h; exact absurd h h1
        · rw [hd]; rfl
      rw [e1, Res.bind_ok, h6, Res.bind_ok, e2, Res.bind_ok, syncFrom_ub.2 ⟨h5, h2, rfl⟩]; rfl

/-- C41, partial: with DSL version 8 or later (or unspecified) the properties of a synchronisation layer cause no undefined behaviour. -/
theorem C41_supported_partial (env : LEnv) (h : env.dsl = 0 ∨ 8 ≤ env.dsl) (node : Xml) (props : Props)
    (he : ∀ seek, syncEsc env node props seek ≠ .ub) : layerImpl env node props .sync ≠ .ub := by
  intro hu
  rcases (C41_undefined_iff env node props).1 hu with ⟨seek, _, h2⟩ | ⟨⟨h1, h2⟩, _⟩
  · exact he seek h2
  · omega

open Sample in
/-- Refutation of C41: with DSL version 7 and `verifyBeforeRead` without `from` a null pointer is dereferenced. -/
theorem C41_null_witness : parseFrame (lenv 7) (el "frame" [("name", "Fr")] [lay "sync" "S" [("verifyBeforeRead", "true")], pay "D"]) = .ub :=
  isUb_spec (by decide +kernel)

namespace FrameProofs

theorem fromOf_ne_ub {env : LEnv} {node : Xml} {l : Layer} (h : parseLayer env node = .ok l) : fromOf l.data ≠ .ub := by
  cases hd : l.data <;> simp only [fromOf]
  case sync s v a e fr =>
    obtain ⟨n, rfl, _⟩ := layer_from h hd
    simp
  all_goals simp

theorem midsOk_ne_ub {ls : List Layer} {b : Nat} {l : List Layer} (h : ∀ x ∈ l, fromOf x.data ≠ .ub) : midsOk ls b l ≠ .ub := by
  induction l with
  | nil => simp [midsOk]
  | cons a l ih =>
    intro hu
    simp only [midsOk] at hu
    rcases bind_eq_ub.1 hu with hu | ⟨ok, _, hu⟩
    · unfold midOk at hu
      rcases bind_eq_ub.1 hu with hu | ⟨n, _, hu⟩
      · exact h a (by simp) hu
      · repeat' split at hu
        all_goals simp at hu
    · split at hu
      · exact ih (fun x hx => h x (by simp [hx])) hu
      · cases hu

theorem suffixOk_ne_ub {ls : List Layer} {p i b : Nat} (h : ∀ x ∈ ls, fromOf x.data ≠ .ub) : suffixOk ls p i b ≠ .ub :=
  midsOk_ne_ub fun x hx => h x (List.mem_of_mem_take (List.mem_of_mem_drop hx))

theorem verifyLayer_ne_ub {dsl : Nat} {ls : List Layer} {i : Nat} {l : Layer} (h : ∀ x ∈ ls, fromOf x.data ≠ .ub) (hl : l ∈ ls) :
    verifyLayer dsl ls i l.data ≠ .ub := by
  have hf := h l hl
  cases hd : l.data <;> simp only [verifyLayer] <;> rw [hd] at hf
  case sync s v a e fr =>
    unfold verifySync
    cases fr with
    | none => exact absurd rfl hf
    | some n =>
      repeat' split
      all_goals first | simp; done | skip
      rename_i e
      cases e
      unfold verifySyncAt
      repeat' split
      all_goals first | simp; done | exact suffixOk_ne_ub h
  case checksum alg an fr un v =>
    unfold verifyChecksum
    split
    · simp
    · intro hu
      rcases bind_eq_ub.1 hu with hu | ⟨ok, _, hu⟩
      · unfold checkFrom at hu
        repeat' split at hu
        all_goals first
          | (simp at hu; done)
          | exact suffixOk_ne_ub h hu
          | exact midsOk_ne_ub (fun x hx => h x (List.mem_of_mem_take hx)) hu
      · cases hu
  all_goals simp

end FrameProofs

/-- C41: once the layers are parsed, checking their order causes no undefined behaviour, for every DSL version: if parsing the frame has undefined
    behaviour then parsing one of its layers has. -/
theorem C41_verify (env : LEnv) (node : Xml) (h : parseFrame env node = .ub) : ∃ n l, n ∈ l ∧ layerNodes node = .ok l ∧ parseLayer env n = .ub := by
  have strub : ∀ (p : Props) k c, strProp p k c ≠ .ub := by
    intro p k c; unfold strProp; repeat' split
    all_goals simp
  unfold parseFrame at h
  rcases bind_eq_ub.1 h with h | ⟨props, _, h⟩
  · exact absurd h (ofOption_ne_ub _)
  rcases bind_eq_ub.1 h with h | ⟨name, _, h⟩
  · unfold nameProp at h
    repeat' split at h
    all_goals simp at h
    split at h <;> cases h
  rcases bind_eq_ub.1 h with h | ⟨disp, _, h⟩
  · unfold dispProp at h
    rcases bind_eq_ub.1 h with h | ⟨s, _, h⟩
    · exact absurd h (strub _ _ _)
    · cases h
  rcases bind_eq_ub.1 h with h | ⟨descr, _, h⟩
  · exact absurd h (strub _ _ _)
  rcases bind_eq_ub.1 h with h | ⟨ls, _, h⟩
  · unfold frameLayers at h
    rcases bind_eq_ub.1 h with h | ⟨ns, h1, h⟩
    · unfold layerNodes at h
      simp only at h
      repeat' split at h
      all_goals cases h
    rcases bind_eq_ub.1 h with h | ⟨ls, h2, h⟩
    · have : ∀ ns, parseLayers env ns = .ub → ∃ n ∈ ns, parseLayer env n = .ub := by
        intro ns
        induction ns with
        | nil => intro h; cases h
        | cons n ns ih =>
          intro h
          simp only [parseLayers] at h
          rcases bind_eq_ub.1 h with h | ⟨l, _, h⟩
          · exact ⟨n, by simp, h⟩
          · rcases bind_eq_ub.1 h with h | ⟨l, _, h⟩
            · obtain ⟨m, h1, h2⟩ := ih h; exact ⟨m, by simp [h1], h2⟩
            · cases h
      obtain ⟨n, h3, h4⟩ := this ns h
      exact ⟨n, ns, h3, h1, h4⟩
    exfalso
    rcases bind_eq_ub.1 h with h | ⟨_, _, h⟩
    · unfold Res.check at h; split at h <;> cases h
    have hfr : ∀ x ∈ ls, fromOf x.data ≠ .ub := by
      intro x hx
      obtain ⟨n, _, hn⟩ := parseLayers_mem h2 hx
      exact fromOf_ne_ub hn
    rcases bind_eq_ub.1 h with h | ⟨_, _, h⟩
    · have : ∀ i rest, (∀ x ∈ rest, x ∈ ls) → verifyAll env.dsl ls i rest ≠ .ub := by
        intro i rest
        induction rest generalizing i with
        | nil => intro _ h; cases h
        | cons l rest ih =>
          intro hm h
          simp only [verifyAll] at h
          rcases bind_eq_ub.1 h with h | ⟨ok, _, h⟩
          · exact verifyLayer_ne_ub hfr (hm l (by simp)) h
          · split at h
            · exact ih _ (fun x hx => hm x (by simp [hx])) h
            · cases h
      exact this 0 ls (fun _ h => h) h
    rcases bind_eq_ub.1 h with h | ⟨_, _, h⟩
    · unfold Res.check at h; split at h <;> cases h
    · cases h
  · cases h

open Sample in
/-- Undefined behaviour elsewhere in layers: an empty `<field/>` makes the parser read the first element of an empty list. -/
theorem C41_empty_field_witness : parseFrame (lenv 8) (el "frame" [("name", "Fr")] [el "sync" [("name", "S")] [el "field" []], pay "D"]) = .ub :=
  isUb_spec (by decide +kernel)

/-! ## C67 -/

namespace FrameProofs

theorem sameIdx_some {name : Str} {m : Nat} {is : List Interface} (h : sameIdx name (some m) is = true) :
    ∀ x ∈ is, ifaceFieldIdx x name = some m := by
  induction is with
  | nil => simp
  | cons a is ih =>
    rw [sameIdx] at h
    split at h
    · cases h
    · rename_i n e
      simp only [Bool.and_eq_true, beq_iff_eq] at h
      intro x hx
      rcases List.mem_cons.1 hx with rfl | hx
      · rw [e, h.1]
      · exact ih h.2 x hx

theorem sameIdx_none {name : Str} {is : List Interface} (h : sameIdx name none is = true) (hne : is ≠ []) :
    ∃ m, ∀ x ∈ is, ifaceFieldIdx x name = some m := by
  cases is with
  | nil => exact absurd rfl hne
  | cons a is =>
    rw [sameIdx] at h
    split at h
    · cases h
    · rename_i n e
      refine ⟨n, ?_⟩
      intro x hx
      rcases List.mem_cons.1 hx with rfl | hx
      · exact e
      · exact sameIdx_some h x hx

theorem layer_value {env : LEnv} {node : Xml} {l : Layer} (h : parseLayer env node = .ok l) {is : List Interface} {n : Str} {ps : Bool}
    (hd : l.data = .value is n ps) : is ≠ [] ∧ n ≠ [] ∧ sameIdx n none is = true := by
  unfold parseLayer at h
  split at h
  · cases h
  · rename_i k _
    simp only [Res.bind_eq_ok, Res.pure_eq, Res.ok.injEq] at h
    obtain ⟨props, _, name, _, disp, _, descr, _, f, _, d, hi, rfl⟩ := h
    simp only at hd
    subst hd
    cases k <;> simp only [layerImpl] at hi
    · simp only [customImpl, Res.bind_eq_ok, Res.pure_eq, Res.ok.injEq] at hi
      obtain ⟨_, _, _, _, _, _, _, _, h⟩ := hi; cases h
    · obtain ⟨_, _, _, _, h⟩ := syncImpl_kind hi; cases h
    · cases hi
    · cases hi
    · simp only [valueImpl, Res.bind_eq_ok, Res.pure_eq, Res.ok.injEq] at hi
      obtain ⟨is', h1, n', h2, _, _, h⟩ := hi
      cases h
      refine ⟨?_, ?_⟩
      · unfold valueIfaces at h1
        split at h1
        · cases h1
        · simp only [Res.bind_eq_ok] at h1
          obtain ⟨l, _, h1⟩ := h1
          split at h1
          · cases h1
          · rename_i h; cases h1; simpa [List.isEmpty_iff] using h
      · unfold valueFieldName at h2
        simp only at h2
        repeat' split at h2
        all_goals first | cases h2; done | skip
        rename_i ha hb
        cases h2
        exact ⟨by simpa [List.isEmpty_iff] using ha, hb⟩
    · cases hi
    · simp only [checksumImpl, Res.bind_eq_ok, Res.pure_eq, Res.ok.injEq] at hi
      obtain ⟨_, _, _, _, _, _, _, _, h⟩ := hi; cases h

end FrameProofs

/-- C67: the field named by a value layer of an accepted frame is in every interface of the layer (there is at least one), always at the same position. -/
theorem C67_value_field (env : LEnv) (node : Xml) (f : Frame) (h : parseFrame env node = .ok f) (i : Nat) (l : Layer) (hl : At f i l)
    (is : List Interface) (n : Str) (ps : Bool) (hd : l.data = .value is n ps) :
    is ≠ [] ∧ n ≠ [] ∧ ∃ k : Nat, ∀ x ∈ is, ∃ g : Field, x.fields[k]? = some g ∧ g.name = n := by
  obtain ⟨ns, ls, _, hls, _, hv, hf⟩ := parseFrame_run h
  obtain ⟨l0, h1, rfl⟩ := at_of hf hl
  have hd : l0.data = .value is n ps := by
    rcases markAfter_data hd with h | ⟨_, _, _, _, _, _, _, h⟩
    · exact h
    · cases h
  obtain ⟨nd, _, hnd⟩ := parseLayers_mem hls (List.mem_of_getElem? h1)
  obtain ⟨h2, h3, h4⟩ := layer_value hnd hd
  obtain ⟨m, hm⟩ := sameIdx_none h4 h2
  refine ⟨h2, h3, m, ?_⟩
  intro x hx
  obtain ⟨⟨g, h5, h6⟩, _⟩ := findIdx_some (hm x hx)
  exact ⟨g, h5, by simpa using h6⟩

open Sample in
/-- Two interfaces with the field `v` at position 1 are accepted; at different positions they are not. -/
theorem C67_witness :
    let iface (n : String) (fs : List String) := el "interface" [("name", n)] [el "fields" [] (fs.map fun s => el "int" [("name", s), ("type", "uint8")])]
    let env (a b : List String) : LEnv := { lenv 8 with m := withIface (withIface (lenv 8).m "I" (iface "I" a)) "J" (iface "J" b) }
    let x := el "frame" [("name", "Fr")] [lay "value" "V" [("interfaces", "I, J"), ("interfaceFieldName", "v")], pay "D"]
    (∃ f is p l, parseFrame (env ["a", "v"] ["b", "v"]) x = .ok f ∧ At f 0 l ∧ l.data = .value is "v".toList p ∧ is.length = 2) ∧
    ∀ f, parseFrame (env ["a", "v"] ["v", "b"]) x ≠ .ok f := by
  intro iface env x
  constructor
  · obtain ⟨f, h1, h2⟩ := frameWith (env := env ["a", "v"] ["b", "v"]) (x := x)
      (p := fun f => (match f.layers with
        | a :: _ => (match a.data with | .value is n _ => decide (n = "v".toList) && decide (is.length = 2) | _ => false)
        | _ => false)) (by decide +kernel)
    split at h2
    · rename_i a r hf
      split at h2
      · rename_i is n p hd
        simp only [Bool.and_eq_true, decide_eq_true_eq] at h2
        obtain ⟨rfl, h3⟩ := h2
        exact ⟨f, is, p, a, h1, by unfold At; rw [hf]; rfl, hd, h3⟩
      · cases h2
    · cases h2
  · intro f hf
    have : okIs (parseFrame (env ["a", "v"] ["v", "b"]) x) (fun _ => true) = false := by decide +kernel
    rw [hf] at this
    cases this

end Commsdsl.Props
