import Verif.Lemmas.GenFrame
/-!
# The generated stack of layers: C106, C107
-/
namespace Commsdsl.Props
open Commsdsl Fld Msg Frm Gen Spec Text

namespace StackProofs
open FrameProofs

theorem nameIdx_named {f : Frame} {n : Str} {j : Nat} : nameIdx f.layers n = some j ↔ FirstNamed f n j := by
  constructor
  · intro e
    obtain ⟨⟨x, h1, h2⟩, h3⟩ := findIdx_some e
    refine ⟨⟨x, h1, by simpa using h2⟩, fun i l hi hl => ?_⟩
    simpa using h3 i l hi hl
  · rintro ⟨⟨l, h1, h2⟩, h3⟩
    refine findIdx_unique h1 (by simpa using h2) fun i y hi hy => ?_
    simpa using h3 i y hi hy

theorem layer_after {env : LEnv} {node : Xml} {l : Layer} (h : parseLayer env node = .ok l) {s v a : Bool} {e : Slot Field} {fr : Option Str} (hd : l.data = .sync s v a e fr) : a = false := by
  unfold parseLayer at h
  split at h
  · cases h
  · rename_i k _
    simp only [Res.bind_eq_ok, Res.pure_eq, Res.ok.injEq] at h
    obtain ⟨props, _, name, _, disp, _, descr, _, f, _, d, hdd, rfl⟩ := h
    dsimp only at hd
    subst hd
    cases k <;> simp only [layerImpl] at hdd
    case sync =>
      obtain ⟨s', v', e', fr', he⟩ := syncImpl_kind hdd
      cases he
      rfl
    case checksum => simp [checksumImpl, Res.bind_eq_ok] at hdd
    case value => simp [valueImpl, Res.bind_eq_ok] at hdd
    case custom => simp [customImpl, Res.bind_eq_ok] at hdd
    all_goals cases hdd

/-- Synchronisation layers of accepted frames. -/
theorem sync_facts {env : LEnv} {node : Xml} {f : Frame} (h : parseFrame env node = .ok f) {p : Nat} {pl : Layer} (hp : At f p pl) (hpk : pl.kind = .payload) {k : Nat} {l : Layer} (hl : At f k l)
    {s v a : Bool} {e : Slot Field} {fr : Option Str} (hd : l.data = .sync s v a e fr) :
    ∃ m, fr = some m ∧ (a = true → p < k) ∧ (p < k → m ≠ [] → ∃ j, FirstNamed f m j ∧ j ≤ p) := by
  obtain ⟨q, _, hq1, _, _⟩ := C38_frame_wellformed env node f h
  have hqp : p = q := (hq1 p pl hp).1 hpk
  subst hqp
  obtain ⟨ns, ls, _, hls, _, hv, hf⟩ := parseFrame_run h
  obtain ⟨p0, h0, rfl⟩ := at_of hf hp
  obtain ⟨l0, h1, rfl⟩ := at_of hf hl
  have hpidx : kindIdx ls .payload = some p := by
    rw [markAfter_kind] at hpk
    refine findIdx_unique h0 (by simpa using hpk) ?_
    intro j y hj hy
    by_cases e : y.kind = .payload
    · have := (hq1 j _ (at_mk hf hy)).1 (by rw [markAfter_kind]; exact e)
      omega
    · simpa using e
  obtain ⟨a0, hd0⟩ : ∃ a0, l0.data = .sync s v a0 e fr := by
    rcases markAfter_data hd with h | ⟨_, _, _, _, _, _, h, h'⟩
    · exact ⟨_, h⟩
    · cases h'; exact ⟨_, h⟩
  obtain ⟨n', _, hn'⟩ := parseLayers_mem hls (List.mem_of_getElem? h1)
  obtain ⟨m, rfl, hm⟩ := layer_from hn' hd0
  have ha0 := layer_after hn' hd0
  subst ha0
  refine ⟨m, rfl, fun ha => ?_, fun hpk' hne => ?_⟩
  · subst ha
    unfold markAfter at hd
    rw [hd0] at hd
    dsimp only at hd
    split at hd
    · rw [hd0] at hd; cases hd
    · rw [hpidx] at hd
      simpa using hd
  · have hsup : Dsl.isSupported env.dsl .syncSuffixLayer = true := by
      cases hs : Dsl.isSupported env.dsl .syncSuffixLayer with
      | true => rfl
      | false => exact absurd (hm hs) hne
    have ver := verifyAll_get hv h1
    rw [Nat.zero_add, hd0] at ver
    simp only [verifyLayer, verifySync, hsup, Bool.not_true, Bool.false_eq_true, if_false, hpidx, verifySyncAt] at ver
    rw [if_neg (by simp; omega)] at ver
    split at ver
    · simp at ver
    · split at ver
      · rename_i e; exact absurd (List.isEmpty_iff.1 e) hne
      · split at ver
        · simp at ver
        · rename_i j hj
          split at ver
          · simp at ver
          · exact ⟨j, (nameIdx_first hf).1 hj, by omega⟩

/-- Where a layer begins. -/
def tgtOf (ls : List Layer) (p k : Nat) : Nat := match ls[k]? with
  | none => p
  | some l => match l.data with
    | .checksum _ _ fr _ _ => if fr = [] then p else (nameIdx ls fr).getD p
    | .sync _ _ _ _ (some fr) => if fr = [] then p else (nameIdx ls fr).getD p
    | _ => p

theorem tgtOf_from {f : Frame} {p k j : Nat} {l : Layer} {n : Str} (hl : At f k l) (hn : HasFrom l n) (hj : FirstNamed f n j) : tgtOf f.layers p k = j := by
  unfold tgtOf
  rw [show f.layers[k]? = some l from hl]
  have := nameIdx_named.2 hj
  obtain ⟨hne, ⟨s, v, a, e, hd⟩ | ⟨alg, an, un, v, hd⟩⟩ := hn
  · simp only [hd, if_neg hne, this, Option.getD_some]
  · simp only [hd, if_neg hne, this, Option.getD_some]

/-- A bound for where the layers behind the payload begin. -/
def lbOf (ls : List Layer) (p x : Nat) : Nat := (List.range' (p + 1) (x - p)).foldr (fun k m => min (tgtOf ls p k) m) p

theorem foldr_min_le {g : Nat → Nat} {p : Nat} {l : List Nat} : (∀ k ∈ l, l.foldr (fun k m => min (g k) m) p ≤ g k) ∧ l.foldr (fun k m => min (g k) m) p ≤ p := by
  induction l with
  | nil => simp
  | cons a l ih =>
    simp only [List.foldr_cons, List.mem_cons]
    refine ⟨?_, by omega⟩
    rintro k (rfl | hk)
    · omega
    · have := ih.1 k hk; omega

theorem le_foldr_min {g : Nat → Nat} {p b : Nat} {l : List Nat} (hp : b ≤ p) (h : ∀ k ∈ l, b ≤ g k) : b ≤ l.foldr (fun k m => min (g k) m) p := by
  induction l with
  | nil => exact hp
  | cons a l ih =>
    simp only [List.foldr_cons]
    have := ih fun k hk => h k (List.mem_cons_of_mem _ hk)
    have := h a List.mem_cons_self
    omega

theorem at_lt {f : Frame} {k : Nat} {l : Layer} (h : At f k l) : k < f.layers.length := by
  rcases Nat.lt_or_ge k f.layers.length with h1 | h1
  · exact h1
  · rw [At, List.getElem?_eq_none h1] at h; cases h

theorem at_ex {f : Frame} {k : Nat} (h : k < f.layers.length) : ∃ l, At f k l := ⟨_, List.getElem?_eq_getElem h⟩

theorem tgts {env : LEnv} {node : Xml} {f : Frame} (h : parseFrame env node = .ok f) {p : Nat} {pl : Layer} (hp : At f p pl) (hpk : pl.kind = .payload) :
    Tgts p f.layers.length (tgtOf f.layers p) (lbOf f.layers p) := by
  refine ⟨fun k hk hkn => ?_, fun k hk hkn _ => ?_, fun a b ha hab hb => ?_⟩
  · obtain ⟨l, hl⟩ := at_ex hkn
    by_cases hf : ∃ n j, HasFrom l n ∧ FirstNamed f n j ∧ j < k
    · obtain ⟨n, j, h1, h2, h3⟩ := hf
      rw [tgtOf_from hl h1 h2]; exact h3
    · unfold tgtOf
      rw [show f.layers[k]? = some l from hl]
      dsimp only
      split
      · rename_i alg an fr un v hd
        split
        · exact hk
        · rename_i hne
          obtain ⟨_, h2, _⟩ := C39_checksum_bounds env node f h k l hl fr un (.inl ⟨_, _, _, hd⟩)
          obtain ⟨j, h3, h4⟩ := h2 hne
          exact absurd ⟨fr, j, ⟨hne, .inr ⟨_, _, _, _, hd⟩⟩, h3, h4⟩ hf
      · rename_i s v a e fr hd
        split
        · exact hk
        · rename_i hne
          obtain ⟨m, hm, _, h2⟩ := sync_facts h hp hpk hl hd
          cases hm
          obtain ⟨j, h3, h4⟩ := h2 hk hne
          exact absurd ⟨fr, j, ⟨hne, .inl ⟨_, _, _, _, hd⟩⟩, h3, by omega⟩ hf
      · exact hk
  · unfold lbOf
    exact (foldr_min_le (g := tgtOf f.layers p)).1 k (by rw [List.mem_range'_1]; omega)
  · refine le_foldr_min (foldr_min_le (g := tgtOf f.layers p)).2 fun k hk => ?_
    rw [List.mem_range'_1] at hk
    exact (foldr_min_le (g := tgtOf f.layers p)).1 k (by rw [List.mem_range'_1]; omega)

theorem findIdx_congr {α : Type} {q q' : α → Bool} {o : List α} (h : ∀ k ∈ o, q k = q' k) : o.findIdx? q = o.findIdx? q' := by
  induction o with
  | nil => rfl
  | cons a o ih => rw [List.findIdx?_cons, List.findIdx?_cons, h a List.mem_cons_self, ih fun k hk => h k (List.mem_cons_of_mem _ hk)]

theorem posNamed_eq {f : Frame} (hn : ∀ i j a b, At f i a → At f j b → a.name = b.name → i = j) {o : List Nat} (ho : ∀ a, a ∈ o ↔ a < f.layers.length) {n : Str} {j : Nat}
    (hj : FirstNamed f n j) : posNamed f.layers o n = posOf o j := by
  obtain ⟨l, hl, hln⟩ := hj.1
  unfold posNamed posOf
  refine findIdx_congr fun k hk => ?_
  obtain ⟨x, hx⟩ := at_ex ((ho k).1 hk)
  rw [show f.layers[k]? = some x from hx]
  dsimp only
  by_cases he : k = j
  · subst he
    rw [show x = l by have := hx.symm.trans hl; cases this; rfl, hln]
    simp
  · rw [show (k == j) = false by simpa using he]
    have : x.name ≠ n := fun hc => he (hn k j x l hx hl (by rw [hc, hln]))
    simpa using this

theorem payload_pos_iff {f : Frame} {p : Nat} (hpay : ∀ (k : Nat) l, f.layers[k]? = some l → (l.kind = .payload ↔ k = p)) {o : List Nat} (ho : ∀ a ∈ o, a < f.layers.length) :
    (p ∈ o → ∃ j, posPayload f.layers o = some j) ∧ (p ∉ o → posPayload f.layers o = none) := by
  constructor
  · intro hp
    cases hc : posPayload f.layers o with
    | some j => exact ⟨j, rfl⟩
    | none =>
      unfold posPayload at hc
      rw [List.findIdx?_eq_none_iff] at hc
      have h1 := hc p hp
      obtain ⟨l, hl⟩ := at_ex (ho p hp)
      rw [show f.layers[p]? = some l from hl] at h1
      dsimp only at h1
      rw [(hpay p l hl).2 rfl] at h1
      cases h1
  · intro hp
    unfold posPayload
    rw [List.findIdx?_eq_none_iff]
    intro k hk
    obtain ⟨l, hl⟩ := at_ex (ho k hk)
    rw [show f.layers[k]? = some l from hl]
    have : ¬ l.kind = .payload := fun hc => hp (by rw [← (hpay k l hl).1 hc]; exact hk)
    simpa using this

theorem default_ok {f : Frame} {p : Nat} (hpay : ∀ (k : Nat) l, f.layers[k]? = some l → (l.kind = .payload ↔ k = p)) {o A B : List Nat} {k : Nat} (ho : ∀ a, a ∈ o ↔ a < f.layers.length)
    (he : o = A ++ k :: B) (hk : k ∉ A) : (p ∈ k :: B → defaultOrder f.layers o k = .ok (false, o)) ∧ (p ∉ k :: B → defaultOrder f.layers o k = .err) := by
  have hpos : posOf o k = some A.length := by rw [he]; exact posOf_mid hk
  have hdrop : o.drop A.length = k :: B := by rw [he]; simp
  have hb := payload_pos_iff hpay (o := k :: B) fun a ha => (ho a).1 (by rw [he]; exact List.mem_append_right _ ha)
  unfold defaultOrder
  rw [hpos]
  dsimp only
  rw [hdrop]
  constructor
  · intro hp
    obtain ⟨j, hj⟩ := hb.1 hp
    rw [hj]
  · intro hp
    rw [hb.2 hp]

theorem until_ok {f : Frame} {p : Nat} (hn : ∀ i j a b, At f i a → At f j b → a.name = b.name → i = j) (hpay : ∀ (k : Nat) l, f.layers[k]? = some l → (l.kind = .payload ↔ k = p)) {o : List Nat}
    (ho : ∀ a, a ∈ o ↔ a < f.layers.length) {un : Str} {j : Nat} (hj : FirstNamed f un j) : untilOrder f.layers o un = if j = p then .ok (false, o) else .err := by
  obtain ⟨l, hl, _⟩ := hj.1
  obtain ⟨A, B, he, hA⟩ := posOf_mem ((ho j).2 (at_lt hl))
  unfold untilOrder
  rw [posNamed_eq hn ho hj, he, posOf_mid hA]
  dsimp only
  rw [show (A ++ j :: B)[A.length]? = some j by simp]
  dsimp only
  rw [show f.layers[j]? = some l from hl]
  dsimp only
  by_cases hjp : j = p
  · rw [if_pos hjp, if_pos (by simpa using (hpay j l hl).2 hjp)]
  · rw [if_neg hjp, if_neg (by simpa using fun hc => hjp ((hpay j l hl).1 hc))]

/-- What the layers of an accepted frame ask for. -/
theorem asks {env : LEnv} {node : Xml} {f : Frame} (h : parseFrame env node = .ok f) (hn : ∀ i j a b, At f i a → At f j b → a.name = b.name → i = j) {p : Nat} {pl : Layer} (hp : At f p pl)
    (hpk : pl.kind = .payload) (hcs : ∀ i l alg an fr v, At f i l → l.data = .checksum alg an fr [] v → p < i) (hcu : ∀ i l fr, At f i l → l.data ≠ .custom .checksum fr []) :
    Asks f.layers p f.layers.length (tgtOf f.layers p) fun k => ∃ l, At f k l ∧ Misplaced f p k l := by
  obtain ⟨q, _, hq1, _, hq2⟩ := C38_frame_wellformed env node f h
  have hqp : p = q := (hq1 p pl hp).1 hpk
  subst hqp
  have uniq : ∀ {k : Nat} {l : Layer}, At f k l → ((∃ x, At f k x ∧ Misplaced f p k x) ↔ Misplaced f p k l) := by
    intro k l hl
    constructor
    · rintro ⟨x, hx, hm⟩
      have := hx.symm.trans hl
      cases this
      exact hm
    · exact fun hm => ⟨l, hl, hm⟩
  -- layers that are to be around the payload
  have plain : ∀ {k : Nat} {l : Layer}, At f k l → wrapsBehind l = false → (∀ fr un, ((∃ alg an v, l.data = .checksum alg an fr un v) ∨ l.data = .custom .checksum fr un) → un = []) →
      (Misplaced f p k l ↔ p < k) := by
    intro k l hl hw hu
    constructor
    · rintro (h1 | ⟨fr, un, h1, h2, _⟩)
      · exact h1.1
      · exact absurd (hu fr un h1) h2
    · exact fun h1 => .inl ⟨h1, hw⟩
  have ends : ∀ {k : Nat} {l : Layer} {fr un : Str}, At f k l → ((∃ alg an v, l.data = .checksum alg an fr un v) ∨ l.data = .custom .checksum fr un) → un ≠ [] → ∃ j, FirstNamed f un j ∧ k < j ∧
      (Misplaced f p k l ↔ j ≠ p) := by
    intro k l fr un hl hd hu
    obtain ⟨_, _, h2⟩ := C39_checksum_bounds env node f h k l hl fr un hd
    obtain ⟨j, hj, hkj⟩ := h2 hu
    refine ⟨j, hj, hkj, ?_⟩
    constructor
    · rintro (h1 | ⟨fr', un', h1, _, h3⟩)
      · omega
      · have : un' = un := by
          rcases hd with ⟨_, _, _, hd⟩ | hd <;> rcases h1 with ⟨_, _, _, h1⟩ | h1 <;> rw [hd] at h1 <;> cases h1 <;> rfl
        subst this
        rintro rfl
        exact h3 hj
    · intro hne
      refine .inr ⟨fr, un, hd, hu, fun hc => hne (C40_reference_partial f un j p hj hc)⟩
  have deflt : ∀ {o A B : List Nat} {k : Nat} {l : Layer}, (∀ a, a ∈ o ↔ a < f.layers.length) → o = A ++ k :: B → k ∉ A → (p ∈ k :: B ↔ k ≤ p) → At f k l → 
      forceOrder f.layers o k = defaultOrder f.layers o k → wrapsBehind l = false → (∀ fr un, ((∃ alg an v, l.data = .checksum alg an fr un v) ∨ l.data = .custom .checksum fr un) → un = []) →
      ((∃ x, At f k x ∧ Misplaced f p k x) → forceOrder f.layers o k = .err) ∧ (¬ (∃ x, At f k x ∧ Misplaced f p k x) → forceOrder f.layers o k = .ok (false, o)) := by
    intro o A B k l ho he hk hpk' hl hf hw hu
    rw [uniq hl, plain hl hw hu, hf]
    have := default_ok hq1 ho he hk
    refine ⟨fun h1 => this.2 fun hc => ?_, fun h1 => this.1 (hpk'.2 (by omega))⟩
    have := hpk'.1 hc
    omega
  have untl : ∀ {o : List Nat} {k : Nat} {l : Layer} {fr un : Str}, (∀ a, a ∈ o ↔ a < f.layers.length) → At f k l → ((∃ alg an v, l.data = .checksum alg an fr un v) ∨ l.data = .custom .checksum fr un) → un ≠ [] → 
      ((∃ x, At f k x ∧ Misplaced f p k x) → forceOrder f.layers o k = .err) ∧ (¬ (∃ x, At f k x ∧ Misplaced f p k x) → forceOrder f.layers o k = .ok (false, o)) := by
    intro o k l fr un ho hl hd hu
    obtain ⟨j, hj, hkj, hm⟩ := ends hl hd hu
    have hf : forceOrder f.layers o k = untilOrder f.layers o un := by
      unfold forceOrder
      rw [show f.layers[k]? = some l from hl]
      have hu' : (!un.isEmpty) = true := by simpa using hu
      rcases hd with ⟨_, _, _, hd⟩ | hd
      · simp only [hd]
        rw [if_pos hu']
      · simp only [hd]
        rw [if_neg (by simp), if_pos hu']
    rw [uniq hl, hm, hf, until_ok hn hq1 ho hj]
    refine ⟨fun h1 => if_neg h1, fun h1 => if_pos (by omega)⟩
  have sorted : ∀ {o A B : List Nat} {k : Nat} {l : Layer}, (∀ a, a ∈ o ↔ a < f.layers.length) → o = A ++ k :: B → k ∉ A → (p ∈ k :: B ↔ k ≤ p) → At f k l → wrapsBehind l = false →
      ((∃ x, At f k x ∧ Misplaced f p k x) → forceOrder f.layers o k = .err) ∧ (¬ (∃ x, At f k x ∧ Misplaced f p k x) → forceOrder f.layers o k = .ok (false, o)) := by
    intro o A B k l ho he hk hpk' hl hw
    by_cases hx : ∃ fr un, ((∃ alg an v, l.data = .checksum alg an fr un v) ∨ l.data = .custom .checksum fr un) ∧ un ≠ []
    · obtain ⟨fr, un, h1, h2⟩ := hx
      exact untl ho hl h1 h2
    · refine deflt ho he hk hpk' hl ?_ hw fun fr un hd => Classical.byContradiction fun hc => hx ⟨fr, un, hd, hc⟩
      unfold forceOrder
      rw [show f.layers[k]? = some l from hl]
      unfold wrapsBehind at hw
      cases hd : l.data <;> rw [hd] at hw <;> simp only [hd]
      case sync s v a e fr =>
        subst hw
        simp
      case checksum alg an fr un v =>
        exact absurd ⟨fr, un, .inl ⟨_, _, _, hd⟩, by simpa using hw⟩ hx
      case custom sem fr un =>
        by_cases hs : sem = .checksum
        · subst hs
          exact absurd ⟨fr, un, .inr hd, by simpa using hw⟩ hx
        · rw [if_pos hs]
  refine ⟨rfl, hq1, at_lt hp, fun o A B k ho he hk hpB hkp => ?_, fun o k ho hpk' hkn => ?_⟩
  · obtain ⟨l, hl⟩ := at_ex ((ho k).1 (by rw [he]; simp))
    refine sorted ho he hk ⟨fun _ => hkp, fun _ => hpB⟩ hl ?_
    unfold wrapsBehind
    cases hd : l.data <;> dsimp only
    case sync s v a e fr =>
      cases a with
      | false => rfl
      | true =>
        obtain ⟨_, _, h1, _⟩ := sync_facts h hp hpk hl hd
        have := h1 rfl
        omega
    case checksum alg an fr un v =>
      cases un with
      | cons c un => rfl
      | nil => have := hcs k l alg an fr v hl hd; omega
    case custom sem fr un =>
      cases un with
      | cons c un => simp
      | nil =>
        by_cases hs : sem = .checksum
        · subst hs; exact absurd hd (hcu k l fr hl)
        · simp [hs]
  · obtain ⟨l, hl⟩ := at_ex hkn
    cases hw : wrapsBehind l with
    | false =>
      have hall : ¬ ¬ ∃ x, At f k x ∧ Misplaced f p k x := fun hc => hc ((uniq hl).2 (.inl ⟨hpk', hw⟩))
      refine ⟨fun A B he hk hpB hb => (sorted ho he hk ⟨fun hc => absurd hc hpB, fun hc => by omega⟩ hl hw).1 hb, fun hc => absurd hc hall⟩
    | true =>
      have hno : ¬ ∃ x, At f k x ∧ Misplaced f p k x := by
        rw [uniq hl]
        rintro (h1 | ⟨fr, un, h1, h2, _⟩)
        · rw [hw] at h1; cases h1.2
        · unfold wrapsBehind at hw
          rcases h1 with ⟨_, _, _, h1⟩ | h1
          · rw [h1] at hw; exact h2 (by simpa using hw)
          · rw [h1] at hw; simp at hw; exact h2 hw
      refine ⟨fun _ _ _ _ _ hb => absurd hb hno, fun _ => ?_⟩
      unfold wrapsBehind at hw
      unfold forceOrder tgtOf
      rw [show f.layers[k]? = some l from hl]
      cases hd : l.data <;> rw [hd] at hw <;> simp only [hd]
      case sync s v a e fr =>
        subst hw
        obtain ⟨m, rfl, _, h2⟩ := sync_facts h hp hpk hl hd
        simp only [Bool.not_true, Bool.false_eq_true, if_false]
        by_cases hm : m = []
        · subst hm
          simp only [List.isEmpty_nil, if_true]
          congr 1
          obtain ⟨A, B, he, hA⟩ := posOf_mem ((ho p).2 (at_lt hp))
          rw [he, posOf_mid hA]
          have h1 : ∀ a ∈ A, a < f.layers.length := fun a ha => (ho a).1 (by rw [he]; exact List.mem_append_left _ ha)
          refine findIdx_append_mid (fun a ha => ?_) ?_
          · obtain ⟨x, hx⟩ := at_ex (h1 a ha)
            rw [show f.layers[a]? = some x from hx]
            have : ¬ x.kind = .payload := fun hc => hA (by rw [← (hq1 a x hx).1 hc]; exact ha)
            simpa using this
          · rw [show f.layers[p]? = some pl from hp]
            simpa using hpk
        · obtain ⟨j, hj, _⟩ := h2 hpk' hm
          rw [if_neg (by simpa using hm), posNamed_eq hn ho hj, if_neg hm, nameIdx_named.2 hj, Option.getD_some]
      case checksum alg an fr un v =>
        have hu : un = [] := by simpa using hw
        subst hu
        obtain ⟨h1, h2, _⟩ := C39_checksum_bounds env node f h k l hl fr [] (.inl ⟨_, _, _, hd⟩)
        have hne : fr ≠ [] := h1.resolve_right (by simp)
        obtain ⟨j, hj, _⟩ := h2 hne
        rw [if_neg (by simp), if_neg (by simpa using hne), posNamed_eq hn ho hj, if_neg hne, nameIdx_named.2 hj, Option.getD_some]
      case custom sem fr un =>
        simp at hw
        obtain ⟨rfl, rfl⟩ := hw
        exact absurd hd (hcu k l fr hl)
      all_goals cases hw

theorem wire_congr {b b' : Nat → Prop} {p : Nat} {o w : List Nat} (h : WireOrder b p o w) (he : ∀ k ∈ o, b k ↔ b' k) : WireOrder b' p o w := by
  induction h with
  | payload => exact .payload
  | before hk _ ih => exact .before (fun hc => hk ((he _ List.mem_cons_self).2 hc)) (ih fun k hk => he k (List.mem_cons_of_mem _ hk))
  | behind hk _ ih => exact .behind ((he _ List.mem_cons_self).1 hk) (ih fun k hk => he k (List.mem_cons_of_mem _ hk))

end StackProofs
open StackProofs

/-- C106: the layers of an accepted frame are put in an order, unless one of them can not be; the order on the wire is then that of the schema, and what is inside of a layer behind the payload are
    the layers from the one it names to the one before it. Names of layers are to be different, checksums without `until` are to be behind the payload, and not custom. -/
theorem C106_stack_partial (env : LEnv) (node : Xml) (f : Frame) (h : parseFrame env node = .ok f) (hn : ∀ i j a b, At f i a → At f j b → a.name = b.name → i = j) (p : Nat) (pl : Layer) (hp : At f p pl)
    (hpk : pl.kind = .payload) (hcs : ∀ i l alg an fr v, At f i l → l.data = .checksum alg an fr [] v → p < i) (hcu : ∀ i l fr, At f i l → l.data ≠ .custom .checksum fr []) :
    (OrderedAs f .err ∧ ∃ i l, At f i l ∧ Misplaced f p i l) ∨
    (∃ o, OrderedAs f (.ok o) ∧ (∀ i l, At f i l → ¬ Misplaced f p i l) ∧ WireOrder (AddsBehind f) p o (List.range f.layers.length) ∧
      ∀ k l n j, At f k l → p < k → HasFrom l n → FirstNamed f n j → j ≤ p → ∃ A B, o = A ++ k :: B ∧ WireOrder (AddsBehind f) p B (List.range' j (k - j))) := by
  have hT := tgts h hp hpk
  have hA := asks h hn hp hpk hcs hcu
  have hpn := at_lt hp
  have hg := full_run (Q := fun r => (r = .err ∧ ∃ i l, At f i l ∧ Misplaced f p i l) ∨ ∃ o, r = .ok o ∧ (∀ i l, At f i l → ¬ Misplaced f p i l) ∧
      Good p (tgtOf f.layers p) (lbOf f.layers p) o (f.layers.length - 1) 0) hT hA
    (fun k _ ⟨l, hl, hm⟩ => .inl ⟨rfl, k, l, hl, hm⟩) (fun H hH hb => .inr ⟨H, rfl, fun i l hl hm => hb i (at_lt hl) ⟨l, hl, hm⟩, hH⟩)
  obtain ⟨fuel, r, hr, ⟨rfl, hm⟩ | ⟨o, rfl, hno, hgood⟩⟩ := hg
  · exact .inl ⟨⟨fuel, hr⟩, hm⟩
  refine .inr ⟨o, ⟨fuel, hr⟩, hno, ?_, ?_⟩
  all_goals
    have hbe : ∀ k, k < f.layers.length → (p < k ↔ AddsBehind f k) := by
      intro k hk
      obtain ⟨l, hl⟩ := at_ex hk
      constructor
      · intro hpk'
        cases hw : wrapsBehind l with
        | true => exact ⟨l, hl, hw⟩
        | false => exact absurd (.inl ⟨hpk', hw⟩) (hno k l hl)
      · rintro ⟨x, hx, hw⟩
        have := hx.symm.trans hl
        cases this
        unfold wrapsBehind at hw
        cases hd : l.data <;> rw [hd] at hw
        case sync s v a e fr =>
          obtain ⟨_, _, h1, _⟩ := sync_facts h hp hpk hl hd
          exact h1 hw
        case checksum alg an fr un v =>
          have hu : un = [] := by simpa using hw
          subst hu
          exact hcs k l alg an fr v hl hd
        case custom sem fr un =>
          simp at hw
          obtain ⟨rfl, rfl⟩ := hw
          exact absurd hd (hcu k l fr hl)
        all_goals cases hw
    have hmem : ∀ a, a ∈ o → a < f.layers.length := fun a ha => by have := (hgood.mem a).1 ha; omega
  · have := wire_of (behind := fun k => p < k) (fun k => Iff.rfl) o 0 (f.layers.length - 1) (by omega) (by omega) (fun a => (hgood.mem a).trans (by omega)) hgood.nodup hgood.last hgood.rel
    rw [show f.layers.length - 1 + 1 - 0 = f.layers.length by omega, ← List.range_eq_range'] at this
    exact wire_congr this fun k hk => hbe k (hmem k hk)
  · intro k l n j hl hpk' hfrom hfirst hjp
    have htgt := tgtOf_from (p := p) hl hfrom hfirst
    obtain ⟨A, B, hAB⟩ := List.append_of_mem ((hgood.mem k).2 (by have := at_lt hl; omega))
    refine ⟨A, B, hAB, ?_⟩
    have hlb : lbOf f.layers p k = tgtOf f.layers p k := by
      refine Nat.le_antisymm (hT.le k hpk' (at_lt hl) (by omega)) ?_
      refine le_foldr_min (by omega) fun i hi => ?_
      rw [List.mem_range'_1] at hi
      rw [htgt]
      rcases Nat.lt_or_eq_of_le (show i ≤ k by omega) with hik | rfl
      · obtain ⟨x, hx⟩ := at_ex (f := f) (k := i) (by have := at_lt hl; omega)
        by_cases hf : ∃ n' j', HasFrom x n' ∧ FirstNamed f n' j'
        · obtain ⟨n', j', h1, h2⟩ := hf
          rw [tgtOf_from hx h1 h2]
          exact C39_suffix_nesting env node f h p i k pl x l hp hpk hx hl (by omega) hik n' n h1 hfrom j' j h2 hfirst
        · unfold tgtOf
          rw [show f.layers[i]? = some x from hx]
          dsimp only
          split
          · rename_i alg an fr un v hd
            split
            · exact hjp
            · rename_i hne
              obtain ⟨_, h2, _⟩ := C39_checksum_bounds env node f h i x hx fr un (.inl ⟨_, _, _, hd⟩)
              obtain ⟨j', h3, _⟩ := h2 hne
              exact absurd ⟨fr, j', ⟨hne, .inr ⟨_, _, _, _, hd⟩⟩, h3⟩ hf
          · rename_i s v a e fr hd
            split
            · exact hjp
            · rename_i hne
              obtain ⟨m, hm, _, h2⟩ := sync_facts h hp hpk hx hd
              cases hm
              obtain ⟨j', h3, _⟩ := h2 (by omega) hne
              exact absurd ⟨fr, j', ⟨hne, .inl ⟨_, _, _, _, hd⟩⟩, h3⟩ hf
          · exact hjp
      · rw [htgt]; exact Nat.le_refl _
    have hg2 := hgood
    rw [hAB] at hg2
    have := covers (behind := fun k => p < k) (fun k => Iff.rfl) hg2 hpk' (by omega) hlb
    rw [htgt] at this
    exact wire_congr this fun a ha => hbe a (hmem a (by rw [hAB]; simp [ha]))

/-- C106: the loops have one result at most. -/
theorem C106_unique (f : Frame) (r s : Res (List Nat)) (hr : OrderedAs f r) (hs : OrderedAs f s) : r = s := by
  obtain ⟨a, ha⟩ := hr
  obtain ⟨b, hb⟩ := hs
  have h1 := orderRun_mono a (max a b) _ _ r (by omega) ha
  have h2 := orderRun_mono b (max a b) _ _ s (by omega) hb
  rw [h1] at h2
  cases h2
  rfl

namespace StackProofs
open Sample FrameProofs

/-- A checksum layer. -/
def cs (n fr : String) : Xml := lay "checksum" n [("alg", "sum"), ("from", fr)]

/-- A custom checksum layer. -/
def cu (n fr : String) : Xml := lay "custom" n [("semanticLayerType", "checksum"), ("checksumFrom", fr)]

/-- A frame of these layers. -/
def frm (ls : List Xml) : Xml := el "frame" [("name", "Fr")] ls

/-- Its order after that many rounds. -/
def orderIs (ls : List Xml) (r : Option (Res (List Nat))) : Bool := okIs (parseFrame (lenv 8) (frm ls)) fun f => decide (stackOrder f.layers 200 = r)

theorem order_spec {ls : List Xml} {r : Res (List Nat)} (h : orderIs ls (some r) = true) : ∃ f, parseFrame (lenv 8) (frm ls) = .ok f ∧ OrderedAs f r := by
  obtain ⟨f, h1, h2⟩ := okIs_spec h
  exact ⟨f, h1, 200, of_decide_eq_true h2⟩

/-- The conditions of C106 as a test. -/
def tame (p : Nat) (f : Frame) : Bool :=
  decide (f.layers.map Layer.name).Nodup && (List.range f.layers.length).all fun i => match f.layers[i]? with
    | none => true
    | some l => match l.data with
      | .checksum _ _ _ un _ => !un.isEmpty || decide (p < i)
      | .custom sem _ un => sem != .checksum || !un.isEmpty
      | _ => true

theorem tame_spec {p : Nat} {f : Frame} (h : tame p f = true) : (∀ i j a b, At f i a → At f j b → a.name = b.name → i = j) ∧
    (∀ i l alg an fr v, At f i l → l.data = .checksum alg an fr [] v → p < i) ∧ ∀ i l fr, At f i l → l.data ≠ .custom .checksum fr [] := by
  unfold tame at h
  simp only [Bool.and_eq_true, decide_eq_true_eq, List.all_eq_true, List.mem_range] at h
  obtain ⟨h1, h2⟩ := h
  refine ⟨fun i j a b ha hb hab => ?_, fun i l alg an fr v hl hd => ?_, fun i l fr hl hd => ?_⟩
  · have hi : (f.layers.map Layer.name)[i]? = some a.name := by rw [List.getElem?_map, show f.layers[i]? = some a from ha]; rfl
    have hj : (f.layers.map Layer.name)[j]? = some a.name := by rw [List.getElem?_map, show f.layers[j]? = some b from hb, hab]; rfl
    exact (List.getElem?_inj (by simpa using at_lt ha) h1).1 (hi.trans hj.symm)
  · have := h2 i (at_lt hl)
    rw [show f.layers[i]? = some l from hl] at this
    simp only [hd] at this
    simpa using this
  · have := h2 i (at_lt hl)
    rw [show f.layers[i]? = some l from hl] at this
    simp only [hd] at this
    simp at this

end StackProofs

open Sample FrameProofs in
/-- The hypotheses of C106 are met, with layers behind the payload that begin at different ones, and the order is found; in another frame a layer is misplaced. -/
theorem C106_witness :
    (∃ f pl, parseFrame (lenv 8) (frm [lay "sync" "S", lay "size" "Z", lay "id" "I", pay "D", cs "C" "Z", lay "sync" "E" [("verifyBeforeRead", "true"), ("from", "S")]]) = .ok f ∧ At f 3 pl ∧ pl.kind = .payload ∧
      ((∀ i j a b, At f i a → At f j b → a.name = b.name → i = j) ∧ (∀ i l alg an fr v, At f i l → l.data = .checksum alg an fr [] v → 3 < i) ∧ ∀ i l fr, At f i l → l.data ≠ .custom .checksum fr []) ∧
      OrderedAs f (.ok [5, 0, 4, 1, 2, 3])) ∧
    ∃ f, parseFrame (lenv 8) (frm [lay "id" "I", pay "D", lay "custom" "C"]) = .ok f ∧ OrderedAs f .err := by
  refine ⟨?_, order_spec (by decide +kernel)⟩
  obtain ⟨f, h1, h2⟩ := frameWith (env := lenv 8)
    (x := frm [lay "sync" "S", lay "size" "Z", lay "id" "I", pay "D", cs "C" "Z", lay "sync" "E" [("verifyBeforeRead", "true"), ("from", "S")]])
    (p := fun f => tame 3 f && decide (stackOrder f.layers 200 = some (.ok [5, 0, 4, 1, 2, 3])) && (match f.layers[3]? with | some l => l.kind == .payload | none => false)) (by decide +kernel)
  simp only [Bool.and_eq_true, decide_eq_true_eq] at h2
  obtain ⟨⟨h2, h3⟩, h4⟩ := h2
  cases hl : f.layers[3]? with
  | none => rw [hl] at h4; cases h4
  | some l =>
    rw [hl] at h4
    exact ⟨f, l, h1, hl, by simpa using h4, tame_spec h2, 200, h3⟩

open Sample FrameProofs in
/-- Without the condition on checksums it fails: the frame with a checksum before the payload is accepted, and the loop leaves the list of layers. -/
theorem C106_before_witness : ∃ f, parseFrame (lenv 8) (frm [lay "id" "I", cs "C" "I", pay "D"]) = .ok f ∧ OrderedAs f .ub := order_spec (by decide +kernel)

open Sample FrameProofs in
/-- Custom checksums are put in the order of the schema, not around each other: a custom checksum behind a checksum is written before it. -/
theorem C106_custom_witness : ∃ f, parseFrame (lenv 8) (frm [lay "id" "I", pay "D", cs "C" "I", cu "E" "I"]) = .ok f ∧ OrderedAs f (.ok [2, 3, 0, 1]) ∧
    WireOrder (fun k => 1 < k) 1 [2, 3, 0, 1] [0, 1, 3, 2] := by
  obtain ⟨f, h1, h2⟩ := order_spec (ls := [lay "id" "I", pay "D", cs "C" "I", cu "E" "I"]) (r := .ok [2, 3, 0, 1]) (by decide +kernel)
  refine ⟨f, h1, h2, ?_⟩
  exact .behind (w := [0, 1, 3]) (by omega) (.behind (w := [0, 1]) (by omega) (.before (by omega) .payload))

namespace StackProofs
open Sample FrameProofs

/-- The loops stay in these states. -/
def stays (ls : List Layer) (S : List (List Nat × Nat)) : Bool := S.all fun s => match s.1[s.2]? with
  | none => false
  | some k => match forceOrder ls s.1 k with
    | .ok (true, o') => decide ((o', 0) ∈ S)
    | .ok (false, o') => decide ((o', s.2 + 1) ∈ S)
    | _ => false

theorem stays_spec {ls : List Layer} {S : List (List Nat × Nat)} (h : stays ls S = true) (n : Nat) : ∀ o i, (o, i) ∈ S → orderRun ls n o i = none := by
  induction n with
  | zero => intro _ _ _; rfl
  | succ n ih =>
    intro o i hs
    have h1 := List.all_eq_true.1 h _ hs
    dsimp only at h1
    rw [orderRun]
    cases hk : o[i]? with
    | none => rw [hk] at h1; cases h1
    | some k =>
      rw [hk] at h1
      dsimp only at h1 ⊢
      cases hf : forceOrder ls o k with
      | ub => rw [hf] at h1; cases h1
      | err => rw [hf] at h1; cases h1
      | ok r =>
        rw [hf] at h1
        obtain ⟨b, o'⟩ := r
        cases b with
        | true => exact ih o' 0 (of_decide_eq_true h1)
        | false => exact ih o' (i + 1) (of_decide_eq_true h1)

end StackProofs

open Sample FrameProofs in
/-- Two custom checksums that begin at the same layer are moved for ever: the generator does not end. -/
theorem C106_endless_witness : ∃ f, parseFrame (lenv 8) (frm [lay "id" "I", pay "D", cu "C" "I", cu "E" "I"]) = .ok f ∧ ∀ r, ¬ OrderedAs f r := by
  obtain ⟨f, h1, h2⟩ := frameWith (env := lenv 8) (x := frm [lay "id" "I", pay "D", cu "C" "I", cu "E" "I"])
    (p := fun f => decide (f.layers.length = 4) && stays f.layers [([0, 1, 2, 3], 0), ([0, 1, 2, 3], 1), ([0, 1, 2, 3], 2), ([2, 0, 1, 3], 0), ([2, 0, 1, 3], 1), ([2, 0, 1, 3], 2), ([2, 0, 1, 3], 3),
      ([2, 3, 0, 1], 0), ([3, 0, 2, 1], 0), ([3, 0, 2, 1], 1), ([3, 0, 2, 1], 2), ([3, 2, 0, 1], 0), ([2, 0, 3, 1], 0), ([2, 0, 3, 1], 1), ([2, 0, 3, 1], 2)]) (by decide +kernel)
  simp only [Bool.and_eq_true, decide_eq_true_eq] at h2
  refine ⟨f, h1, fun r ⟨n, hn⟩ => ?_⟩
  unfold stackOrder at hn
  rw [h2.1] at hn
  rw [stays_spec h2.2 n (List.range 4) 0 (by decide)] at hn
  cases hn

open Sample FrameProofs in
/-- What is inside of a checksum that begins behind the payload can not be what it names: the payload is inside of it, although the checksum is to begin at the layer behind it. -/
theorem C106_inside_witness : ∃ f, parseFrame (lenv 8) (frm [lay "id" "I", pay "D", lay "sync" "s", cs "C" "s"]) = .ok f ∧ FirstNamed f "s".toList 2 ∧ OrderedAs f (.ok [0, 3, 2, 1]) := by
  obtain ⟨f, h1, h2⟩ := frameWith (env := lenv 8) (x := frm [lay "id" "I", pay "D", lay "sync" "s", cs "C" "s"])
    (p := fun f => decide (nameIdx f.layers "s".toList = some 2) && decide (stackOrder f.layers 200 = some (.ok [0, 3, 2, 1]))) (by decide +kernel)
  simp only [Bool.and_eq_true, decide_eq_true_eq] at h2
  exact ⟨f, h1, nameIdx_named.1 h2.1, 200, h2.2⟩

/-! ## C107 -/

namespace StackProofs

theorem layerDefs_get (xs : List Layer) : ∀ (prev : Option Layer) (has : Bool),
    (∀ i : Nat, (layerDefs prev has xs).1[i]? = (xs[i]?).map fun l => layerDef l (if i = 0 then prev else xs[i - 1]?) (has || (xs.take i).any layerTakesMessages)) ∧
    (layerDefs prev has xs).2 = (xs.getLast?.or prev, has || xs.any layerTakesMessages) := by
  induction xs with
  | nil => intro prev has; simp [layerDefs]
  | cons x xs ih =>
    intro prev has
    obtain ⟨h1, h2⟩ := ih (some x) (has || layerTakesMessages x)
    rw [layerDefs]
    dsimp only
    refine ⟨fun i => ?_, ?_⟩
    · cases i with
      | zero => simp
      | succ i =>
        rw [List.getElem?_cons_succ]
        show (layerDefs (some x) (has || layerTakesMessages x) xs).1[i]? = _
        rw [h1 i, List.getElem?_cons_succ]
        congr 1
        funext l
        have hp : (if i + 1 = 0 then prev else (x :: xs)[i + 1 - 1]?) = if i = 0 then some x else xs[i - 1]? := by
          cases i with
          | zero => simp
          | succ i => simp
        rw [hp, List.take_succ_cons, List.any_cons, Bool.or_assoc]
    · show (layerDefs (some x) (has || layerTakesMessages x) xs).2 = _
      rw [h2, List.any_cons, Bool.or_assoc]
      congr 1
      cases xs with
      | nil => rfl
      | cons y ys => rw [List.getLast?_cons_cons]; cases hl : (y :: ys).getLast? with
        | none => simp at hl
        | some z => rfl

end StackProofs

/-- C107: every layer has one definition, behind those of the layers inside of it; it wraps the next layer, gives that the parameters it has, and has parameters if there is a layer at or inside of it
    that is given the messages. Scopes give parameters where the definition has them. -/
theorem C107_definitions (ls : List Layer) (i : Nat) (l : Layer) (hl : ls[i]? = some l) :
    ∃ d, (stackDef ls).1[ls.length - 1 - i]? = some d ∧ d.cls = className l.name ∧
      (d.params = true ↔ ∃ j m, i ≤ j ∧ ls[j]? = some m ∧ TakesMessages m) ∧ (scopeGivesParams ls i = true ↔ d.params = true) ∧
      (∀ m, ls[i + 1]? = some m → d.inner = className m.name ∧ ∃ e, (stackDef ls).1[ls.length - 1 - (i + 1)]? = some e ∧ e.cls = className m.name ∧ e.params = d.innerParams) ∧
      (ls.length = i + 1 → d.inner = [] ∧ d.innerParams = false) := by
  have hi : i < ls.length := by
    rcases Nat.lt_or_ge i ls.length with h | h
    · exact h
    · rw [List.getElem?_eq_none h] at hl; cases hl
  have hd := (layerDefs_get ls.reverse none false).1
  have htake : ∀ j, j < ls.length → (ls.reverse.take (ls.length - 1 - j)).any layerTakesMessages = (ls.drop (j + 1)).any layerTakesMessages := by
    intro j hj
    rw [List.take_reverse, List.any_reverse, show ls.length - (ls.length - 1 - j) = j + 1 by omega]
  have hget : ∀ j (m : Layer), ls[j]? = some m → (stackDef ls).1[ls.length - 1 - j]? = some (layerDef m (ls[j + 1]?) ((ls.drop (j + 1)).any layerTakesMessages)) := by
    intro j m hm
    have hj : j < ls.length := by
      rcases Nat.lt_or_ge j ls.length with h | h
      · exact h
      · rw [List.getElem?_eq_none h] at hm; cases hm
    show (layerDefs none false ls.reverse).1[ls.length - 1 - j]? = _
    have h1 : ls.reverse[ls.length - 1 - j]? = some m := by rw [List.getElem?_reverse (by omega), show ls.length - 1 - (ls.length - 1 - j) = j by omega, hm]
    have h2 : (if ls.length - 1 - j = 0 then none else ls.reverse[ls.length - 1 - j - 1]?) = ls[j + 1]? := by
      split
      · rw [List.getElem?_eq_none (by omega)]
      · rw [List.getElem?_reverse (by omega), show ls.length - 1 - (ls.length - 1 - j - 1) = j + 1 by omega]
    rw [hd, h1, Option.map_some, Bool.false_or, htake j hj, h2]
  have hpar : ∀ j (m : Layer), ls[j]? = some m → ((ls.drop (j + 1)).any layerTakesMessages || layerTakesMessages m) = (ls.drop j).any layerTakesMessages := by
    intro j m hm
    have : ls.drop j = m :: ls.drop (j + 1) := by
      rw [List.drop_eq_getElem?_toList_append (i := j), hm]
      rfl
    rw [this, List.any_cons, Bool.or_comm]
  have htk : ∀ m : Layer, layerTakesMessages m = true ↔ TakesMessages m := by
    intro m
    unfold layerTakesMessages TakesMessages
    cases hd : m.data <;> simp
  refine ⟨_, hget i l hl, rfl, ?_, ?_, fun m hm => ⟨?_, _, hget (i + 1) m hm, rfl, ?_⟩, fun he => ⟨?_, ?_⟩⟩
  · show ((ls.drop (i + 1)).any layerTakesMessages || layerTakesMessages l) = true ↔ _
    rw [hpar i l hl, List.any_eq_true]
    constructor
    · rintro ⟨m, hm, ht⟩
      obtain ⟨j, hj⟩ := List.getElem?_of_mem hm
      rw [List.getElem?_drop] at hj
      exact ⟨i + j, m, by omega, hj, (htk m).1 ht⟩
    · rintro ⟨j, m, hij, hm, ht⟩
      refine ⟨m, ?_, (htk m).2 ht⟩
      refine List.mem_of_getElem? (i := j - i) ?_
      rw [List.getElem?_drop, show i + (j - i) = j by omega, hm]
  · show scopeGivesParams ls i = true ↔ ((ls.drop (i + 1)).any layerTakesMessages || layerTakesMessages l) = true
    rw [hpar i l hl]
    rfl
  · show ((ls[i + 1]?).map fun p => className p.name).getD [] = _
    rw [hm]
    rfl
  · show ((ls.drop (i + 1 + 1)).any layerTakesMessages || layerTakesMessages m) = (ls.drop (i + 1)).any layerTakesMessages
    exact hpar (i + 1) m hm
  · show ((ls[i + 1]?).map fun p => className p.name).getD [] = _
    rw [List.getElem?_eq_none (by omega)]
    rfl
  · show (ls.drop (i + 1)).any layerTakesMessages = false
    rw [List.drop_eq_nil_of_le (by omega)]
    rfl

/-- C107: `Stack` stands for the outermost layer; it is given parameters if the definition has them. The number of definitions and of access functions is the number of layers. -/
theorem C107_stack (l : Layer) (ls : List Layer) : (stackDef (l :: ls)).2.1 = className l.name ∧ (stackDef (l :: ls)).1.length = ls.length + 1 ∧
    ((stackDef (l :: ls)).2.2 = true ↔ ∃ m ∈ l :: ls, TakesMessages m) ∧ frameGivesParams (l :: ls) = (stackDef (l :: ls)).2.2 ∧
    ∀ i : Nat, (accessNames (l :: ls))[i]? = ((l :: ls).reverse[i]?).map fun m => accessName m.name := by
  have h := layerDefs_get (l :: ls).reverse none false
  have htk : ∀ m : Layer, layerTakesMessages m = true ↔ TakesMessages m := by
    intro m
    unfold layerTakesMessages TakesMessages
    cases hd : m.data <;> simp
  refine ⟨?_, ?_, ?_, ?_, fun i => ?_⟩
  · show ((layerDefs none false (l :: ls).reverse).2.1.map fun p => className p.name).getD [] = _
    rw [h.2, List.getLast?_reverse]
    rfl
  · show (layerDefs none false (l :: ls).reverse).1.length = _
    have h1 : ∀ i : Nat, (layerDefs none false (l :: ls).reverse).1[i]? = none ↔ (l :: ls).reverse[i]? = none := by
      intro i
      rw [h.1 i]
      simp
    have h2 : ∀ i : Nat, (layerDefs none false (l :: ls).reverse).1.length ≤ i ↔ (l :: ls).reverse.length ≤ i := by
      intro i
      rw [← List.getElem?_eq_none_iff, ← List.getElem?_eq_none_iff]
      exact h1 i
    have h3 := (h2 _).1 (Nat.le_refl _)
    have h4 := (h2 _).2 (Nat.le_refl _)
    rw [List.length_reverse, List.length_cons] at h3 h4
    omega
  · show (layerDefs none false (l :: ls).reverse).2.2 = true ↔ _
    rw [h.2, Bool.false_or, List.any_reverse, List.any_eq_true]
    exact ⟨fun ⟨m, hm, ht⟩ => ⟨m, hm, (htk m).1 ht⟩, fun ⟨m, hm, ht⟩ => ⟨m, hm, (htk m).2 ht⟩⟩
  · show (l :: ls).any layerTakesMessages = (layerDefs none false (l :: ls).reverse).2.2
    rw [h.2, Bool.false_or, List.any_reverse]
  · unfold accessNames
    rw [List.getElem?_map]

end Commsdsl.Props
