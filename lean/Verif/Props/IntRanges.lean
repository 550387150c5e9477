import Verif.Spec.IntField
import Verif.Lemmas.Sort
/-!
# Properties C11, C12 (normalisation of valid ranges)
-/
namespace Commsdsl.Props
open Commsdsl IntF Spec

/-- Version windows are the same. -/
def SameWindow (a b : RangeInfo) : Prop := a.since = b.since ∧ a.depr = b.depr

/-- A declared range is well formed: its window is not marked as deleted and its bounds are `intmax_t` values. -/
def RangeOk (r : RangeInfo) : Prop :=
  0 < r.depr ∧ i64Min ≤ r.min ∧ r.min ≤ i64Max ∧ i64Min ≤ r.max ∧ r.max ≤ i64Max

instance : DecidablePred RangeOk := fun _ => inferInstanceAs (Decidable (_ ∧ _ ∧ _ ∧ _ ∧ _))

/-- For the 64 bit unsigned types: the bounds are below 2^63. -/
def BelowSign (t : IntType) (r : RangeInfo) : Prop := isBigUnsigned t = true → 0 ≤ r.min ∧ 0 ≤ r.max

private def Valid (l : List RangeInfo) (ver : Nat) (v : Int) : Prop :=
  ∃ r ∈ l, r.since ≤ ver ∧ ver < r.depr ∧ r.min ≤ v ∧ v ≤ r.max

private theorem valid_cons (a : RangeInfo) (l : List RangeInfo) (ver : Nat) (v : Int) :
    Valid (a :: l) ver v ↔ (a.since ≤ ver ∧ ver < a.depr ∧ a.min ≤ v ∧ v ≤ a.max) ∨ Valid l ver v := by
  simp [Valid]

private theorem valid_perm {l l' : List RangeInfo} (h : l.Perm l') (ver : Nat) (v : Int) : Valid l ver v ↔ Valid l' ver v := by
  unfold Valid
  constructor
  · rintro ⟨r, hr, h1⟩; exact ⟨r, h.mem_iff.1 hr, h1⟩
  · rintro ⟨r, hr, h1⟩; exact ⟨r, h.mem_iff.2 hr, h1⟩

/-- Order of the first sort, on live ranges. -/
private def LexLe (a b : RangeInfo) : Prop :=
  a.depr ≠ 0 → b.depr ≠ 0 →
    a.since < b.since ∨ (a.since = b.since ∧ (a.depr < b.depr ∨ (a.depr = b.depr ∧ a.min ≤ b.min)))

private theorem inner_spec (l : List RangeInfo) : ∀ (cur cur' : RangeInfo) (l' : List RangeInfo),
    mergeInner cur l = .ok (cur', l') → cur.depr ≠ 0 → (∀ n ∈ l, LexLe cur n) → l.Pairwise LexLe →
    cur'.min = cur.min ∧ cur'.since = cur.since ∧ cur'.depr = cur.depr ∧ cur.max ≤ cur'.max ∧
    (∀ ver v, Valid (cur' :: l') ver v ↔ Valid (cur :: l) ver v) ∧
    (∀ n' ∈ l', ∃ n ∈ l, n' = n ∨ n' = { n with depr := 0 }) ∧
    l'.Pairwise LexLe ∧
    (∀ n ∈ l', n.depr ≠ 0 → SameWindow cur n → cur'.max + 1 < n.min) ∧
    (∃ m ∈ cur :: l, cur'.max = m.max) := by
  induction l with
  | nil =>
    intro cur cur' l' h hc _ _
    simp only [mergeInner, Res.ok.injEq, Prod.mk.injEq] at h
    obtain ⟨rfl, rfl⟩ := h
    simp
  | cons n ns ih =>
    intro cur cur' l' h hc hle hpw
    have hle' : ∀ m ∈ ns, LexLe cur m := fun m hm => hle m (by simp [hm])
    rw [List.pairwise_cons] at hpw
    unfold mergeInner at h
    split at h
    · rename_i hn0
      rw [Res.bind_eq_ok] at h
      obtain ⟨⟨c1, n1⟩, h1, h2⟩ := h
      simp only [Res.pure_eq, Res.ok.injEq, Prod.mk.injEq] at h2
      obtain ⟨rfl, rfl⟩ := h2
      obtain ⟨a1, a2, a3, a4, a5, a6, a7, a8, a9⟩ := ih cur c1 n1 h1 hc hle' hpw.2
      refine ⟨a1, a2, a3, a4, ?_, ?_, ?_, ?_, ?_⟩
      · intro ver v
        have := a5 ver v
        rw [valid_cons] at this ⊢
        rw [valid_cons cur, valid_cons n, valid_cons n]
        rw [valid_cons cur] at this
        have hn : ¬ (n.since ≤ ver ∧ ver < n.depr ∧ n.min ≤ v ∧ v ≤ n.max) := by omega
        simp only [hn, false_or]
        exact this
      · intro n' hn'
        rcases List.mem_cons.1 hn' with rfl | hn'
        · exact ⟨n', by simp, Or.inl rfl⟩
        · obtain ⟨m, hm, he⟩ := a6 n' hn'; exact ⟨m, by simp [hm], he⟩
      · rw [List.pairwise_cons]
        exact ⟨fun b _ hh => absurd hn0 hh, a7⟩
      · intro m hm hd hw
        rcases List.mem_cons.1 hm with rfl | hm
        · exact absurd hn0 hd
        · exact a8 m hm hd hw
      · obtain ⟨m, hm, e⟩ := a9
        rcases List.mem_cons.1 hm with rfl | hm
        · exact ⟨m, by simp, e⟩
        · exact ⟨m, by simp [hm], e⟩
    · rename_i hn0
      have hcn := hle n (by simp) hc hn0
      have stop : (∀ n' ∈ n :: ns, n'.depr ≠ 0 → SameWindow cur n' → cur.max + 1 < n'.min)→ True →
          ∀ (cc : RangeInfo) (ll : List RangeInfo), cc = cur → ll = n :: ns →
          cc.min = cur.min ∧ cc.since = cur.since ∧ cc.depr = cur.depr ∧ cur.max ≤ cc.max ∧
          (∀ ver v, Valid (cc :: ll) ver v ↔ Valid (cur :: n :: ns) ver v) ∧
          (∀ n' ∈ ll, ∃ m ∈ n :: ns, n' = m ∨ n' = { m with depr := 0 }) ∧
          ll.Pairwise LexLe ∧
          (∀ m ∈ ll, m.depr ≠ 0 → SameWindow cur m → cc.max + 1 < m.min) ∧
          (∃ m ∈ cur :: n :: ns, cc.max = m.max) := by
        intro hs _ cc ll e1 e2
        subst e1; subst e2
        refine ⟨rfl, rfl, rfl, Int.le_refl _, fun _ _ => Iff.rfl, fun m hm => ⟨m, hm, Or.inl rfl⟩,
          List.pairwise_cons.2 hpw, hs, ⟨cc, by simp, rfl⟩⟩
      split at h
      · rename_i hw
        simp only [Res.ok.injEq, Prod.mk.injEq] at h
        refine stop ?_ trivial cur' l' h.1.symm h.2.symm
        intro m hm hmd hsw
        rcases List.mem_cons.1 hm with rfl | hm
        · unfold SameWindow at hsw; omega
        · have := hpw.1 m hm hn0 hmd
          unfold SameWindow at hsw
          omega
      · rename_i hw
        split at h
        · simp at h
        · split at h
          · rename_i hgap
            simp only [Res.ok.injEq, Prod.mk.injEq] at h
            refine stop ?_ trivial cur' l' h.1.symm h.2.symm
            intro m hm hmd hsw
            rcases List.mem_cons.1 hm with rfl | hm
            · exact hgap
            · have := hpw.1 m hm hn0 hmd
              unfold SameWindow at hsw
              omega
          · rename_i hgap
            rw [Res.bind_eq_ok] at h
            obtain ⟨⟨c1, n1⟩, h1, h2⟩ := h
            simp only [Res.pure_eq, Res.ok.injEq, Prod.mk.injEq] at h2
            obtain ⟨rfl, rfl⟩ := h2
            have hle2 : ∀ m ∈ ns, LexLe { cur with max := Max.max cur.max n.max } m := fun m hm => hle' m hm
            obtain ⟨a1, a2, a3, a4, a5, a6, a7, a8, a9⟩ := ih { cur with max := Max.max cur.max n.max } c1 n1 h1 hc hle2 hpw.2
            simp only at a1 a2 a3 a4
            have hmin : cur.min ≤ n.min := by omega
            refine ⟨a1, a2, a3, by omega, ?_, ?_, ?_, ?_, ?_⟩
            · intro ver v
              have := a5 ver v
              rw [valid_cons, valid_cons] at this
              rw [valid_cons, valid_cons, valid_cons, valid_cons]
              simp only at this ⊢
              have hn : ¬ (n.since ≤ ver ∧ ver < 0 ∧ n.min ≤ v ∧ v ≤ n.max) := by omega
              simp only [hn, false_or]
              rw [this]
              constructor
              · rintro (hh | hh)
                · by_cases hv : v ≤ cur.max
                  · left; omega
                  · right; left; omega
                · right; right; exact hh
              · rintro (hh | hh | hh)
                · left; omega
                · left; omega
                · right; exact hh
            · intro n' hn'
              rcases List.mem_cons.1 hn' with rfl | hn'
              · exact ⟨n, by simp, Or.inr rfl⟩
              · obtain ⟨m, hm, he⟩ := a6 n' hn'; exact ⟨m, by simp [hm], he⟩
            · rw [List.pairwise_cons]
              exact ⟨fun b _ hh => absurd rfl hh, a7⟩
            · intro m hm hd hsw
              rcases List.mem_cons.1 hm with rfl | hm
              · exact absurd rfl hd
              · exact a8 m hm hd hsw
            · obtain ⟨m, hm, e⟩ := a9
              rcases List.mem_cons.1 hm with rfl | hm
              · simp only at e
                rcases Int.le_total cur.max n.max with hl | hl
                · exact ⟨n, by simp, by omega⟩
                · exact ⟨cur, by simp, by omega⟩
              · exact ⟨m, by simp [hm], e⟩

/-- Later live ranges of the same window start behind a gap. -/
private def Apart (a b : RangeInfo) : Prop := a.depr ≠ 0 → b.depr ≠ 0 → SameWindow a b → a.max + 1 < b.min

private theorem outer_spec : ∀ (fuel : Nat) (l l' : List RangeInfo), l.length ≤ fuel →
    mergeOuter fuel l = .ok l' → l.Pairwise LexLe →
    (∀ ver v, Valid l' ver v ↔ Valid l ver v) ∧ l'.Pairwise Apart ∧
    (∀ r' ∈ l', ∃ r ∈ l, r'.min = r.min ∧ r'.since = r.since ∧ (r'.depr = r.depr ∨ r'.depr = 0)) ∧
    (∀ r' ∈ l', ∃ r ∈ l, r'.max = r.max) := by
  intro fuel
  induction fuel with
  | zero =>
    intro l l' hlen h _
    have : l = [] := by cases l with
      | nil => rfl
      | cons => simp at hlen
    subst this
    simp only [mergeOuter, Res.ok.injEq] at h
    subst h; simp [Valid]
  | succ fuel ih =>
    intro l l' hlen h hpw
    cases l with
    | nil =>
      simp only [mergeOuter, Res.ok.injEq] at h
      subst h; simp [Valid]
    | cons r rs =>
      rw [List.pairwise_cons] at hpw
      simp only [List.length_cons] at hlen
      unfold mergeOuter at h
      split at h
      · rename_i h0
        rw [Res.bind_eq_ok] at h
        obtain ⟨rs', h1, h2⟩ := h
        simp only [Res.pure_eq, Res.ok.injEq] at h2
        subst h2
        obtain ⟨b1, b2, b3, b4⟩ := ih rs rs' (by omega) h1 hpw.2
        refine ⟨?_, ?_, ?_, ?_⟩
        · intro ver v; rw [valid_cons, valid_cons, b1]
        · rw [List.pairwise_cons]; exact ⟨fun _ _ hh => absurd h0 hh, b2⟩
        · intro x hx
          rcases List.mem_cons.1 hx with rfl | hx
          · exact ⟨x, by simp, rfl, rfl, Or.inl rfl⟩
          · obtain ⟨y, hy, hh⟩ := b3 x hx; exact ⟨y, by simp [hy], hh⟩
        · intro x hx
          rcases List.mem_cons.1 hx with rfl | hx
          · exact ⟨x, by simp, rfl⟩
          · obtain ⟨y, hy, hh⟩ := b4 x hx; exact ⟨y, by simp [hy], hh⟩
      · rename_i h0
        rw [Res.bind_eq_ok] at h
        obtain ⟨⟨r1, rs1⟩, h1, h⟩ := h
        simp only at h
        rw [Res.bind_eq_ok] at h
        obtain ⟨rs2, h2, h3⟩ := h
        simp only [Res.pure_eq, Res.ok.injEq] at h3
        subst h3
        obtain ⟨a1, a2, a3, a4, a5, a6, a7, a8, a9⟩ := inner_spec rs r r1 rs1 h1 h0 hpw.1 hpw.2
        have hlen1 : rs1.length ≤ fuel := by
          have : ∀ (l : List RangeInfo) (c c' : RangeInfo) (l' : List RangeInfo), mergeInner c l = .ok (c', l') → l'.length = l.length := by
            intro l
            induction l with
            | nil => intro c c' l' h; simp [mergeInner] at h; simp [h.2]
            | cons n ns ihn =>
              intro c c' l' h
              unfold mergeInner at h
              split at h
              · rw [Res.bind_eq_ok] at h
                obtain ⟨⟨c1, n1⟩, h1, h2⟩ := h
                simp at h2
                obtain ⟨_, rfl⟩ := h2
                simp [ihn _ _ _ h1]
              · split at h
                · simp at h; rw [← h.2]
                · split at h
                  · simp at h
                  · split at h
                    · simp at h; rw [← h.2]
                    · rw [Res.bind_eq_ok] at h
                      obtain ⟨⟨c1, n1⟩, h1, h2⟩ := h
                      simp at h2
                      obtain ⟨_, rfl⟩ := h2
                      simp [ihn _ _ _ h1]
          rw [this _ _ _ _ h1]; omega
        obtain ⟨b1, b2, b3, b4⟩ := ih rs1 rs2 hlen1 h2 a7
        refine ⟨?_, ?_, ?_, ?_⟩
        · intro ver v
          rw [valid_cons, b1, ← valid_cons, a5]
        · rw [List.pairwise_cons]
          refine ⟨?_, b2⟩
          intro x hx _ hxd hsw
          obtain ⟨y, hy, e1, e2, e3⟩ := b3 x hx
          rw [e1]
          unfold SameWindow at hsw
          apply a8 y hy
          · rcases e3 with e3 | e3
            · rw [← e3]; exact hxd
            · exact absurd e3 hxd
          · unfold SameWindow
            rcases e3 with e3 | e3
            · omega
            · exact absurd e3 hxd
        · intro x hx
          rcases List.mem_cons.1 hx with rfl | hx
          · exact ⟨r, by simp, a1, a2, Or.inl a3⟩
          · obtain ⟨y, hy, e1, e2, e3⟩ := b3 x hx
            obtain ⟨z, hz, hyz⟩ := a6 y hy
            refine ⟨z, by simp [hz], ?_⟩
            rcases hyz with rfl | rfl
            · exact ⟨e1, e2, e3⟩
            · simp only at e1 e2 e3; exact ⟨e1, e2, Or.inr (by omega)⟩
        · intro x hx
          rcases List.mem_cons.1 hx with rfl | hx
          · obtain ⟨m, hm, e⟩ := a9; exact ⟨m, hm, e⟩
          · obtain ⟨y, hy, e⟩ := b4 x hx
            obtain ⟨z, hz, hyz⟩ := a6 y hy
            refine ⟨z, by simp [hz], ?_⟩
            rcases hyz with rfl | rfl <;> exact e

private theorem castU64_lt {a b : Int} (ha : 0 ≤ a ∧ a ≤ i64Max) (hb : 0 ≤ b ∧ b ≤ i64Max) :
    castU64 a < castU64 b ↔ a < b := by
  have : i64Max = 9223372036854775807 := rfl
  unfold castU64; omega

private theorem first_sort (t : IntType) (l : List RangeInfo) (h1 : ∀ r ∈ l, RangeOk r) (h2 : ∀ r ∈ l, BelowSign t r) :
    (sortBy (ltByVersion (isBigUnsigned t)) l).Pairwise LexLe := by
  have main : (sortBy (ltByVersion (isBigUnsigned t)) l).Pairwise
      (fun a b => a.since < b.since ∨ (a.since = b.since ∧ (a.depr < b.depr ∨ (a.depr = b.depr ∧ a.min ≤ b.min)))) := by
    refine sortBy_pairwise _ (fun r => RangeOk r ∧ BelowSign t r) _ ?_ ?_ ?_ l (fun a ha => ⟨h1 a ha, h2 a ha⟩)
    · intro a b c _ _ _ h h'; omega
    · intro a b ⟨ha, ha'⟩ ⟨hb, hb'⟩ h
      unfold ltByVersion at h
      split at h
      · left; simpa using h
      split at h
      · right; refine ⟨by omega, Or.inl (by simpa using h)⟩
      split at h
      · rename_i hbig
        have hA := ha' hbig
        have hB := hb' hbig
        unfold RangeOk at ha hb
        split at h
        · have := (castU64_lt ⟨hA.1, ha.2.2.1⟩ ⟨hB.1, hb.2.2.1⟩).1 (by simpa using h)
          omega
        · omega
      split at h
      · have : a.min < b.min := by simpa using h
        omega
      · omega
    · intro a b ⟨ha, ha'⟩ ⟨hb, hb'⟩ h
      unfold ltByVersion at h
      split at h
      · have : ¬ a.since < b.since := by simpa using h
        omega
      split at h
      · have : ¬ a.depr < b.depr := by simpa using h
        omega
      split at h
      · rename_i hbig
        have hA := ha' hbig
        have hB := hb' hbig
        unfold RangeOk at ha hb
        split at h
        · have := mt (castU64_lt ⟨hA.1, ha.2.2.1⟩ ⟨hB.1, hb.2.2.1⟩).2 (by simpa using h)
          omega
        · omega
      split at h
      · have : ¬ a.min < b.min := by simpa using h
        omega
      · omega
  refine main.imp ?_
  intro a b h _ _; exact h

private theorem normalise_ok {t : IntType} {l l' : List RangeInfo} (h : normaliseRanges t l = .ok l') :
    ∃ m, mergeOuter (sortBy (ltByVersion (isBigUnsigned t)) l).length (sortBy (ltByVersion (isBigUnsigned t)) l) = .ok m ∧
      l' = sortBy (ltByValue (isBigUnsigned t)) (m.filter fun r => r.depr ≠ 0) := by
  unfold normaliseRanges at h
  simp only at h
  rw [Res.bind_eq_ok] at h
  obtain ⟨m, h1, h2⟩ := h
  simp only [Res.pure_eq, Res.ok.injEq] at h2
  exact ⟨m, h1, h2.symm⟩

private theorem interp_below {t : IntType} {x : Int} (h : isBigUnsigned t = true → 0 ≤ x) (hx : x ≤ i64Max) :
    interp t x = x := by
  have e : i64Max = 9223372036854775807 := rfl
  unfold interp
  split
  · rename_i ht
    have : 0 ≤ x := h (by rcases ht with rfl | rfl <;> rfl)
    omega
  · rfl

private theorem valid_interp {t : IntType} {l : List RangeInfo} (h : ∀ r ∈ l, interp t r.min = r.min ∧ interp t r.max = r.max)
    (ver : Nat) (v : Int) : ValidAt t l ver v ↔ Valid l ver v := by
  unfold ValidAt Valid
  constructor
  · rintro ⟨r, hr, h1⟩; rw [(h r hr).1, (h r hr).2] at h1; exact ⟨r, hr, h1⟩
  · rintro ⟨r, hr, h1⟩; refine ⟨r, hr, ?_⟩; rw [(h r hr).1, (h r hr).2]; exact h1

private theorem result_ok {t : IntType} {l l' : List RangeInfo} (h1 : ∀ r ∈ l, RangeOk r) (h2 : ∀ r ∈ l, BelowSign t r)
    (h : normaliseRanges t l = .ok l') : ∀ r ∈ l', RangeOk r ∧ BelowSign t r := by
  obtain ⟨m, hm, rfl⟩ := normalise_ok h
  obtain ⟨b1, b2, b3, b4⟩ := outer_spec _ _ m (Nat.le_refl _) hm (first_sort t l h1 h2)
  intro r hr
  rw [mem_sortBy, List.mem_filter] at hr
  obtain ⟨x, hx, e1, e2, e3⟩ := b3 r hr.1
  obtain ⟨y, hy, e4⟩ := b4 r hr.1
  rw [mem_sortBy] at hx hy
  have hx' := h1 x hx
  have hy' := h1 y hy
  have hx2 := h2 x hx
  have hy2 := h2 y hy
  have hr0 : r.depr ≠ 0 := by simpa using hr.2
  unfold RangeOk at *
  refine ⟨by omega, fun hb => ?_⟩
  have := hx2 hb
  have := hy2 hb
  omega

/-- Whenever normalisation completes (i.e. without the undefined overflow), the set of valid values of every protocol version is unchanged –
    for all types whose stored values are not above the sign bit: all signed and narrow types, and 64 bit unsigned types with bounds below
    2^63. Missing for the full claim: larger bounds of `uint64`/`uintvar` (`C11_unsigned_ranges_lost_witness`). -/
theorem C11_valid_set_kept_partial (t : IntType) (l l' : List RangeInfo) (h1 : ∀ r ∈ l, RangeOk r)
    (h2 : ∀ r ∈ l, BelowSign t r) (h : normaliseRanges t l = .ok l') (ver : Nat) (v : Int) :
    ValidAt t l' ver v ↔ ValidAt t l ver v := by
  have hres := result_ok h1 h2 h
  rw [valid_interp (fun r hr => ⟨interp_below (fun hb => ((h2 r hr) hb).1) (h1 r hr).2.2.1,
      interp_below (fun hb => ((h2 r hr) hb).2) (h1 r hr).2.2.2.2⟩),
    valid_interp (fun r hr => ⟨interp_below (fun hb => ((hres r hr).2 hb).1) (hres r hr).1.2.2.1,
      interp_below (fun hb => ((hres r hr).2 hb).2) (hres r hr).1.2.2.2.2⟩)]
  obtain ⟨m, hm, rfl⟩ := normalise_ok h
  obtain ⟨b1, _, _, _⟩ := outer_spec _ _ m (Nat.le_refl _) hm (first_sort t l h1 h2)
  rw [valid_perm (sortBy_perm _ _), ← valid_perm (sortBy_perm (ltByVersion (isBigUnsigned t)) l), ← b1]
  unfold Valid
  constructor
  · rintro ⟨r, hr, hh⟩; exact ⟨r, (List.mem_filter.1 hr).1, hh⟩
  · rintro ⟨r, hr, hh⟩
    refine ⟨r, List.mem_filter.2 ⟨hr, ?_⟩, hh⟩
    simp only [ne_eq, decide_not, Bool.not_eq_eq_eq_not, Bool.not_true, decide_eq_false_iff_not]
    omega

/-- Normalisation completes if no upper bound is the largest `intmax_t`. -/
theorem C11_no_undefined_partial (t : IntType) (l : List RangeInfo) (h : ∀ r ∈ l, r.max < i64Max) :
    ∃ l', normaliseRanges t l = .ok l' := by
  have inner : ∀ (l : List RangeInfo) (cur : RangeInfo), cur.max < i64Max → (∀ r ∈ l, r.max < i64Max) →
      ∃ c' l', mergeInner cur l = .ok (c', l') ∧ c'.max < i64Max ∧ (∀ r ∈ l', r.max < i64Max) := by
    intro l
    induction l with
    | nil => intro cur hc _; exact ⟨cur, [], rfl, hc, by simp⟩
    | cons n ns ih =>
      intro cur hc hl
      have hn := hl n (by simp)
      have hns : ∀ r ∈ ns, r.max < i64Max := fun r hr => hl r (by simp [hr])
      unfold mergeInner
      split
      · obtain ⟨c', l', e, a, b⟩ := ih cur hc hns
        refine ⟨c', n :: l', by simp [e], a, ?_⟩
        intro r hr; rcases List.mem_cons.1 hr with rfl | hr
        · exact hn
        · exact b r hr
      · split
        · exact ⟨_, _, rfl, hc, hl⟩
        · rw [if_neg (by omega)]
          split
          · exact ⟨_, _, rfl, hc, hl⟩
          · obtain ⟨c', l', e, a, b⟩ := ih { cur with max := Max.max cur.max n.max } (by simp only; omega) hns
            refine ⟨c', { n with depr := 0 } :: l', by simp [e], a, ?_⟩
            intro r hr; rcases List.mem_cons.1 hr with rfl | hr
            · exact hn
            · exact b r hr
  have outer : ∀ (fuel : Nat) (l : List RangeInfo), (∀ r ∈ l, r.max < i64Max) → ∃ l', mergeOuter fuel l = .ok l' := by
    intro fuel
    induction fuel with
    | zero => intro l _; exact ⟨l, rfl⟩
    | succ fuel ih =>
      intro l hl
      cases l with
      | nil => exact ⟨[], rfl⟩
      | cons r rs =>
        have hrs : ∀ x ∈ rs, x.max < i64Max := fun x hx => hl x (by simp [hx])
        unfold mergeOuter
        split
        · obtain ⟨l', e⟩ := ih rs hrs; exact ⟨r :: l', by simp [e]⟩
        · obtain ⟨c', l', e, _, b⟩ := inner rs r (hl r (by simp)) hrs
          obtain ⟨l'', e'⟩ := ih l' b
          exact ⟨c' :: l'', by simp [e, e']⟩
  obtain ⟨m, hm⟩ := outer (sortBy (ltByVersion (isBigUnsigned t)) l).length (sortBy (ltByVersion (isBigUnsigned t)) l)
    (fun r hr => h r ((mem_sortBy _ _ _).1 hr))
  refine ⟨sortBy (ltByValue (isBigUnsigned t)) (m.filter fun r => r.depr ≠ 0), ?_⟩
  unfold normaliseRanges
  simp only [hm, Res.bind_ok, Res.pure_eq]

/-- Refutation of the full claim: a `uint64` field with valid ranges [0, 5] and [2^63, 2^64-1] keeps only [0, 5]. -/
theorem C11_unsigned_ranges_lost_witness :
    let l : List RangeInfo := [⟨0, 5, 0, 4294967295⟩, ⟨i64Min, -1, 0, 4294967295⟩]
    (∀ r ∈ l, RangeOk r) ∧ ValidAt .uint64 l 0 (2 ^ 63 + 7) ∧
    ∃ l', normaliseRanges .uint64 l = .ok l' ∧ ¬ ValidAt .uint64 l' 0 (2 ^ 63 + 7) := by
  refine ⟨by decide +kernel, ?_, [⟨0, 5, 0, 4294967295⟩], by decide +kernel, ?_⟩
  · exact ⟨⟨i64Min, -1, 0, 4294967295⟩, by simp, by decide +kernel⟩
  · rintro ⟨r, hr, h⟩
    simp only [List.mem_singleton] at hr
    subst hr
    revert h; decide +kernel

/-- Refutation of "no undefined behaviour": an `int64` field with `validMin` 5 and another valid value. -/
theorem C11_overflow_witness :
    normaliseRanges .int64 [⟨5, i64Max, 0, 4294967295⟩, ⟨9, 9, 0, 4294967295⟩] = .ub := by decide +kernel

/-- After normalisation the ranges are sorted by lower bound, and two ranges of the same version window neither overlap nor touch.
    Same restriction as `C11_valid_set_kept_partial`. -/
theorem C12_sorted_minimal_partial (t : IntType) (l l' : List RangeInfo) (h1 : ∀ r ∈ l, RangeOk r)
    (h2 : ∀ r ∈ l, BelowSign t r) (h : normaliseRanges t l = .ok l') :
    l'.Pairwise (fun a b => interp t a.min ≤ interp t b.min) ∧
    l'.Pairwise (fun a b => SameWindow a b → interp t a.max + 1 < interp t b.min ∨ interp t b.max + 1 < interp t a.min) := by
  have hres := result_ok h1 h2 h
  have hi : ∀ r ∈ l', interp t r.min = r.min ∧ interp t r.max = r.max := fun r hr =>
    ⟨interp_below (fun hb => ((hres r hr).2 hb).1) (hres r hr).1.2.2.1,
      interp_below (fun hb => ((hres r hr).2 hb).2) (hres r hr).1.2.2.2.2⟩
  have main : l'.Pairwise (fun a b => a.min ≤ b.min) ∧
      l'.Pairwise (fun a b => SameWindow a b → a.max + 1 < b.min ∨ b.max + 1 < a.min) := by
    obtain ⟨m, hm, rfl⟩ := normalise_ok h
    obtain ⟨b1, b2, b3, b4⟩ := outer_spec _ _ m (Nat.le_refl _) hm (first_sort t l h1 h2)
    constructor
    · refine sortBy_pairwise _ (fun r => RangeOk r ∧ BelowSign t r) _ ?_ ?_ ?_ _ (fun a ha => hres a ((mem_sortBy _ _ _).2 ha))
      · intro a b c _ _ _ h h'; omega
      · intro a b ⟨ha, ha'⟩ ⟨hb, hb'⟩ h
        unfold ltByValue at h
        split at h
        · split at h
          · rename_i hbig
            have := (castU64_lt ⟨(ha' hbig).1, ha.2.2.1⟩ ⟨(hb' hbig).1, hb.2.2.1⟩).1 (by simpa using h)
            omega
          · have : a.min < b.min := by simpa using h
            omega
        · omega
      · intro a b ⟨ha, ha'⟩ ⟨hb, hb'⟩ h
        unfold ltByValue at h
        split at h
        · split at h
          · rename_i hbig
            have := mt (castU64_lt ⟨(ha' hbig).1, ha.2.2.1⟩ ⟨(hb' hbig).1, hb.2.2.1⟩).2 (by simpa using h)
            omega
          · have : ¬ a.min < b.min := by simpa using h
            omega
        · omega
    · have : (m.filter fun r => r.depr ≠ 0).Pairwise (fun a b => SameWindow a b → a.max + 1 < b.min ∨ b.max + 1 < a.min) := by
        have h3 := b2.filter (fun r => r.depr ≠ 0)
        refine (List.pairwise_iff_forall_sublist.2 ?_)
        intro a b hs hsw
        have := List.pairwise_iff_forall_sublist.1 h3 hs
        have hma : a ∈ m.filter fun r => r.depr ≠ 0 := hs.subset (by simp)
        have hmb : b ∈ m.filter fun r => r.depr ≠ 0 := hs.subset (by simp)
        left
        exact this (by simpa using (List.mem_filter.1 hma).2) (by simpa using (List.mem_filter.1 hmb).2) hsw
      refine (sortBy_perm _ _).symm.pairwise this ?_
      intro a b hab hsw
      have := hab ⟨hsw.1.symm, hsw.2.symm⟩
      omega
  refine ⟨main.1.imp_of_mem ?_, main.2.imp_of_mem ?_⟩
  · intro a b ha hb h; rw [(hi a ha).1, (hi b hb).1]; exact h
  · intro a b ha hb h hsw
    rw [(hi a ha).1, (hi b hb).1, (hi a ha).2, (hi b hb).2]; exact h hsw

example : normaliseRanges .int8 [⟨4, 7, 0, 9⟩, ⟨-3, -1, 2, 9⟩, ⟨0, 3, 0, 9⟩, ⟨9, 9, 0, 9⟩] =
    .ok [⟨-3, -1, 2, 9⟩, ⟨0, 7, 0, 9⟩, ⟨9, 9, 0, 9⟩] := by decide +kernel

end Commsdsl.Props
