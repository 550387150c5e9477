import Verif.Spec.GenRun
/-!
# The run of a generator: C127
-/
namespace Commsdsl.Run
namespace Proofs

theorem log_min (s : St) (l : Level) : (log s l).min = s.min := by unfold log; split <;> rfl
theorem log_warn (s : St) (l : Level) : (log s l).warnAsErr = s.warnAsErr := by unfold log; split <;> rfl
theorem log_done (s : St) (l : Level) : (log s l).done = s.done := by unfold log; split <;> rfl

theorem log_had {s : St} (h : s.min.num ≤ 2) (l : Level) : (log s l).had = true ↔ s.had = true ∨ s.warnAsErr = true ∧ l = .warning := by
  unfold log
  split
  · rename_i hl
    have : l ≠ .warning := by
      rintro rfl
      have : 2 < s.min.num := hl
      omega
    simp [this]
  · simp

theorem logAll_same (ls : List Level) : ∀ s, (logAll s ls).min = s.min ∧ (logAll s ls).warnAsErr = s.warnAsErr ∧ (logAll s ls).done = s.done := by
  induction ls with
  | nil => intro s; exact ⟨rfl, rfl, rfl⟩
  | cons l ls ih =>
    intro s
    obtain ⟨h1, h2, h3⟩ := ih (log s l)
    exact ⟨h1.trans (log_min s l), h2.trans (log_warn s l), h3.trans (log_done s l)⟩

theorem logAll_had (ls : List Level) : ∀ {s : St}, s.min.num ≤ 2 → ((logAll s ls).had = true ↔ s.had = true ∨ s.warnAsErr = true ∧ Level.warning ∈ ls) := by
  induction ls with
  | nil => intro s _; simp [logAll]
  | cons l ls ih =>
    intro s h
    have := ih (s := log s l) (by rw [log_min]; exact h)
    show (logAll (log s l) ls).had = true ↔ _
    rw [this, log_had h, log_warn, List.mem_cons]
    constructor
    · rintro ((h | ⟨h, rfl⟩) | ⟨h, h'⟩)
      · exact .inl h
      · exact .inr ⟨h, .inl rfl⟩
      · exact .inr ⟨h, .inr h'⟩
    · rintro (h | ⟨h, rfl | h'⟩)
      · exact .inl (.inl h)
      · exact .inl (.inr ⟨h, rfl⟩)
      · exact .inr ⟨h, h'⟩

/-- What a part of the run does: it succeeds if `G` holds of the warnings before and of the option, `W` says that it warns, and its steps are `pl`. -/
structure Does (f : St → St × Bool) (G : Prop → Prop → Prop) (W : Prop) (pl : List (Phase × Step)) : Prop where
  min : ∀ s, (f s).1.min = s.min
  warn : ∀ s, (f s).1.warnAsErr = s.warnAsErr
  good : ∀ s, s.min.num ≤ 2 → ((f s).2 = true ↔ G (s.had = true) (s.warnAsErr = true))
  had : ∀ s, s.min.num ≤ 2 → (f s).2 = true → ((f s).1.had = true ↔ s.had = true ∨ s.warnAsErr = true ∧ W)
  done : ∀ s, ∃ k, k <+: pl ∧ (f s).1.done = s.done ++ k.map Prod.fst ∧ (∀ e ∈ k.dropLast, e.2.good = true) ∧
    ((f s).2 = true → k = pl ∧ ∀ e ∈ k, e.2.good = true)

theorem does_step (p : Phase) (x : Step) : Does (doStep p x) (fun _ _ => x.good = true) (Level.warning ∈ x.reports) [(p, x)] := by
  refine ⟨fun s => (logAll_same _ _).1, fun s => (logAll_same _ _).2.1, fun s h => Iff.rfl, fun s h _ => logAll_had _ h, fun s => ?_⟩
  refine ⟨[(p, x)], List.prefix_refl _, (logAll_same _ _).2.2, by simp, fun h => ⟨rfl, ?_⟩⟩
  intro e he
  rw [List.mem_singleton] at he
  rw [he]
  exact h

theorem does_reports {p : Phase} {x y : Step} (h : x.good = y.good) (hw : Level.warning ∈ x.reports ↔ Level.warning ∈ y.reports) :
    Does (doStep p x) (fun _ _ => y.good = true) (Level.warning ∈ y.reports) [(p, y)] := by
  refine ⟨fun s => (logAll_same _ _).1, fun s => (logAll_same _ _).2.1, fun s _ => ?_, fun s hm _ => ?_, fun s => ?_⟩
  · show x.good = true ↔ _
    rw [h]
  · rw [← hw]
    exact logAll_had _ hm
  refine ⟨[(p, y)], List.prefix_refl _, (logAll_same _ _).2.2, by simp, fun hg => ⟨rfl, ?_⟩⟩
  intro e he
  rw [List.mem_singleton] at he
  rw [he]
  exact h ▸ hg

theorem does_then {a b : St → St × Bool} {Ga Gb : Prop → Prop → Prop} {Wa Wb : Prop} {pa pb : List (Phase × Step)} (ha : Does a Ga Wa pa) (hb : Does b Gb Wb pb) :
    Does (andThen a b) (fun h w => Ga h w ∧ Gb (h ∨ w ∧ Wa) w) (Wa ∨ Wb) (pa ++ pb) := by
  have key : ∀ s, andThen a b s = if (a s).2 = true then b (a s).1 else ((a s).1, false) := by
    intro s
    unfold andThen
    split
    · rename_i h; rw [h]; rfl
    · rename_i h; rw [h]; rfl
  constructor
  · intro s
    rw [key]
    split
    · rw [hb.min, ha.min]
    · exact ha.min s
  · intro s
    rw [key]
    split
    · rw [hb.warn, ha.warn]
    · exact ha.warn s
  · intro s h
    rw [key]
    split
    · rename_i hg
      have h1 := (ha.good s h).1 hg
      rw [hb.good _ (by rw [ha.min]; exact h), ha.warn]
      have h2 := propext (ha.had s h hg)
      rw [h2]
      exact ⟨fun h => ⟨h1, h⟩, fun h => h.2⟩
    · rename_i hg
      rw [ha.good s h] at hg
      simp [hg]
  · intro s h
    rw [key]
    split
    · rename_i hg
      intro hbg
      rw [hb.had _ (by rw [ha.min]; exact h) hbg, ha.had s h hg, ha.warn]
      constructor
      · rintro ((h | ⟨h, h'⟩) | ⟨h, h'⟩)
        · exact .inl h
        · exact .inr ⟨h, .inl h'⟩
        · exact .inr ⟨h, .inr h'⟩
      · rintro (h | ⟨h, h' | h'⟩)
        · exact .inl (.inl h)
        · exact .inl (.inr ⟨h, h'⟩)
        · exact .inr ⟨h, h'⟩
    · intro hc; cases hc
  · intro s
    rw [key]
    obtain ⟨k, h1, h2, h3, h4⟩ := ha.done s
    split
    · rename_i hg
      obtain ⟨rfl, h5⟩ := h4 hg
      obtain ⟨j, j1, j2, j3, j4⟩ := hb.done (a s).1
      refine ⟨k ++ j, (List.prefix_append_right_inj k).2 j1, ?_, ?_, ?_⟩
      · rw [j2, h2, List.map_append, List.append_assoc]
      · intro e he
        by_cases hj : j = []
        · rw [hj, List.append_nil] at he
          exact h3 e he
        · rw [List.dropLast_append_of_ne_nil hj, List.mem_append] at he
          exact he.elim (h5 e) (j3 e)
      · intro hg
        obtain ⟨rfl, j5⟩ := j4 hg
        exact ⟨rfl, fun e he => (List.mem_append.1 he).elim (h5 e) (j5 e)⟩
    · exact ⟨k, h1.trans (List.prefix_append _ _), h2, h3, fun h => nomatch h⟩

theorem does_check : Does checkWarn (fun h _ => ¬h) False [] := by
  have key : ∀ s, checkWarn s = if s.had then (log s .error, false) else (s, true) := fun _ => rfl
  constructor
  · intro s; rw [key]; split
    · exact log_min _ _
    · rfl
  · intro s; rw [key]; split
    · exact log_warn _ _
    · rfl
  · intro s _; rw [key]; split <;> simp_all
  · intro s _; rw [key]; split <;> simp_all
  · intro s; rw [key]
    refine ⟨[], List.prefix_refl _, ?_, by simp, fun _ => ⟨rfl, by simp⟩⟩
    split
    · simp [log_done]
    · simp

theorem does_some (cs : List Step) : Does (someSchema cs) (fun _ _ => cs ≠ []) False [] := by
  have key : ∀ s, someSchema cs s = if cs.isEmpty then (log s .error, false) else (s, true) := fun _ => rfl
  constructor
  · intro s; rw [key]; split
    · exact log_min _ _
    · rfl
  · intro s; rw [key]; split
    · exact log_warn _ _
    · rfl
  · intro s _; rw [key]; split <;> simp_all
  · intro s _; rw [key]; split <;> simp_all
  · intro s; rw [key]
    refine ⟨[], List.prefix_refl _, ?_, by simp, fun _ => ⟨rfl, by simp⟩⟩
    split
    · simp [log_done]
    · simp

/-- Failing steps may add a message. -/
theorem does_fail {f g : St → St × Bool} {G : Prop → Prop → Prop} {W : Prop} {pl : List (Phase × Step)} (h : Does f G W pl)
    (hg : ∀ s, g s = f s ∨ (f s).2 = false ∧ g s = (log (f s).1 .error, false)) : Does g G W pl := by
  constructor
  · intro s
    rcases hg s with h1 | ⟨_, h1⟩ <;> rw [h1]
    · exact h.min s
    · exact (log_min _ _).trans (h.min s)
  · intro s
    rcases hg s with h1 | ⟨_, h1⟩ <;> rw [h1]
    · exact h.warn s
    · exact (log_warn _ _).trans (h.warn s)
  · intro s hm
    rcases hg s with h1 | ⟨h0, h1⟩ <;> rw [h1, ← h.good s hm]
    rw [h0]
  · intro s hm
    rcases hg s with h1 | ⟨h0, h1⟩ <;> rw [h1]
    · exact h.had s hm
    · intro hc; cases hc
  · intro s
    rcases hg s with h1 | ⟨h0, h1⟩ <;> rw [h1]
    · exact h.done s
    · obtain ⟨k, k1, k2, k3, k4⟩ := h.done s
      exact ⟨k, k1, (log_done _ _).trans k2, k3, fun hc => nomatch hc⟩

theorem does_weaken {f : St → St × Bool} {G G' : Prop → Prop → Prop} {W W' : Prop} {pl pl' : List (Phase × Step)} (h : Does f G W pl)
    (hG : ∀ a b, G a b ↔ G' a b) (hW : W ↔ W') (hp : pl = pl') : Does f G' W' pl' := by
  have : G = G' := by funext a b; exact propext (hG a b)
  have h2 := propext hW
  subst this h2 hp
  exact h

/-- The loop, with the steps `ys` that `xs` stand for. -/
theorem does_steps (p : Nat → Phase) (check say : Bool) : ∀ (xs ys : List Step) (n : Nat), xs.map Step.good = ys.map Step.good →
    xs.map (fun x => decide (Level.warning ∈ x.reports)) = ys.map (fun x => decide (Level.warning ∈ x.reports)) →
    Does (steps p check say n xs) (fun h w => (∀ y ∈ ys, y.good = true) ∧ (check = true → ys ≠ [] → ¬(h ∨ w ∧ ∃ y ∈ ys, Level.warning ∈ y.reports)))
      (∃ y ∈ ys, Level.warning ∈ y.reports) (numbered p n ys) := by
  intro xs
  induction xs with
  | nil =>
    intro ys n h _
    cases ys with
    | cons y ys => cases h
    | nil =>
      refine ⟨fun s => rfl, fun s => rfl, fun s _ => by simp [steps], fun s _ _ => by simp [steps], fun s => ⟨[], List.prefix_refl _, by simp [steps], by simp, fun _ => ⟨rfl, by simp⟩⟩⟩
  | cons x xs ih =>
    intro ys n hg hw
    cases ys with
    | nil => cases hg
    | cons y ys =>
      simp only [List.map_cons, List.cons.injEq] at hg hw
      have h1 := does_reports (p := p n) hg.1 (by simpa using hw.1)
      have h2 : Does (fun s => if check && s.had then (log s .error, false) else (s, true)) (fun h _ => check = true → ¬h) False [] := by
        cases check
        · simp only [Bool.false_and]
          refine ⟨fun s => rfl, fun s => rfl, fun s _ => by simp, fun s _ _ => by simp, fun s => ⟨[], List.prefix_refl _, by simp, by simp, fun _ => ⟨rfl, by simp⟩⟩⟩
        · simp only [Bool.true_and]
          exact does_weaken does_check (fun a b => by simp) Iff.rfl rfl
      have h3 := does_then h1 (does_then h2 (ih ys (n + 1) hg.2 hw.2))
      refine does_fail (does_weaken h3 ?_ ?_ rfl) ?_
      · intro a b
        cases check
        · simp
        · simp only [List.mem_cons, exists_eq_or_imp, forall_eq_or_imp, ne_eq, reduceCtorEq, not_false_eq_true, forall_const]
          by_cases hys : ys = []
          · subst hys; simp
          · grind
      · simp
      · intro s
        rw [steps]
        unfold andThen
        split
        · rename_i s' hs
          rw [hs]
          simp only
          split
          · rename_i hs'; cases say <;> simp_all
          · simp_all
        · rename_i s' hs
          rw [hs]
          simp only
          split
          · simp
          · simp

theorem does_steps' (p : Nat → Phase) (say : Bool) (xs : List Step) : Does (steps p false say 0 xs) (fun _ _ => ∀ y ∈ xs, y.good = true)
    (∃ y ∈ xs, Level.warning ∈ y.reports) (numbered p 0 xs) :=
  does_weaken (does_steps p false say xs xs 0 rfl rfl) (fun a b => by simp) Iff.rfl rfl

theorem does_files (xs : List Step) : Does (parseFiles xs) (fun h w => (∀ y ∈ xs, y.good = true) ∧ (xs ≠ [] → ¬(h ∨ w ∧ ∃ y ∈ xs, Level.warning ∈ y.reports)))
    (∃ y ∈ xs, Level.warning ∈ y.reports) (numbered .parse 0 xs) :=
  does_weaken (does_steps .parse true false _ xs 0 (by simp) (by simp)) (fun a b => by simp) Iff.rfl rfl

theorem does_prepare (x : Parts) : ∃ G W, Does (prepareAll x) G W x.preparing ∧ ∀ h w, x.parse ≠ [] → (G (h ∨ w ∧ Level.warning ∈ x.options.reports) w ↔
    ((∀ s ∈ x.before, s.good = true) ∧ x.create ≠ [] ∧ x.finish.good = true ∧ ¬ h ∧ (w → ∀ s ∈ x.options :: x.before, Level.warning ∉ s.reports))) := by
  have h := does_then (does_files x.parse) (does_then (does_step .validate x.validate) (does_then does_check (does_then (does_some x.create)
    (does_then (does_steps' .create true x.create) (does_then (does_step .request x.request) (does_then (does_step .complete x.complete)
    (does_then (does_step .defaults x.defaults) (does_then (does_steps' .prepare true x.prepare) (does_then does_check (does_step .finish x.finish))))))))))
  refine ⟨_, _, does_weaken h (fun _ _ => Iff.rfl) Iff.rfl (by simp [Parts.preparing]), ?_⟩
  intro h0 w hne
  unfold Parts.before
  clear h
  by_cases hw : w
  · simp only [hw, List.mem_append, List.mem_cons, or_imp, forall_and, not_or, not_exists, not_and, forall_eq, true_and, or_false, hne, ne_eq,
      not_false_eq_true, forall_const]
    grind
  · simp only [hw, List.mem_append, or_imp, forall_and, false_and, or_false, hne, ne_eq, not_false_eq_true, forall_const]
    grind

theorem does_write (o : Options) (x : Parts) : ∃ W, Does (writeAll o x) (fun _ _ => Written o x) W (x.writing o) := by
  have h1 : Does (fun s => if o.outDir then doStep .directory x.directory s else (s, true)) (fun _ _ => o.outDir = true → x.directory.good = true)
      (o.outDir = true ∧ Level.warning ∈ x.directory.reports) (if o.outDir then [(.directory, x.directory)] else []) := by
    cases o.outDir
    · refine ⟨fun s => rfl, fun s => rfl, fun s _ => by simp, fun s _ _ => by simp, fun s => ⟨[], List.prefix_refl _, by simp, by simp, fun _ => ⟨rfl, by simp⟩⟩⟩
    · exact does_weaken (does_step .directory x.directory) (fun a b => by simp) (by simp) rfl
  have h := does_then h1 (does_then (does_steps' .write false x.write) (does_step .writeRest x.writeRest))
  refine ⟨_, does_weaken h (fun _ _ => ?_) Iff.rfl (by simp [Parts.writing])⟩
  rfl

/-- The logger after the options have been processed, if the run goes on. -/
theorem options_go {o : Options} {x : Parts} {s : St} (h : processOptions o x {} = (s, .go)) : Works o x ∧ x.options.good = true ∧ s.min.num ≤ 2 ∧
    s.warnAsErr = o.warnAsErr ∧ s.done = [] ∧ (s.had = true ↔ o.warnAsErr = true ∧ Level.warning ∈ x.options.reports) := by
  unfold processOptions at h
  split at h
  · cases h
  · rename_i h1
    split at h
    · cases h
    · rename_i h2
      simp only [Prod.mk.injEq] at h
      obtain ⟨hs, h3⟩ := h
      have h4 : x.early = false ∧ x.options.good = true := by
        split at h3
        · cases h3
        · split at h3
          · exact ⟨by simp_all, by assumption⟩
          · cases h3
      have hb : ∀ s0 : St, s0.min.num ≤ 2 → s0.warnAsErr = o.warnAsErr → s0.done = [] → s0.had = false → logAll s0 x.options.reports = s →
          s.min.num ≤ 2 ∧ s.warnAsErr = o.warnAsErr ∧ s.done = [] ∧ (s.had = true ↔ o.warnAsErr = true ∧ Level.warning ∈ x.options.reports) := by
        intro s0 a1 a2 a3 a4 a5
        obtain ⟨b1, b2, b3⟩ := logAll_same x.options.reports s0
        rw [← a5, b1, b2, b3, logAll_had _ a1, a2, a4]
        exact ⟨a1, rfl, a3, by simp⟩
      refine ⟨⟨by simp_all, by simp_all, by simpa using h2, h4.1⟩, h4.2, hb _ ?_ ?_ ?_ ?_ hs⟩
      all_goals cases o.quiet <;> cases o.debug <;> cases o.warnAsErr <;> simp [Level.num]

theorem options_other {o : Options} {x : Parts} {s : St} {r : OptsResult} (h : processOptions o x {} = (s, r)) :
    s.done = [] ∧ (match r with
      | .go => True
      | .earlyExit => EndsEarly o x
      | .failure => ¬ EndsEarly o x ∧ ¬(Works o x ∧ x.options.good = true)) := by
  unfold processOptions at h
  split at h
  · rename_i h1
    cases h
    refine ⟨rfl, ?_⟩
    show EndsEarly o x
    unfold EndsEarly
    grind
  · rename_i h1
    split at h
    · rename_i h2
      cases h
      refine ⟨log_done _ _, ?_⟩
      show ¬ EndsEarly o x ∧ ¬(Works o x ∧ x.options.good = true)
      unfold EndsEarly Works
      grind
    · rename_i h2
      simp only [Prod.mk.injEq] at h
      obtain ⟨hs, h3⟩ := h
      refine ⟨?_, ?_⟩
      · rw [← hs, (logAll_same _ _).2.2]
        cases o.quiet <;> cases o.debug <;> cases o.warnAsErr <;> rfl
      · split at h3
        · rename_i h4
          subst h3
          show EndsEarly o x
          unfold EndsEarly
          grind
        · split at h3
          · subst h3; trivial
          · subst h3
            show ¬ EndsEarly o x ∧ ¬(Works o x ∧ x.options.good = true)
            unfold EndsEarly Works
            grind

/-- The runs, by their result -/
theorem run_cases (o : Options) (x : Parts) :
    (EndsEarly o x ∧ (run o x).2 = 0 ∧ (run o x).1.done = []) ∨
    (¬ EndsEarly o x ∧ ¬(Works o x ∧ Prepared o x) ∧ (run o x).2 = -1 ∧ (x.options.good = true → (run o x).1.printed.getLast? = some .error) ∧
      ∃ k, k <+: x.preparing ∧ (run o x).1.done = k.map Prod.fst ∧ ∀ e ∈ k.dropLast, e.2.good = true) ∨
    (Works o x ∧ Prepared o x ∧ ∃ k, k <+: x.preparing ++ x.writing o ∧ (run o x).1.done = k.map Prod.fst ∧ (∀ e ∈ k.dropLast, e.2.good = true) ∧
      ((¬ Written o x ∧ (run o x).2 = -2 ∧ (run o x).1.printed.getLast? = some .error) ∨
       (Written o x ∧ (run o x).2 = 0 ∧ k = x.preparing ++ x.writing o ∧ ∀ e ∈ k, e.2.good = true))) := by
  have herr : ∀ s : St, s.min.num ≤ 2 → (log s .error).printed.getLast? = some .error := by
    intro s h
    unfold log
    rw [if_neg (by show ¬ 3 < s.min.num; omega)]
    simp
  have hexcl : ¬(EndsEarly o x ∧ Works o x) := by
    unfold EndsEarly Works
    grind
  unfold run
  split
  · rename_i s h
    exact .inl ⟨(options_other h).2, rfl, (options_other h).1⟩
  · rename_i s h
    obtain ⟨h1, h2, h3⟩ := options_other h
    refine .inr (.inl ⟨h2, fun h4 => h3 ⟨h4.1, h4.2.options⟩, rfl, ?_, [], List.nil_prefix, h1, by simp⟩)
    intro hg
    unfold processOptions at h
    split at h
    · cases h
    · split at h
      · cases h
        exact herr _ (by decide)
      · simp only [Prod.mk.injEq] at h
        obtain ⟨_, this⟩ := h
        split at this <;> cases this
  · rename_i s h
    obtain ⟨hw, hg, hm, hws, hd, hhad⟩ := options_go h
    have hne : ¬ EndsEarly o x := fun h => hexcl ⟨h, hw⟩
    split
    · rename_i he
      refine .inr (.inl ⟨hne, fun h4 => h4.2.files (by simpa using he), rfl, fun _ => herr _ hm, [], List.nil_prefix, by simp [log_done, hd], by simp⟩)
    · rename_i he
      have he : x.parse ≠ [] := by simpa using he
      obtain ⟨G, W, hp, hG⟩ := does_prepare x
      have hgood := hp.good s hm
      have hprep : G (s.had = true) (s.warnAsErr = true) ↔ Prepared o x := by
        have := hG False (o.warnAsErr = true) he
        rw [false_or] at this
        rw [hws, propext hhad, this]
        exact ⟨fun ⟨a, b, c, _, d⟩ => ⟨he, b, hg, a, c, d⟩, fun ⟨_, b, _, a, c, d⟩ => ⟨a, b, c, fun h => h, d⟩⟩
      rw [hprep] at hgood
      obtain ⟨k, k1, k2, k3, k4⟩ := hp.done s
      have hmin := hp.min s
      split
      · rename_i s1 h1
        rw [h1] at hgood k2 hmin
        refine .inr (.inl ⟨hne, fun h4 => (nomatch hgood.2 h4.2), rfl, fun _ => herr _ (by rw [hmin]; exact hm), k, k1, ?_, k3⟩)
        rw [log_done, k2, hd, List.nil_append]
      · rename_i s1 h1
        rw [h1] at hgood k2 hmin k4
        obtain ⟨rfl, k5⟩ := k4 rfl
        obtain ⟨W', hwr⟩ := does_write o x
        obtain ⟨j, j1, j2, j3, j4⟩ := hwr.done s1
        have hgood2 := hwr.good s1 (by rw [hmin]; exact hm)
        have hmin2 := hwr.min s1
        have hlast : ∀ e ∈ (x.preparing ++ j).dropLast, e.2.good = true := by
          intro e he
          by_cases hj : j = []
          · rw [hj, List.append_nil] at he
            exact k3 e he
          · rw [List.dropLast_append_of_ne_nil hj, List.mem_append] at he
            exact he.elim (k5 e) (j3 e)
        have hd2 : ∀ s2 : St, s2.done = s1.done ++ j.map Prod.fst → s2.done = (x.preparing ++ j).map Prod.fst := by
          intro s2 h
          rw [h, k2, hd, List.nil_append, List.map_append]
        refine .inr (.inr ⟨hw, hgood.1 rfl, x.preparing ++ j, (List.prefix_append_right_inj _).2 j1, ?_⟩)
        split
        · rename_i s2 h2
          rw [h2] at hgood2 j2 hmin2
          refine ⟨hd2 _ (by rw [log_done]; exact j2), hlast, .inl ⟨fun h => (nomatch hgood2.2 h), rfl, herr _ (by rw [hmin2, hmin]; exact hm)⟩⟩
        · rename_i s2 h2
          rw [h2] at hgood2 j2 j4
          obtain ⟨rfl, j5⟩ := j4 rfl
          exact ⟨hd2 _ j2, hlast, .inr ⟨hgood2.1 rfl, rfl, rfl, fun e he => (List.mem_append.1 he).elim (k5 e) (j5 e)⟩⟩
end Proofs
open Proofs

/-- C127: a run ends with 0 exactly if it is ended by its options or everything is prepared, without a warning if those are errors, and written. -/
theorem C127_success_partial (o : Options) (x : Parts) : (run o x).2 = 0 ↔ EndsEarly o x ∨ (Works o x ∧ Prepared o x ∧ Written o x) := by
  have hexcl : ¬(EndsEarly o x ∧ Works o x) := by
    unfold EndsEarly Works
    grind
  rcases run_cases o x with ⟨h1, h2, _⟩ | ⟨h1, h2, h3, _⟩ | ⟨h1, h2, k, _, _, _, ⟨h3, h4, _⟩ | ⟨h3, h4, _⟩⟩
  · exact ⟨fun _ => .inl h1, fun _ => h2⟩
  · rw [h3]
    exact ⟨fun h => (nomatch h), fun h => h.elim (fun h => absurd h h1) fun h => absurd ⟨h.1, h.2.1⟩ h2⟩
  · rw [h4]
    exact ⟨fun h => (nomatch h), fun h => h.elim (fun h => absurd ⟨h, h1⟩ hexcl) fun h => absurd h.2.2 h3⟩
  · exact ⟨fun _ => .inr ⟨h1, h2, h3⟩, fun _ => h4⟩

/-- C127: the exit code says whether writing has begun when the run failed. -/
theorem C127_failure (o : Options) (x : Parts) : ((run o x).2 = 0 ∨ (run o x).2 = -1 ∨ (run o x).2 = -2) ∧
    ((run o x).2 = -2 ↔ Works o x ∧ Prepared o x ∧ ¬ Written o x) := by
  have hexcl : ¬(EndsEarly o x ∧ Works o x) := by
    unfold EndsEarly Works
    grind
  rcases run_cases o x with ⟨h1, h2, _⟩ | ⟨h1, h2, h3, _⟩ | ⟨h1, h2, k, _, _, _, ⟨h3, h4, _⟩ | ⟨h3, h4, _⟩⟩
  · rw [h2]
    exact ⟨.inl rfl, fun h => (nomatch h), fun h => absurd ⟨h1, h.1⟩ hexcl⟩
  · rw [h3]
    exact ⟨.inr (.inl rfl), fun h => (nomatch h), fun h => absurd ⟨h.1, h.2.1⟩ h2⟩
  · rw [h4]
    exact ⟨.inr (.inr rfl), fun _ => ⟨h1, h2, h3⟩, fun _ => rfl⟩
  · rw [h4]
    exact ⟨.inl rfl, fun h => (nomatch h), fun h => absurd h3 h.2.2⟩

/-- C127: the steps are done in their order, and nothing is done after one that fails; a run that succeeds without having been ended by its options does all. -/
theorem C127_order (o : Options) (x : Parts) : ∃ k, k <+: x.preparing ++ x.writing o ∧ (run o x).1.done = k.map Prod.fst ∧ (∀ e ∈ k.dropLast, e.2.good = true) ∧
    ((run o x).2 = 0 → EndsEarly o x ∧ k = [] ∨ k = x.preparing ++ x.writing o) := by
  rcases run_cases o x with ⟨h1, h2, h3⟩ | ⟨h1, h2, h3, _, k, h4, h5, h6⟩ | ⟨h1, h2, k, h3, h4, h5, ⟨_, h6, _⟩ | ⟨_, h6, h7, _⟩⟩
  · exact ⟨[], List.nil_prefix, h3, by simp, fun _ => .inl ⟨h1, rfl⟩⟩
  · exact ⟨k, h4.trans (List.prefix_append _ _), h5, h6, fun h => by rw [h3] at h; cases h⟩
  · exact ⟨k, h3, h4, h5, fun h => by rw [h6] at h; cases h⟩
  · exact ⟨k, h3, h4, h5, fun _ => .inr h7⟩

namespace Proofs
theorem numbered_mem {p : Nat → Phase} {e : Phase × Step} : ∀ {xs : List Step} {n : Nat}, e ∈ numbered p n xs → ∃ i, e.1 = p i := by
  intro xs
  induction xs with
  | nil => intro n h; cases h
  | cons y ys ih =>
    intro n h
    rcases List.mem_cons.1 h with rfl | h
    · exact ⟨n, rfl⟩
    · exact ih h
end Proofs

/-- C127: nothing is written, and no directory made, unless everything before has succeeded, without a warning if those are errors. -/
theorem C127_untouched (o : Options) (x : Parts) (p : Phase) (hp : p = .directory ∨ p = .writeRest ∨ ∃ i, p = .write i) (h : p ∈ (run o x).1.done) :
    Works o x ∧ Prepared o x := by
  rcases run_cases o x with ⟨_, _, h3⟩ | ⟨_, _, _, _, k, h4, h5, _⟩ | ⟨h1, h2, _⟩
  · rw [h3] at h; cases h
  · rw [h5] at h
    obtain ⟨e, he, rfl⟩ := List.mem_map.1 h
    have := h4.subset he
    unfold Parts.preparing at this
    simp only [List.mem_append, List.mem_cons, List.not_mem_nil, or_false] at this
    exfalso
    rcases this with ((((h | rfl) | h) | rfl | rfl | rfl) | h) | rfl
    · obtain ⟨i, h⟩ := numbered_mem h; rw [h] at hp; simp at hp
    · simp at hp
    · obtain ⟨i, h⟩ := numbered_mem h; rw [h] at hp; simp at hp
    · simp at hp
    · simp at hp
    · simp at hp
    · obtain ⟨i, h⟩ := numbered_mem h; rw [h] at hp; simp at hp
    · simp at hp
  · exact ⟨h1, h2⟩

/-- C127: a run that fails ends with an error message, unless it fails in the options of the application. -/
theorem C127_told (o : Options) (x : Parts) (h : (run o x).2 ≠ 0) (hg : x.options.good = true) : (run o x).1.printed.getLast? = some .error := by
  rcases run_cases o x with ⟨h1, h2, _⟩ | ⟨_, _, _, h4, _⟩ | ⟨h1, h2, k, _, _, _, ⟨_, _, h4⟩ | ⟨_, h4, _⟩⟩
  · exact absurd h2 h
  · exact h4 hg
  · exact h4
  · exact absurd h4 h

namespace Sample
def fine : Step := ⟨[], true⟩
def warns : Step := ⟨[.warning], true⟩
/-- Two files, one with a warning, two schemas. -/
def parts (written : Step) : Parts :=
  { options := fine, early := false, parse := [fine, warns], validate := fine, create := [fine, fine], request := fine, complete := fine, defaults := fine,
    prepare := [fine, fine], finish := fine, directory := fine, write := [fine, written], writeRest := fine }
def opts (w : Bool) : Options := { help := false, version := false, quiet := true, debug := false, warnAsErr := w, outDir := true }
end Sample
open Sample

/-- The cases of the theorems: success, a warning that is an error, a failure to write. -/
example : (run (opts false) (parts fine)).2 = 0 ∧ (run (opts true) (parts fine)).2 = -1 ∧ (run (opts true) (parts fine)).1.done = [.parse 0, .parse 1] ∧
    (run (opts false) (parts ⟨[.error], false⟩)).2 = -2 ∧ (run (opts false) (parts ⟨[.error], false⟩)).1.printed = [.warning, .error, .error] ∧
    Prepared (opts false) (parts fine) ∧ Works (opts false) (parts fine) := by
  refine ⟨by decide, by decide, by decide, by decide, by decide, ⟨by decide, by decide, by decide, by decide, by decide, fun h => nomatch h⟩, by decide, by decide, by decide, by decide⟩

/-- C127: with warnings as errors a warning that is reported while the code is written is printed, and the run ends with 0. -/
theorem C127_witness : ∃ o x, o.warnAsErr = true ∧ (run o x).2 = 0 ∧ Level.warning ∈ (run o x).1.printed :=
  ⟨opts true, { parts warns with parse := [fine] }, rfl, by decide, by decide⟩

end Commsdsl.Run
