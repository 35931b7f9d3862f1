import Verif.Props.Termination
/-!
# C03, C04, C11: histories, best cost, finiteness
-/

set_option linter.unusedSectionVars false

namespace Verif
open FloatOps

section
variable {F R W S X V M : Type} [FloatOps F]
variable {E : Env F R W S X V M} {o : Options F W V}

theorem StepSpec.numIters {x : X} {out out' : Output F R M} {p w s}
    (h : StepSpec E o x out p w s out') :
    out'.numIters = out.numIters ∧ out'.duration = out.duration := by
  cases h <;> exact ⟨rfl, rfl⟩

/-- a step is either a failure, or pushes one entry to each history -/
theorem StepSpec.push {x : X} {out out' : Output F R M} {p w s}
    (h : StepSpec E o x out p w s out') :
    (out'.stop.code < 0 ∧ p = (false, none) ∧ out'.errs = out.errs ∧ out'.deltas2 = out.deltas2 ∧
      out'.successes = out.successes ∧ out'.finalCost = out.finalCost) ∨
    (∃ c dx g, out'.errs = out.errs ++ [c.cost] ∧ out'.deltas2 = out.deltas2 ++ [E.normSq dx] ∧
      out'.successes = out.successes ++ [g] ∧ finite c.cost = true ∧ finite (E.normSq dx) = true ∧
      g = lt (sub c.cost out.finalCost.cost) (ofInt 0) ∧
      out'.finalCost = (if g = true ∨ out.numIters = 0 then c else out.finalCost) ∧
      (∃ w2 s2, Evald E x w2 s2 dx c) ∧ p.1 = g ∧
      (p.2 = some dx ∨ p.2 = none ∧ g = false ∧ out.numIters ≠ 0 ∧
        (out'.stop = .kMaxConsecNoDecr ∨ out'.stop = .kMaxNoDecr))) := by
  cases h with
  | fail a b c d r hr => exact Or.inl ⟨hr.code, rfl, rfl, rfl, rfl, rfl⟩
  | good w2 s2 dx c a b g s3 w3 r ev hc hd hg hgi hs3 hcr =>
    right
    refine ⟨c, dx, g, rfl, rfl, rfl, hc, hd, hg, ?_, ⟨_, _, ev⟩, rfl, Or.inl rfl⟩
    rw [if_pos hgi]
  | badStop w2 s2 dx c a b s3 r ev hc hd hg hi hs3 hr =>
    right
    refine ⟨c, dx, false, rfl, rfl, rfl, hc, hd, hg.symm, ?_, ⟨_, _, ev⟩, rfl, Or.inr ⟨rfl, rfl, hi, ?_⟩⟩
    · rw [if_neg (by simp [hi])]; rfl
    · rcases hr with h | h
      · exact Or.inl h.1
      · exact Or.inr h.1
  | bad w2 s2 dx c a b s3 w3 r ev hc hd hg hi hs3 hmc hmt hcr =>
    right
    refine ⟨c, dx, false, rfl, rfl, rfl, hc, hd, hg.symm, ?_, ⟨_, _, ev⟩, rfl, Or.inl rfl⟩
    rw [if_neg (by simp [hi])]; rfl

/-- the criteria report convergence or a user stop -/
theorem criteria_code {w : W} {err rel dn2 gn2 : F} {dx g : V} {r w'}
    (h : criteria o w err rel dn2 gn2 dx g = (some r, w')) :
    0 < r.code ∧ (r.code < 5 ∨ r = .kUserStopped) := by
  unfold criteria at h
  split at h
  · cases h; decide
  split at h
  · cases h; decide
  split at h
  · cases h; decide
  split at h
  · cases h; decide
  split at h
  · cases h; decide
  split at h
  · cases h; decide
  · cases h

theorem StepSpec.push_code {x : X} {out out' : Output F R M} {p w s}
    (h : StepSpec E o x out p w s out') (h0 : out.stop = .kNone) :
    (out'.stop.code < 0 ∧ p = (false, none) ∧ out'.errs = out.errs ∧ out'.deltas2 = out.deltas2 ∧
      out'.successes = out.successes) ∨
    (0 ≤ out'.stop.code ∧ out'.stop ≠ .kTimedOut ∧ out'.errs.length = out.errs.length + 1 ∧
      out'.deltas2.length = out.deltas2.length + 1 ∧
      out'.successes.length = out.successes.length + 1) := by
  cases h with
  | fail a b c d r hr => exact Or.inl ⟨hr.code, rfl, rfl, rfl, rfl⟩
  | good w2 s2 dx c a b g s3 w3 r ev hc hd hg hgi hs3 hcr =>
    right
    refine ⟨?_, ?_, by simp [pushOut, retryOut], by simp [pushOut, retryOut],
      by simp [pushOut, retryOut]⟩
    all_goals
      cases r with
      | none => simp [h0, StopReason.code]
      | some r =>
        have := criteria_code hcr
        simp only [Option.getD]
        first | omega | (rintro rfl; exact absurd this (by decide))
  | badStop w2 s2 dx c a b s3 r ev hc hd hg hi hs3 hr =>
    right
    refine ⟨?_, ?_, by simp [pushOut, retryOut], by simp [pushOut, retryOut],
      by simp [pushOut, retryOut]⟩
    all_goals rcases hr with ⟨rfl, _⟩ | ⟨rfl, _⟩ <;> simp [StopReason.code]
  | bad w2 s2 dx c a b s3 w3 r ev hc hd hg hi hs3 hmc hmt hcr =>
    right
    refine ⟨?_, ?_, by simp [pushOut, retryOut], by simp [pushOut, retryOut],
      by simp [pushOut, retryOut]⟩
    all_goals
      cases r with
      | none => simp [h0, StopReason.code]
      | some r =>
        have := criteria_code hcr
        simp only [Option.getD]
        first | omega | (rintro rfl; exact absurd this (by decide))

theorem timeStop_or (dur : F) (r : StopReason) : timeStop o dur r = r ∨ timeStop o dur r = .kTimedOut := by
  unfold timeStop; split
  · exact Or.inr rfl
  · exact Or.inl rfl

theorem timeStop_none {dur : F} {r : StopReason} (h : timeStop o dur r = .kNone) : r = .kNone := by
  unfold timeStop at h; split at h
  · cases h
  · exact h

/-- number of iterations, as recorded in the ghost trace and in `num_iters` -/
theorem numIters_inv {fuel : Nat} {last : Bool} {st st' : LoopSt F R W S X V M}
    (h : body E o fuel last st = .ok st') (hi : st.out.numIters = st.trace.length % 65536) :
    st'.out.numIters = st'.trace.length % 65536 := by
  obtain ⟨succ, mdx, w1, s1, out1, ms, hs⟩ := body_spec h
  rw [hs.out, hs.trace]
  simp only [List.length_append, List.length_cons, List.length_nil]
  rw [hs.step.numIters.1, hi]
  unfold inc16
  omega

/-- **C03.** For every run of at most 65535 iterations the three histories have the same length; it
is `num_iters`, or one less exactly if the last call of `Step` failed before producing a step, in
which case the stop reason is that failure or a time-out that replaced it. -/
theorem C03_histories_aligned {fuel : Nat} {mi : Int} (hmi : budget o mi ≤ 65535)
    {w : W} {s : S} {x : X} {st : LoopSt F R W S X V M}
    (h : optimizeAcc E o fuel mi w s x = .ok st) :
    st.out.deltas2.length = st.out.errs.length ∧ st.out.successes.length = st.out.errs.length ∧
    ∃ r, st.trace.getLast? = some r ∧
      ((st.out.errs.length = st.out.numIters ∧ 0 ≤ r.out.stop.code ∧ 0 ≤ st.out.stop.code) ∨
       (st.out.errs.length + 1 = st.out.numIters ∧ r.out.stop.code < 0 ∧
         (st.out.stop = r.out.stop ∨ st.out.stop = .kTimedOut))) := by
  let I : LoopSt F R W S X V M → Prop := fun st =>
    st.out.deltas2.length = st.out.errs.length ∧ st.out.successes.length = st.out.errs.length ∧
    st.out.errs.length = st.trace.length ∧ st.out.numIters = st.trace.length % 65536
  let J : LoopSt F R W S X V M → Prop := fun st =>
    st.out.deltas2.length = st.out.errs.length ∧ st.out.successes.length = st.out.errs.length ∧
    st.out.numIters = st.trace.length % 65536 ∧
    (st.trace = [] ∨ ∃ r, st.trace.getLast? = some r ∧
      ((st.out.errs.length = st.trace.length ∧ 0 ≤ r.out.stop.code ∧ 0 ≤ st.out.stop.code) ∨
       (st.out.errs.length + 1 = st.trace.length ∧ r.out.stop.code < 0 ∧ st.out.stop ≠ .kNone ∧
         (st.out.stop = r.out.stop ∨ st.out.stop = .kTimedOut))))
  obtain ⟨m, st0, hm, hj, hi, ⟨hl1, hl2, hl3⟩, rfl⟩ := run_inv (I := I) (J := J) (E := E) (o := o) (by
    intro last st st' h0 ⟨hd, hsu, he, hn⟩ hb
    have hn' := numIters_inv hb hn
    obtain ⟨succ, mdx, w1, s1, out1, ms, hs⟩ := body_spec hb
    have hlen : st'.trace.length = st.trace.length + 1 := by rw [hs.trace]; simp
    have hlast : st'.trace.getLast? = some ⟨st.x, succ, mdx, out1, st'.x⟩ := by rw [hs.trace]; simp
    have ht := timeStop_or (o := o) (add out1.duration ms) out1.stop
    have herr : st'.out.errs = out1.errs := by rw [hs.out]
    have hdel : st'.out.deltas2 = out1.deltas2 := by rw [hs.out]
    have hsuc : st'.out.successes = out1.successes := by rw [hs.out]
    have hstop : st'.out.stop = timeStop o (add out1.duration ms) out1.stop := by rw [hs.out]
    rcases hs.step.push_code h0 with ⟨hc, _, e1, e2, e3⟩ | ⟨hc, hct, e1, e2, e3⟩
    · have hne : st'.out.stop ≠ .kNone := by
        intro hno
        rw [hstop] at hno
        rw [timeStop_none hno] at hc
        exact absurd hc (by decide)
      refine ⟨fun h => absurd h hne, ?_, ?_, hn', Or.inr ⟨_, hlast, Or.inr ⟨?_, hc, hne, ?_⟩⟩⟩
      · rw [herr, hdel, e1, e2, hd]
      · rw [herr, hsuc, e1, e3, hsu]
      · rw [herr, e1]; omega
      · rw [hstop]; exact ht
    · refine ⟨fun _ => ⟨?_, ?_, ?_, hn'⟩, ?_, ?_, hn', Or.inr ⟨_, hlast, Or.inl ⟨?_, hc, ?_⟩⟩⟩
      · rw [herr, hdel]; omega
      · rw [herr, hsuc]; omega
      · rw [herr]; omega
      · rw [herr, hdel]; omega
      · rw [herr, hsuc]; omega
      · rw [herr]; omega
      · rw [hstop]
        rcases ht with h | h <;> rw [h]
        · exact hc
        · decide)
    ⟨rfl, rfl, rfl, rfl⟩ ⟨rfl, rfl, rfl, Or.inl rfl⟩ h
  have hm' := budget_of_loopBound hm
  obtain ⟨hd, hsu, hn, hr⟩ := hj
  refine ⟨hd, hsu, ?_⟩
  rcases hr with hr | ⟨r, hr, hcase⟩
  · rw [hr] at hl3; simp at hl3
  refine ⟨r, hr, ?_⟩
  have hnn : st0.out.numIters = st0.trace.length := by rw [hn]; omega
  simp only
  rcases hcase with ⟨h1, h2, h3⟩ | ⟨h1, h2, h3, h4⟩
  · refine Or.inl ⟨by omega, h2, ?_⟩
    split
    · decide
    · exact h3
  · refine Or.inr ⟨by omega, h2, ?_⟩
    rw [if_neg (by simp [h3])]
    exact h4

/-- A run that ends with a failure after two iterations (the linear solve fails at 3). -/
example : ∃ st, optimizeAcc (toyEnv (fun x => ofInt (x * x)) (fun _ => 1)
      (fun x => if x = 3 then none else some (-1))) { toyOpts with maxConsecFailures := 1 } 3 (-1) 0 toyS0 5
    = .ok st ∧ (st.out.errs.length == 2 && st.out.numIters == 3 && st.out.stop == .kSolverFailed) = true :=
  Res.exists_of_holds (by decide +kernel)

/-! ## C04 -/

/-- Specification: `c` is a minimum of the list. -/
def IsMinOf (c : F) (l : List F) : Prop := c ∈ l ∧ ∀ e ∈ l, lt e c = false

/-- Specification of `successes`: entry `i` tells if `errs[i]` is below all earlier entries (and below the
largest floating point number, the initial value of the best cost). -/
def marksImprovements (errs : List F) (succ : List Bool) : Prop :=
  succ.length = errs.length ∧
  ∀ (i : Nat) (hi : i < errs.length) (hi' : i < succ.length),
    succ[i] = true ↔ lt errs[i] maxVal = true ∧ ∀ (j : Nat) (hj : j < i), lt errs[i] (errs[j]) = true

theorem marksImprovements_push {errs : List F} {succ : List Bool} {e : F} {g : Bool}
    (h : marksImprovements errs succ)
    (hg : g = true ↔ lt e maxVal = true ∧ ∀ x ∈ errs, lt e x = true) :
    marksImprovements (errs ++ [e]) (succ ++ [g]) := by
  obtain ⟨hl, h⟩ := h
  refine ⟨by simp [hl], ?_⟩
  intro i hi hi'
  by_cases hlt : i < errs.length
  · rw [List.getElem_append_left hlt, List.getElem_append_left (by omega)]
    rw [h i hlt (by omega)]
    refine and_congr_right fun _ => ?_
    constructor
    · intro h j hj
      rw [List.getElem_append_left (by omega)]
      exact h j hj
    · intro h j hj
      have := h j hj
      rwa [List.getElem_append_left (by omega)] at this
  · have hie : i = errs.length := by simp at hi; omega
    subst hie
    rw [List.getElem_append_right (by omega), List.getElem_append_right (by omega)]
    simp only [hl, Nat.sub_self, List.getElem_cons_zero]
    rw [hg]
    refine and_congr_right fun _ => ?_
    constructor
    · intro h j hj
      rw [List.getElem_append_left (by omega)]
      exact h _ (List.getElem_mem _)
    · intro h x hx
      obtain ⟨j, hj, rfl⟩ := List.mem_iff_getElem.1 hx
      have := h j hj
      rwa [List.getElem_append_left (by omega)] at this

section C04
variable [FloatLaws F]

/-- everything C04 and C11 say about an intermediate `Output` -/
structure HistInv (out : Output F R M) : Prop where
  fin : ∀ e ∈ out.errs, finite e = true
  finD : ∀ e ∈ out.deltas2, finite e = true
  finC : finite out.finalCost.cost = true
  init : out.errs = [] → out.finalCost.cost = maxVal
  best : out.errs ≠ [] → IsMinOf out.finalCost.cost out.errs
  marks : marksImprovements out.errs out.successes

theorem HistInv.step {x : X} {out out' : Output F R M} {p w s}
    (h : StepSpec E o x out p w s out') (hi : HistInv out)
    (h0 : out.numIters = 0 ↔ out.errs = []) :
    HistInv out' ∧ lt out.finalCost.cost out'.finalCost.cost = false := by
  rcases h.push with ⟨_, _, e1, e2, e3, e4⟩ | ⟨c, dx, g, e1, e2, e3, hc, hd, hg, e4, _, _, _⟩
  · refine ⟨⟨?_, ?_, ?_, ?_, ?_, ?_⟩, ?_⟩
    · rw [e1]; exact hi.fin
    · rw [e2]; exact hi.finD
    · rw [e4]; exact hi.finC
    · rw [e1, e4]; exact hi.init
    · rw [e1, e4]; exact hi.best
    · rw [e1, e3]; exact hi.marks
    · rw [e4]; exact FloatLaws.lt_irrefl _
  · rw [FloatLaws.sub_neg _ _ hc hi.finC] at hg
    have hgiff : g = true ↔ lt c.cost maxVal = true ∧ ∀ x ∈ out.errs, lt c.cost x = true := by
      constructor
      · intro hgt
        rw [hgt] at hg
        have hlt := hg.symm
        constructor
        · by_contra hne
          have := FloatLaws.lt_negtrans c.cost maxVal out.finalCost.cost hc FloatLaws.max_finite
            hi.finC (by simpa using hne) (FloatLaws.le_max _ hi.finC)
          rw [this] at hlt; cases hlt
        · intro e he
          by_contra hne
          have hb := (hi.best (List.ne_nil_of_mem he)).2 e he
          have := FloatLaws.lt_negtrans c.cost e out.finalCost.cost hc (hi.fin e he)
            hi.finC (by simpa using hne) hb
          rw [this] at hlt; cases hlt
      · rintro ⟨h1, h2⟩
        rw [hg]
        by_cases hnil : out.errs = []
        · rw [hi.init hnil]; exact h1
        · exact h2 _ (hi.best hnil).1
    refine ⟨⟨?_, ?_, ?_, ?_, ?_, ?_⟩, ?_⟩
    · rw [e1]; intro e he
      rcases List.mem_append.1 he with he | he
      · exact hi.fin e he
      · rw [List.mem_singleton.1 he]; exact hc
    · rw [e2]; intro e he
      rcases List.mem_append.1 he with he | he
      · exact hi.finD e he
      · rw [List.mem_singleton.1 he]; exact hd
    · rw [e4]; split
      · exact hc
      · exact hi.finC
    · rw [e1]; intro h; simp at h
    · intro _
      rw [e4, e1]
      by_cases hgt : g = true
      · rw [if_pos (Or.inl hgt)]
        refine ⟨by simp, ?_⟩
        intro e he
        rcases List.mem_append.1 he with he | he
        · have hl := (hgiff.1 hgt).2 e he
          by_contra hne
          have := FloatLaws.lt_trans _ _ _ hl (by simpa using hne)
          rw [FloatLaws.lt_irrefl] at this; cases this
        · rw [List.mem_singleton.1 he]; exact FloatLaws.lt_irrefl _
      · have hgf : g = false := by simpa using hgt
        by_cases hnil : out.errs = []
        · rw [if_pos (Or.inr (h0.2 hnil)), hnil]
          refine ⟨by simp, ?_⟩
          intro e he
          simp only [List.nil_append, List.mem_singleton] at he
          rw [he]; exact FloatLaws.lt_irrefl _
        · rw [if_neg (by rw [h0]; simp [hgt, hnil])]
          refine ⟨List.mem_append_left _ (hi.best hnil).1, ?_⟩
          intro e he
          rcases List.mem_append.1 he with he | he
          · exact (hi.best hnil).2 e he
          · rw [List.mem_singleton.1 he, ← hg]; exact hgf
    · rw [e1, e3]; exact marksImprovements_push hi.marks hgiff
    · rw [e4]
      split
      next hcase =>
        by_cases hgt : g = true
        · by_contra hne
          rw [hgt] at hg
          have := FloatLaws.lt_trans _ _ _ hg.symm (by simpa using hne)
          rw [FloatLaws.lt_irrefl] at this; cases this
        · have h00 : out.numIters = 0 := by
            rcases hcase with h | h
            · exact absurd h hgt
            · exact h
          rw [hi.init (h0.1 h00)]
          exact FloatLaws.le_max _ hc
      · exact FloatLaws.lt_irrefl _

theorem HistInv.congr {out out' : Output F R M} (h : HistInv out) (e1 : out'.errs = out.errs)
    (e2 : out'.deltas2 = out.deltas2) (e3 : out'.successes = out.successes)
    (e4 : out'.finalCost = out.finalCost) : HistInv out' :=
  ⟨e1 ▸ h.fin, e2 ▸ h.finD, e4 ▸ h.finC, by rw [e1, e4]; exact h.init, by rw [e1, e4]; exact h.best,
    by rw [e1, e3]; exact h.marks⟩

theorem HistInv.initial (r : R) : HistInv (Output.init (F := F) (M := M) r) where
  fin := by intro e he; cases he
  finD := by intro e he; cases he
  finC := FloatLaws.max_finite
  init := fun _ => rfl
  best := fun h => absurd rfl h
  marks := ⟨rfl, fun i hi => absurd hi (Nat.not_lt_zero _)⟩

/-- best cost never increases along the trace -/
def NonIncreasing (t : List (Rec F R X V M)) : Prop :=
  t.Pairwise fun a b => lt a.out.finalCost.cost b.out.finalCost.cost = false

/-- the loop invariant behind C04 and C11 -/
theorem hist_run {fuel : Nat} {mi : Int} (hmi : budget o mi ≤ 65536)
    {w : W} {s : S} {x : X} {st : LoopSt F R W S X V M}
    (h : optimizeAcc E o fuel mi w s x = .ok st) :
    HistInv st.out ∧ NonIncreasing st.trace := by
  -- the loop with an explicit bound on the number of iterations
  have key : ∀ (n : Nat) (st st' : LoopSt F R W S X V M), st.out.stop = .kNone →
      st.trace.length + n ≤ 65536 →
      (HistInv st.out ∧ NonIncreasing st.trace ∧ st.out.numIters = st.trace.length % 65536 ∧
        st.out.errs.length = st.trace.length ∧
        ∀ a ∈ st.trace, finite a.out.finalCost.cost = true ∧
          lt a.out.finalCost.cost st.out.finalCost.cost = false) →
      loop E o fuel n st = .ok st' → HistInv st'.out ∧ NonIncreasing st'.trace := by
    intro n
    induction n with
    | zero =>
      intro st st' _ _ hI h
      simp only [loop] at h; injection h with h; subst h
      exact ⟨hI.1, hI.2.1⟩
    | succ n ih =>
      intro st st' h0 hlen ⟨hH, hN, hn, he, ha⟩ h
      unfold loop at h
      rw [Res.bind_eq_ok] at h
      obtain ⟨st1, hb, h⟩ := h
      have hn' := numIters_inv hb hn
      obtain ⟨succ, mdx, w1, s1, out1, ms, hs⟩ := body_spec hb
      have h00 : st.out.numIters = 0 ↔ st.out.errs = [] := by
        rw [hn, ← List.length_eq_zero_iff, he]; omega
      obtain ⟨hH1, hle⟩ := HistInv.step hs.step hH h00
      have hH' : HistInv st1.out := by
        rw [hs.out]; exact hH1.congr rfl rfl rfl rfl
      have ha' : ∀ a ∈ st.trace, finite a.out.finalCost.cost = true ∧
          lt a.out.finalCost.cost out1.finalCost.cost = false := fun a hat =>
        ⟨(ha a hat).1, FloatLaws.lt_negtrans _ _ _ (ha a hat).1 hH.finC hH1.finC (ha a hat).2 hle⟩
      have hN' : NonIncreasing st1.trace := by
        unfold NonIncreasing
        rw [hs.trace, List.pairwise_append]
        refine ⟨hN, List.pairwise_singleton _ _, ?_⟩
        intro a hat b hbt
        rw [List.mem_singleton.1 hbt]
        exact (ha' a hat).2
      split at h
      · injection h with h; subst h
        exact ⟨hH', hN'⟩
      next hne =>
        have hnone : st1.out.stop = .kNone := by
          by_cases h : st1.out.stop = .kNone
          · exact h
          · exact absurd h hne
        refine ih st1 st' hnone ?_ ⟨hH', hN', hn', ?_, ?_⟩ h
        · rw [hs.trace]; simp; omega
        · rw [hs.trace]
          have hstop : st1.out.stop = timeStop o (add out1.duration ms) out1.stop := by rw [hs.out]
          rw [hnone] at hstop
          have hnn := timeStop_none hstop.symm
          rcases hs.step.push_code h0 with ⟨hc, _⟩ | ⟨_, _, e1, _⟩
          · rw [hnn] at hc; exact absurd hc (by decide)
          · rw [show st1.out.errs = out1.errs by rw [hs.out], e1]; simp [he]
        · intro a hat
          have hf : st1.out.finalCost = out1.finalCost := by rw [hs.out]
          rw [hf]
          rw [hs.trace] at hat
          rcases List.mem_append.1 hat with hat | hat
          · exact ha' a hat
          · rw [List.mem_singleton.1 hat]; exact ⟨hH1.finC, FloatLaws.lt_irrefl _⟩
  obtain ⟨m, st0, hm, hl, rfl⟩ := optimizeAcc_spec h
  have hm' := budget_of_loopBound hm
  have := key _ (initSt E w s x) _ rfl (by simp [initSt]; omega)
    ⟨HistInv.initial _, List.Pairwise.nil, rfl, rfl, by intro a ha; cases ha⟩ hl
  exact ⟨this.1.congr rfl rfl rfl rfl, this.2⟩

/-- **C04.** For every run of at most 65536 iterations: `final_cost` is the minimum of `errs`,
`successes` marks exactly the entries of `errs` that improve on all earlier ones, and the best cost
never increases from one iteration to a later one. -/
theorem C04_final_cost_is_best {fuel : Nat} {mi : Int} (hmi : budget o mi ≤ 65536)
    {w : W} {s : S} {x : X} {st : LoopSt F R W S X V M}
    (h : optimizeAcc E o fuel mi w s x = .ok st) :
    (st.out.errs ≠ [] → IsMinOf st.out.finalCost.cost st.out.errs) ∧
    marksImprovements st.out.errs st.out.successes ∧ NonIncreasing st.trace := by
  obtain ⟨h1, h2⟩ := hist_run hmi h
  exact ⟨h1.best, h1.marks, h2⟩

/-- A run with improvements and a failure to improve. -/
example : ∃ st, optimizeAcc toySq toyOpts 3 (-1) 0 toyS0 2 = .ok st ∧
    (st.out.errs == [ofInt 4, ofInt 1, ofInt 0, ofInt 0, ofInt 0, ofInt 0] &&
      st.out.successes == [true, true, true, false, false, false] &&
      st.out.finalCost.cost == ofInt 0) = true :=
  Res.exists_of_holds (by decide +kernel)

/-- **C11.** NaN and infinity never enter the results, whatever the user function returns. -/
theorem C11_results_finite {fuel : Nat} {mi : Int}
    {w : W} {s : S} {x : X} {st : LoopSt F R W S X V M}
    (h : optimizeAcc E o fuel mi w s x = .ok st) :
    (∀ e ∈ st.out.errs, isNaN e = false ∧ isInf e = false) ∧
    (∀ e ∈ st.out.deltas2, isNaN e = false ∧ isInf e = false) ∧
    isNaN st.out.finalCost.cost = false ∧ isInf st.out.finalCost.cost = false ∧
    ∀ r ∈ st.trace, ∀ d, r.dx = some d → isNaN (E.normSq d) = false ∧ isInf (E.normSq d) = false := by
  have fin : ∀ e : F, finite e = true → isNaN e = false ∧ isInf e = false := by
    intro e he
    unfold finite at he
    simpa using he
  let I : LoopSt F R W S X V M → Prop := fun st =>
    (∀ e ∈ st.out.errs, finite e = true) ∧ (∀ e ∈ st.out.deltas2, finite e = true) ∧
    finite st.out.finalCost.cost = true ∧
    ∀ r ∈ st.trace, ∀ d, r.dx = some d → isNaN (E.normSq d) = false ∧ isInf (E.normSq d) = false
  have h0 : I (initSt E w s x) :=
    ⟨fun _ he => (nomatch he), fun _ he => (nomatch he), FloatLaws.max_finite, fun _ he => (nomatch he)⟩
  obtain ⟨m, st0, hm, hj, hi, _, rfl⟩ := run_inv (I := I) (J := I) (E := E) (o := o) (by
    intro last st st' h0 ⟨hI1, hI2, hI3, hI⟩ hb
    obtain ⟨succ, mdx, w1, s1, out1, ms, hs⟩ := body_spec hb
    have : I st' := by
      refine ⟨?_, ?_, ?_, ?_⟩
      · rw [hs.out]
        rcases hs.step.push with ⟨_, _, e1, _⟩ | ⟨c, dx, g, e1, _, _, hc, _⟩
        · simp only; rw [e1]; exact hI1
        · simp only; rw [e1]; intro e he
          rcases List.mem_append.1 he with he | he
          · exact hI1 e he
          · rw [List.mem_singleton.1 he]; exact hc
      · rw [hs.out]
        rcases hs.step.push with ⟨_, _, _, e1, _⟩ | ⟨c, dx, g, _, e1, _, _, hd, _⟩
        · simp only; rw [e1]; exact hI2
        · simp only; rw [e1]; intro e he
          rcases List.mem_append.1 he with he | he
          · exact hI2 e he
          · rw [List.mem_singleton.1 he]; exact hd
      · rw [hs.out]
        rcases hs.step.push with ⟨_, _, _, _, _, e1⟩ | ⟨c, dx, g, _, _, _, hc, _, _, e1, _⟩
        · simp only; rw [e1]; exact hI3
        · simp only; rw [e1]; split
          · exact hc
          · exact hI3
      intro r hr d hd
      rw [hs.trace] at hr
      rcases List.mem_append.1 hr with hr | hr
      · exact hI r hr d hd
      · rw [List.mem_singleton.1 hr] at hd
        simp only at hd
        subst hd
        rcases hs.step.push with ⟨_, e, _⟩ | ⟨c, dx, g, _, _, _, _, hdf, _, _, _, _, hp⟩
        · cases e
        · rcases hp with hp | ⟨hp, _⟩
          · simp only at hp; injection hp with hp; subst hp; exact fin _ hdf
          · cases hp
    exact ⟨fun _ => this, this⟩) h0 h0 h
  obtain ⟨h1, h2, h3, h4⟩ := hj
  exact ⟨fun e he => fin e (h1 e he), fun e he => fin e (h2 e he), (fin _ h3).1, (fin _ h3).2, h4⟩

/-- A run stopped by a NaN cost keeps only finite values. -/
example : ∃ st, optimizeAcc (toyEnv (fun x => if x = 3 then .nan else ofInt x) (fun _ => 1)
      (fun _ => some (-1))) toyOpts 3 (-1) 0 toyS0 5 = .ok st ∧
    (st.out.errs == [ofInt 5, ofInt 4] && st.out.stop == .kSystemHasNaNOrInf && st.x == 4) = true :=
  Res.exists_of_holds (by decide +kernel)

end C04

end
end Verif
