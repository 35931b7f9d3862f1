import Verif.Lemmas.RunInv
import Verif.Lemmas.Benign
/-!
# An iteration whose system can be built and solved
-/

set_option linter.unusedSectionVars false

namespace Verif
open FloatOps

section
variable {F R W S X V M : Type} [FloatOps F]
variable {E : Env F R W S X V M} {o : Options F W V}

/-- the solver delivers the step `dx` at `x` from the state `s2` -/
structure Delivers (E : Env F R W S X V M) (w : W) (s : S) (x : X) (s2 : S) (dx : V) : Prop where
  built : ∃ s1 w1 w2, resizeIfNeeded E w s x = (.inr s1, w1) ∧ E.sol.build w1 s1 x = (true, s2, w2)
  solved : E.sol.solve s2 = some dx
  cost : finite (E.sol.cost s2).cost = true
  norm : finite (E.normSq dx) = true
  good : ∀ q, ∃ s', E.sol.goodStep s2 q = .ok s'
  bad : ∃ s', E.sol.badStep s2 = .ok s'

/-- Result of an iteration that got a step. -/
structure Worked (E : Env F R W S X V M) (o : Options F W V) (st : LoopSt F R W S X V M) (last : Bool) (s2 : S) (dx : V)
    (st' : LoopSt F R W S X V M) (succ : Bool) (mdx : Option V) (s3 : S) : Prop where
  isSucc : succ = lt (sub (E.sol.cost s2).cost st.out.finalCost.cost) (ofInt 0)
  isMdx : mdx = some dx ∨ (mdx = none ∧ succ = false ∧ st.out.numIters > 0 ∧ st'.out.stop ≠ .kNone)
  upd : UpdSpec E st.x st.lastDx succ mdx st'.x st'.lastDx st'.lastSucc
  lastSucc : st'.lastSucc = succ
  solver : st'.s = E.sol.rebuild s3 (if succ then !(o.checkFinalCost && last) else st.lastSucc)
  hook : if st.out.numIters > 0 then (∃ q, E.sol.goodStep s2 q = .ok s3) ∨ E.sol.badStep s2 = .ok s3 else s3 = s2
  hookGood : st.out.numIters > 0 → succ = true →
    E.sol.goodStep s2 (if o.useStepQuality then relDerr st.out.finalCost.cost (E.sol.cost s2).cost else ofInt 0) = .ok s3
  finalCost : st'.out.finalCost = if succ || st.out.numIters == 0 then E.sol.cost s2 else st.out.finalCost
  numIters : st'.out.numIters = inc16 st.out.numIters
  consec : st'.out.stop = .kNone → st'.out.numConsec ≤ maxTries o
  trace : ∃ r, st'.trace = st.trace ++ [r] ∧ r.x = st.x ∧ r.xNext = st'.x ∧ r.dx = mdx ∧ r.succ = succ
  nostop : NoCriteria o → st.out.stop = .kNone → st'.out.stop = .kNone
  code : st.out.stop = .kNone → ∃ r, st'.trace.getLast? = some r ∧ 0 ≤ r.out.stop.code
  crit : succ = true ∨ st.out.numIters = 0 → ∃ w2 g, st'.out.stop = timeStop o st'.out.duration
    ((criteria o w2 (E.sol.cost s2).cost (relDerr st.out.finalCost.cost (E.sol.cost s2).cost) (E.normSq dx) (gn2Of E o s2) dx g).1.getD st.out.stop)

/-- no criterion reports a failure -/
theorem works_criteria_code {w : W} {err rel dn2 gn2 : F} {dx g : V} {q : StopReason} (hq : 0 ≤ q.code) :
    0 ≤ ((criteria o w err rel dn2 gn2 dx g).1.getD q).code := by
  unfold criteria
  split
  · simp [StopReason.code]
  split
  · simp [StopReason.code]
  split
  · simp [StopReason.code]
  split
  · simp [StopReason.code]
  split
  · simp [StopReason.code]
  split
  · simp [StopReason.code]
  · exact hq

theorem step_works {w : W} {s : S} {x : X} {s2 : S} {dx : V} (h : Delivers E w s x s2 dx) {fuel : Nat} {out : Output F R M}
    (hc : out.numConsec ≤ maxTries o) :
    ∃ succ mdx w' s3 out', step E o (fuel + 1) w s x out = .ok ((succ, mdx), w', s3, out') ∧
      succ = lt (sub (E.sol.cost s2).cost out.finalCost.cost) (ofInt 0) ∧
      (mdx = some dx ∨ (mdx = none ∧ succ = false ∧ out.numIters > 0 ∧ out'.stop ≠ .kNone)) ∧
      (if out.numIters > 0 then (∃ q, E.sol.goodStep s2 q = .ok s3) ∨ E.sol.badStep s2 = .ok s3 else s3 = s2) ∧
      (out.numIters > 0 → succ = true →
        E.sol.goodStep s2 (if o.useStepQuality then relDerr out.finalCost.cost (E.sol.cost s2).cost else ofInt 0) = .ok s3) ∧
      out'.finalCost = (if succ || out.numIters == 0 then E.sol.cost s2 else out.finalCost) ∧
      out'.numIters = out.numIters ∧ (out'.stop = .kNone → out'.numConsec ≤ maxTries o) ∧
      (succ = true ∨ out.numIters = 0 → ∃ w2 g, out'.stop =
        (criteria o w2 (E.sol.cost s2).cost (relDerr out.finalCost.cost (E.sol.cost s2).cost) (E.normSq dx) (gn2Of E o s2) dx g).1.getD out.stop) ∧
      (out.stop = .kNone → 0 ≤ out'.stop.code) ∧ (NoCriteria o → out.stop = .kNone → out'.stop = .kNone) := by
  obtain ⟨s1, w1, w2, hr, hb⟩ := h.built
  have hre : retry E o x (fuel + 1) w1 s1 out = .ok (.got dx (E.sol.cost s2), w2, s2, out) := by
    unfold retry
    rw [if_pos hc, hb]
    simp [h.solved]
  unfold step
  rw [hr]
  simp only
  rw [hre, Res.bind_ok]
  simp only
  unfold afterSolve
  simp only [not_bad_of_finite h.cost, not_bad_of_finite h.norm, Bool.false_eq_true, if_false]
  split
  next hg =>
    have : ∃ s3, (if out.numIters > 0 then E.sol.goodStep s2 (if o.useStepQuality then relDerr out.finalCost.cost (E.sol.cost s2).cost else ofInt 0)
        else .ok s2) = .ok s3 := by
      split
      · exact h.good _
      · exact ⟨s2, rfl⟩
    obtain ⟨s3, e3⟩ := this
    rw [e3, Res.bind_ok]
    refine ⟨_, _, _, _, _, rfl, rfl, Or.inl rfl, ?_, ?_, ?_, rfl, ?_⟩
    · split at e3
      next h0 => rw [if_pos h0]; exact Or.inl ⟨_, e3⟩
      next h0 => rw [if_neg h0]; injection e3 with e3; exact e3.symm
    · intro h0 _; rw [if_pos h0] at e3; exact e3
    · rw [if_pos hg]
    · refine ⟨fun _ => Nat.zero_le _, fun _ => ⟨w2, E.sol.gradient s3, ?_⟩, fun h0 => works_criteria_code (by rw [h0]; decide), fun ho h0 => by rw [criteria_none ho]; exact h0⟩
      rcases hcr : criteria o w2 (E.sol.cost s2).cost (relDerr out.finalCost.cost (E.sol.cost s2).cost) (E.normSq dx) (gn2Of E o s2) dx (E.sol.gradient s3)
        with ⟨r, w3⟩
      unfold gn2Of at hcr
      rw [hcr]
  next hg =>
    have hit : out.numIters > 0 := by
      rw [Bool.or_eq_true] at hg
      refine Nat.pos_of_ne_zero fun h0 => hg (Or.inr (by simp [h0]))
    have hgood : lt (sub (E.sol.cost s2).cost out.finalCost.cost) (ofInt 0) = false := by
      rw [Bool.or_eq_true, not_or] at hg; exact Bool.not_eq_true _ ▸ hg.1
    obtain ⟨s3, e3⟩ := h.bad
    rw [e3, Res.bind_ok]
    split
    · refine ⟨_, _, _, _, _, rfl, hgood.symm, Or.inr ⟨rfl, rfl, hit, by simp⟩, ?_, fun _ h => (nomatch h), ?_, rfl, ?_⟩
      · exact Or.inr rfl
      · rw [if_neg (by simp; omega)]
      · exact ⟨fun h => (nomatch h), fun h => absurd (h.resolve_left (by simp)) (by omega), fun _ => by simp [StopReason.code], fun ho _ => by simp_all [ho.total, ho.consec]⟩
    next hm =>
      split
      · refine ⟨_, _, _, _, _, rfl, hgood.symm, Or.inr ⟨rfl, rfl, hit, by simp⟩, ?_, fun _ h => (nomatch h), ?_, rfl, ?_⟩
        · exact Or.inr rfl
        · rw [if_neg (by simp; omega)]
        · exact ⟨fun h => (nomatch h), fun h => absurd (h.resolve_left (by simp)) (by omega), fun _ => by simp [StopReason.code], fun ho _ => by simp_all [ho.total, ho.consec]⟩
      · refine ⟨_, _, _, _, _, rfl, rfl, Or.inl rfl, ?_, fun _ h => (nomatch hgood.symm.trans h), ?_, rfl, ?_⟩
        · exact Or.inr rfl
        · rw [if_neg hg]
        · refine ⟨?_, fun h => absurd (h.resolve_left (by rw [hgood]; decide)) (by omega), fun h0 => works_criteria_code (by rw [h0]; decide), fun ho h0 => by rw [criteria_none ho]; exact h0⟩
          intro _
          simp only [maxTries, inc8] at hm ⊢
          simp only [Bool.and_eq_true, decide_eq_true_eq, not_and] at hm
          by_cases h1 : o.maxConsecFailures > 0
          · rw [if_pos h1]
            have h2 := Nat.lt_of_not_ge (fun h => hm h1 (decide_eq_true h))
            exact Nat.le_trans (Nat.le_of_lt h2) (Nat.le_max_right _ _)
          · rw [if_neg h1]; omega

theorem body_works {st : LoopSt F R W S X V M} {s2 : S} {dx : V} (h : Delivers E st.w st.s st.x s2 dx) {fuel : Nat} {last : Bool}
    (hc : st.out.numConsec ≤ maxTries o) :
    ∃ st' succ mdx s3, body E o (fuel + 1) last st = .ok st' ∧ Worked E o st last s2 dx st' succ mdx s3 := by
  obtain ⟨succ, mdx, w', s3, out', e, h1, h2, h3, h3', h4, h5, h6, h7, h8, h9⟩ := step_works (o := o) (fuel := fuel) h hc
  have hb : ∃ st', body E o (fuel + 1) last st = .ok st' := by
    unfold body
    rw [e, Res.bind_ok]
    simp only
    cases succ with
    | true =>
      rcases h2 with rfl | ⟨-, h2, -⟩
      · exact ⟨_, rfl⟩
      · cases h2
    | false =>
      cases st.lastDx with
      | some d => exact ⟨_, rfl⟩
      | none => cases mdx <;> exact ⟨_, rfl⟩
  obtain ⟨st', hb⟩ := hb
  obtain ⟨succ', mdx', w1, s1, out1, ms, hstep, hs, hsol, hls⟩ := body_flag hb
  rw [e] at hstep
  injection hstep with hstep
  simp only [Prod.mk.injEq] at hstep
  obtain ⟨⟨rfl, rfl⟩, rfl, rfl, rfl⟩ := hstep
  have hstop : st'.out.stop = .kNone → out'.stop = .kNone := by
    rw [hs.out]; simp only [timeStop]; split
    · intro h; cases h
    · exact id
  refine ⟨st', succ, mdx, s3, hb, ⟨h1, ?_, hs.upd, hls, hsol, h3, h3', ?_, ?_, ?_, ?_, fun ho h0 => ?_, fun h0 => ?_, ?_⟩⟩
  · rcases h2 with h2 | ⟨a, b, c, d⟩
    · exact Or.inl h2
    · exact Or.inr ⟨a, b, c, fun h => d (hstop h)⟩
  · rw [hs.out]; exact h4
  · rw [hs.out]; simp [h5]
  · intro h
    have := h6 (hstop h)
    rw [hs.out]; exact this
  · exact ⟨_, hs.trace, rfl, rfl, rfl, rfl⟩
  · rw [hs.out]; simp only [timeStop, ho.maxDurationMs, Bool.false_and, Bool.false_eq_true, if_false]; exact h9 ho h0
  · exact ⟨_, by rw [hs.trace]; exact List.getLast?_concat, h8 h0⟩
  · intro h
    obtain ⟨w2, g, hg⟩ := h7 h
    refine ⟨w2, g, ?_⟩
    rw [← hg, hs.out]

/-- Induction over a run in which every iteration works. -/
theorem loop_works {I J : LoopSt F R W S X V M → Prop} {fuel : Nat}
    (hI : ∀ last st, st.out.stop = .kNone → I st →
      ∃ st', body E o fuel last st = .ok st' ∧ (st'.out.stop = .kNone → last = false → I st') ∧ J st') :
    ∀ {n : Nat} {st : LoopSt F R W S X V M}, st.out.stop = .kNone → I st → (0 < n ∨ J st) →
      ∃ st', loop E o fuel n st = .ok st' ∧ J st' := by
  intro n
  induction n with
  | zero => intro st h0 h1 h2; exact ⟨st, rfl, h2.resolve_left (Nat.lt_irrefl 0)⟩
  | succ n ih =>
    intro st h0 h1 h2
    obtain ⟨st1, hb, hi, hj⟩ := hI (n == 0) st h0 h1
    unfold loop
    rw [hb, Res.bind_ok]
    split
    · exact ⟨st1, rfl, hj⟩
    next hne =>
      have hn : st1.out.stop = .kNone := by
        by_cases h : st1.out.stop = .kNone
        · exact h
        · exact absurd h hne
      cases n with
      | zero => exact ⟨st1, rfl, hj⟩
      | succ n => exact ih hn (hi hn (by simp)) (Or.inl (Nat.succ_pos n))

theorem run_works {I J : LoopSt F R W S X V M → Prop} {fuel : Nat}
    (hI : ∀ last st, st.out.stop = .kNone → I st →
      ∃ st', body E o fuel last st = .ok st' ∧ (st'.out.stop = .kNone → last = false → I st') ∧ J st')
    {mi m : Int} {w : W} {s : S} {x : X} (hm : loopBound o mi = some m) (h0 : I (initSt E w s x)) :
    ∃ st st0, optimizeAcc E o fuel mi w s x = .ok st ∧ J st0 ∧ st.x = st0.x ∧ st.trace = st0.trace ∧ st.s = st0.s := by
  have hpos : 0 < m.toNat := by
    unfold loopBound at hm
    simp only at hm
    have h1 : (0 : Int) ≤ (if mi < 0 then (o.maxIters : Int) else mi) := by split <;> omega
    generalize (if mi < 0 then (o.maxIters : Int) else mi) = k at hm h1
    have h2 : ∀ a : Int, (if a + 1 > intMax then none else some a) = some m → a = m := by
      intro a h
      by_cases h3 : a + 1 > intMax
      · rw [if_pos h3] at h; cases h
      · rw [if_neg h3] at h; exact Option.some.inj h
    have h3 := h2 _ hm
    split at h3 <;> omega
  obtain ⟨st0, e, hj⟩ := loop_works hI (n := m.toNat) (st := initSt E w s x) rfl h0 (Or.inl hpos)
  unfold optimizeAcc
  rw [hm]
  simp only
  rw [e, Res.bind_ok]
  exact ⟨_, st0, rfl, hj, rfl, rfl, rfl⟩

/-- The same with an invariant that knows how many iterations are left. -/
theorem loop_works_left {I : Nat → LoopSt F R W S X V M → Prop} {J : LoopSt F R W S X V M → Prop} {fuel : Nat}
    (hI : ∀ n st, st.out.stop = .kNone → I (n + 1) st →
      ∃ st', body E o fuel (n == 0) st = .ok st' ∧ (st'.out.stop = .kNone → 0 < n → I n st') ∧ J st') :
    ∀ {n : Nat} {st : LoopSt F R W S X V M}, st.out.stop = .kNone → I n st → (0 < n ∨ J st) →
      ∃ st', loop E o fuel n st = .ok st' ∧ J st' := by
  intro n
  induction n with
  | zero => intro st h0 h1 h2; exact ⟨st, rfl, h2.resolve_left (Nat.lt_irrefl 0)⟩
  | succ n ih =>
    intro st h0 h1 h2
    obtain ⟨st1, hb, hi, hj⟩ := hI n st h0 h1
    unfold loop
    rw [hb, Res.bind_ok]
    split
    · exact ⟨st1, rfl, hj⟩
    next hne =>
      have hn : st1.out.stop = .kNone := by
        by_cases h : st1.out.stop = .kNone
        · exact h
        · exact absurd h hne
      cases n with
      | zero => exact ⟨st1, rfl, hj⟩
      | succ n => exact ih hn (hi hn (Nat.succ_pos n)) (Or.inl (Nat.succ_pos n))

theorem loopBound_pos {mi m : Int} (hm : loopBound o mi = some m) : 0 < m.toNat := by
  unfold loopBound at hm
  simp only at hm
  have h1 : (0 : Int) ≤ (if mi < 0 then (o.maxIters : Int) else mi) := by split <;> omega
  generalize (if mi < 0 then (o.maxIters : Int) else mi) = k at hm h1
  have h2 : ∀ a : Int, (if a + 1 > intMax then none else some a) = some m → a = m := by
    intro a h
    by_cases h3 : a + 1 > intMax
    · rw [if_pos h3] at h; cases h
    · rw [if_neg h3] at h; exact Option.some.inj h
  have h3 := h2 _ hm
  split at h3 <;> omega

theorem run_works_left {I : Nat → LoopSt F R W S X V M → Prop} {J : LoopSt F R W S X V M → Prop} {fuel : Nat}
    (hI : ∀ n st, st.out.stop = .kNone → I (n + 1) st →
      ∃ st', body E o fuel (n == 0) st = .ok st' ∧ (st'.out.stop = .kNone → 0 < n → I n st') ∧ J st')
    {mi m : Int} {w : W} {s : S} {x : X} (hm : loopBound o mi = some m) (h0 : I m.toNat (initSt E w s x)) :
    ∃ st st0, optimizeAcc E o fuel mi w s x = .ok st ∧ J st0 ∧ st.x = st0.x ∧ st.trace = st0.trace ∧ st.s = st0.s := by
  obtain ⟨st0, e, hj⟩ := loop_works_left hI (n := m.toNat) (st := initSt E w s x) rfl h0 (Or.inl (loopBound_pos hm))
  unfold optimizeAcc
  rw [hm]
  simp only
  rw [e, Res.bind_ok]
  exact ⟨_, st0, rfl, hj, rfl, rfl, rfl⟩

/-- the same with the stop reason of the run -/
theorem run_works_out {I : Nat → LoopSt F R W S X V M → Prop} {J : LoopSt F R W S X V M → Prop} {fuel : Nat}
    (hI : ∀ n st, st.out.stop = .kNone → I (n + 1) st →
      ∃ st', body E o fuel (n == 0) st = .ok st' ∧ (st'.out.stop = .kNone → 0 < n → I n st') ∧ J st')
    {mi m : Int} {w : W} {s : S} {x : X} (hm : loopBound o mi = some m) (h0 : I m.toNat (initSt E w s x)) :
    ∃ st st0, optimizeAcc E o fuel mi w s x = .ok st ∧ J st0 ∧ st.x = st0.x ∧ st.trace = st0.trace ∧ st.s = st0.s ∧
      (st0.out.stop = .kNone → (st0.trace.length : Int) = m) ∧
      st.out.stop = if st0.out.stop = .kNone ∧ (st0.out.numIters : Int) ≥ m then .kMaxIters else st0.out.stop := by
  obtain ⟨st0, e, hj⟩ := loop_works_left hI (n := m.toNat) (st := initSt E w s x) rfl h0 (Or.inl (loopBound_pos hm))
  have hl := loop_length (st := initSt E w s x) rfl e
  have hp := loopBound_pos hm
  simp only [initSt, List.length_nil] at hl
  unfold optimizeAcc
  rw [hm]
  simp only
  rw [e, Res.bind_ok]
  refine ⟨_, st0, rfl, hj, rfl, rfl, rfl, fun h => ?_, by simp only [Bool.and_eq_true, decide_eq_true_eq]⟩
  have := hl.2.1 h
  omega

end
end Verif
