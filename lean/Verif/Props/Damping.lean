import Verif.Num.FlSign
import Verif.Num.Ieee
import Verif.Num.Real
import Verif.Lemmas.Sim
import Verif.Lemmas.Solvers
import Verif.Examples.Solver1
/-!
# C20, C21, C24: the Levenberg-Marquardt damping
-/

set_option linter.unusedSectionVars false

namespace Verif
open FloatOps

/-- the calls that change the damping -/
inductive LmOp (F : Type) where
  | good (quality : F)
  | bad
  | failed

section
variable {F R W X : Type} [FloatOps F]

/-- one call -/
def LmOp.run (so : SolverOpts F) (s : LMState F R) : LmOp F → Res (LMState F R)
  | .good q => lmGood so s q
  | .bad => lmBad so s
  | .failed => lmBad so s

/-- a sequence of calls -/
def runOps (so : SolverOpts F) : List (LmOp F) → LMState F R → Res (LMState F R)
  | [], s => .ok s
  | op :: ops, s => (op.run so s).bind (runOps so ops)

/-- `lo ≤ l ≤ hi`, not NaN -/
def InRange (so : SolverOpts F) (l : F) : Prop :=
  lt l so.dampLo = false ∧ lt so.dampHi l = false ∧ isNaN l = false

end

/-! ### C20 in floating point arithmetic -/

section
variable {f : Fmt} {R W X : Type}

/-- positive finite factors and a non-empty positive finite range -/
structure DampOpts (so : SolverOpts (Fl f)) : Prop where
  lo : Fl.FinPos so.dampLo
  hi : finite so.dampHi = true
  range : lt so.dampHi so.dampLo = false
  good : Fl.FinPos so.goodFactor
  bad : Fl.FinPos so.badFactor

theorem stdClamp_range {so : SolverOpts (Fl f)} (ho : DampOpts so) {v : Fl f} (hv : Fl.NonNeg v) :
    ∃ l, stdClamp v so.dampLo so.dampHi = .ok l ∧ InRange so l ∧ Fl.FinPos l := by
  obtain ⟨a, ha, ela, ha0⟩ := ho.lo
  obtain ⟨b, hb, elb⟩ := (Fl.finite_iff _).1 ho.hi
  have hr := ho.range
  have hab : a ≤ b := by rw [ela, elb] at hr; simpa [FloatOps.lt, Fl.lt] using hr
  unfold stdClamp InRange
  rw [hr, ela, elb]
  simp only [Bool.false_eq_true, if_false]
  refine ⟨_, rfl, ?_⟩
  cases v with
  | nan => exact hv.elim
  | ninf => exact hv.elim
  | pinf =>
    have e1 : lt (Fl.pinf : Fl f) (Fl.fin a ha) = false := rfl
    have e2 : lt (Fl.fin b hb) (Fl.pinf : Fl f) = true := rfl
    rw [e1, e2]
    simp only [Bool.false_eq_true, if_false, if_true]
    refine ⟨⟨?_, ?_, rfl⟩, b, hb, rfl, by linarith⟩
    · simpa [FloatOps.lt, Fl.lt] using hab
    · simp [FloatOps.lt, Fl.lt]
  | fin q h =>
    by_cases h1 : q < a
    · have e1 : lt (Fl.fin q h) (Fl.fin a ha) = true := by simpa [FloatOps.lt, Fl.lt] using h1
      rw [e1]
      refine ⟨⟨?_, ?_, rfl⟩, a, ha, rfl, ha0⟩
      · simp [FloatOps.lt, Fl.lt]
      · simpa [FloatOps.lt, Fl.lt] using hab
    · have e1 : lt (Fl.fin q h) (Fl.fin a ha) = false := by simpa [FloatOps.lt, Fl.lt] using h1
      rw [e1]
      simp only [Bool.false_eq_true, if_false]
      by_cases h2 : b < q
      · have e2 : lt (Fl.fin b hb) (Fl.fin q h) = true := by simpa [FloatOps.lt, Fl.lt] using h2
        rw [e2]
        refine ⟨⟨?_, ?_, rfl⟩, b, hb, rfl, by linarith⟩
        · simpa [FloatOps.lt, Fl.lt] using hab
        · simp [FloatOps.lt, Fl.lt]
      · have e2 : lt (Fl.fin b hb) (Fl.fin q h) = false := by simpa [FloatOps.lt, Fl.lt] using h2
        rw [e2]
        refine ⟨⟨?_, ?_, rfl⟩, q, h, rfl, by linarith [not_lt.mp h1]⟩
        · simpa [FloatOps.lt, Fl.lt] using h1
        · simpa [FloatOps.lt, Fl.lt] using h2

theorem goodScale_nonNeg (h2 : Fl.HasTwo f) {so : SolverOpts (Fl f)} (ho : DampOpts so) {q badF : Fl f}
    (hq : lt q (ofInt 0) = false) (hb : Fl.NonNeg badF) : Fl.NonNeg (goodScale so q badF) := by
  obtain ⟨g, hg, eg, hg0⟩ := ho.good
  have key : ∀ s : Fl f, Fl.FinPos s → Fl.NonNeg (if ne badF so.badFactor then div s badF else s) := by
    intro s hs
    split
    · exact Fl.div_nonNeg hs hb
    · obtain ⟨a, ha, rfl, ha0⟩ := hs; exact ha0.le
  unfold goodScale
  apply key
  split
  · simp only
    split
    next hlt =>
      have hne := Fl.quality_bounded h2 hq
      generalize (sub (ofInt 1) (cube (sub (mul (ofInt 2) q) (ofInt 1))) : Fl f) = t at hlt hne
      rw [eg] at hlt
      cases t with
      | nan => cases hlt
      | ninf => cases hlt
      | pinf => exact absurd rfl hne
      | fin t ht =>
        refine ⟨t, ht, rfl, ?_⟩
        have : g < t := by simpa [FloatOps.lt, Fl.lt] using hlt
        linarith
    · exact ho.good
  · exact ho.good

/-- a state that the damping operations can reach -/
def DampInv (s : LMState (Fl f) R) : Prop := Fl.FinPos s.lambda ∧ Fl.NonNeg s.badF

theorem lmGood_range (h2 : Fl.HasTwo f) {so : SolverOpts (Fl f)} (ho : DampOpts so) {s : LMState (Fl f) R}
    (hs : DampInv s) {q : Fl f} (hq : lt q (ofInt 0) = false) :
    ∃ s', lmGood so s q = .ok s' ∧ InRange so s'.lambda ∧ DampInv s' := by
  obtain ⟨l, e, hr, hp⟩ := stdClamp_range ho (Fl.mul_nonNeg hs.1 (goodScale_nonNeg h2 ho hq hs.2))
  refine ⟨{ s with prev := s.lambda, lambda := l, badF := so.badFactor }, ?_, hr, hp, ?_⟩
  · have e' : stdClamp (mul s.lambda (goodScale so q s.badF)) so.dampLo so.dampHi = .ok l := e
    unfold lmGood; rw [e']; rfl
  · obtain ⟨b, hb, eb, hb0⟩ := ho.bad
    show Fl.NonNeg so.badFactor
    rw [eb]; exact hb0.le

theorem lmBad_range {so : SolverOpts (Fl f)} (ho : DampOpts so) {s : LMState (Fl f) R}
    (hs : DampInv s) : ∃ s', lmBad so s = .ok s' ∧ InRange so s'.lambda ∧ DampInv s' := by
  obtain ⟨l, e, hr, hp⟩ := stdClamp_range ho (Fl.mul_nonNeg hs.1 hs.2)
  refine ⟨{ s with prev := s.lambda, lambda := l, badF := mul s.badF so.badFactor }, ?_, hr, hp, ?_⟩
  · have e' : stdClamp (mul s.lambda s.badF) so.dampLo so.dampHi = .ok l := e
    unfold lmBad; rw [e']; rfl
  · exact Fl.NonNeg.mul_pos hs.2 ho.bad

/-- **C20**. In floating point arithmetic (any rounding, with overflow), from a new or reset solver
with positive `damping_init`, after any sequence of good, bad and failed steps with qualities that
are not negative (NaN included): the operations are defined, the damping is positive, and as soon as
one operation was made it is inside `damping_range`. -/
theorem C20_damping_in_range (h2 : Fl.HasTwo f) {so : SolverOpts (Fl f)} (ho : DampOpts so)
    (hi : Fl.FinPos so.dampInit) (ops : List (LmOp (Fl f)))
    (hq : ∀ q, LmOp.good q ∈ ops → lt q (ofInt 0) = false) (s0 : LMState (Fl f) R) :
    ∃ s', runOps so ops (lmReset so s0) = .ok s' ∧ lt (ofInt 0) s'.lambda = true ∧
      (ops ≠ [] → InRange so s'.lambda) := by
  have gen : ∀ (ops : List (LmOp (Fl f))) (s : LMState (Fl f) R),
      (∀ q, LmOp.good q ∈ ops → lt q (ofInt 0) = false) → DampInv s →
      ∃ s', runOps so ops s = .ok s' ∧ DampInv s' ∧ (ops ≠ [] → InRange so s'.lambda) := by
    intro ops
    induction ops with
    | nil => intro s _ hs; exact ⟨s, rfl, hs, fun h => absurd rfl h⟩
    | cons op ops ih =>
      intro s hq hs
      have h1 : ∃ s', op.run so s = .ok s' ∧ InRange so s'.lambda ∧ DampInv s' := by
        cases op with
        | good q => exact lmGood_range h2 ho hs (hq q (List.mem_cons_self ..))
        | bad => exact lmBad_range ho hs
        | failed => exact lmBad_range ho hs
      obtain ⟨s1, e1, hr1, hs1⟩ := h1
      obtain ⟨s2, e2, hs2, hr2⟩ := ih s1 (fun q h => hq q (List.mem_cons_of_mem _ h)) hs1
      refine ⟨s2, by simp [runOps, e1, e2], hs2, fun _ => ?_⟩
      cases ops with
      | nil =>
        injection e2 with e2; subst e2; exact hr1
      | cons _ _ => exact hr2 (by simp)
  have h0 : DampInv (lmReset so s0) := by
    obtain ⟨b, hb, eb, hb0⟩ := ho.bad
    refine ⟨hi, ?_⟩
    show Fl.NonNeg so.badFactor
    rw [eb]; exact hb0.le
  obtain ⟨s', e, hs, hr⟩ := gen ops _ hq h0
  exact ⟨s', e, (Fl.lt_zero_iff _).2 (Or.inr hs.1), hr⟩

/-- the qualities computed by the optimizer are not negative -/
theorem quality_not_neg (he : 0 ≤ f.epsq) {q : Fl f} (h : Quality q) : lt q (ofInt 0) = false := by
  rcases h with rfl | ⟨fi, err, rfl, hlt⟩
  · rw [Fl.ofInt_zero]; simp [FloatOps.lt, Fl.lt]
  · unfold relDerr
    split
    next hc =>
      rw [Bool.and_eq_true] at hc
      apply Fl.NonNeg.not_lt
      have heps : Fl.NonNeg (eps : Fl f) := Fl.mk_nonNeg he
      have hfi : Fl.FinPos fi := by
        cases fi with
        | nan => cases hc.2
        | pinf => cases hc.2
        | ninf => revert hc; cases (eps : Fl f) <;> intro hc <;> cases hc.1
        | fin q h =>
          refine ⟨q, h, rfl, ?_⟩
          revert hc heps
          cases (eps : Fl f) with
          | nan => intro _ hc; cases hc.1
          | pinf => intro _ hc; cases hc.1
          | ninf => intro h _; exact h.elim
          | fin e he =>
            intro h0 hc
            have h0 : 0 ≤ e := h0
            have : e < q := by simpa [FloatOps.lt, Fl.lt] using hc.1
            linarith
      refine Fl.NonNeg.div_pos ?_ hfi
      obtain ⟨a, ha, rfl, ha0⟩ := hfi
      cases err with
      | nan => cases hlt
      | pinf => rw [Fl.ofInt_zero] at hlt; cases hlt
      | ninf => trivial
      | fin b hb =>
        have hs := FloatLaws.sub_neg (Fl.fin b hb) (Fl.fin a ha) rfl rfl
        rw [hs] at hlt
        have : b < a := by simpa [FloatOps.lt, Fl.lt] using hlt
        exact Fl.mk_nonNeg (by linarith)
    · rw [Fl.ofInt_zero]; simp [FloatOps.lt, Fl.lt]

/-- **C20** for whole runs: at the end of every Levenberg-Marquardt run on a new or reset object the
damping is positive and it is `damping_init` (no step was judged) or in the range. -/
theorem C20_run (h2 : Fl.HasTwo f) (he : 0 ≤ f.epsq) {so : SolverOpts (Fl f)} (ho : DampOpts so)
    (hi : Fl.FinPos so.dampInit) {L : LinAlg (Fl f)} {P : Problem (Fl f) R W X}
    {o : Options (Fl f) W (DVec (Fl f))} {fuel : Nat} {mi : Int} {w : W} {x : X} {s0 : LMState (Fl f) R} {st}
    (h : optimizeAcc (lmEnv so L P) o fuel mi w (lmReset so s0) x = .ok st) :
    lt (ofInt 0) st.s.lambda = true ∧ (st.s.lambda = so.dampInit ∨ InRange so st.s.lambda) := by
  have inv : SolInv (lmEnv so L P) (fun s => DampInv s ∧ (s.lambda = so.dampInit ∨ InRange so s.lambda)) :=
    { resize := fun w s d s' w' h e => by obtain ⟨g, -, rfl⟩ := lmResize_spec e; exact h
      build := fun w s x b s' w' h e => by
        obtain ⟨e1, e2, e3, e4⟩ := lmBuild_damping e
        unfold DampInv at h ⊢
        rw [e1, e3]; exact h
      good := fun s q s' h hq e => by
        obtain ⟨s1, e1, hr, hd⟩ := lmGood_range h2 ho h.1 (quality_not_neg he hq)
        have e' : lmGood so s q = .ok s' := e
        rw [e1] at e'; injection e' with e'; subst e'; exact ⟨hd, Or.inr hr⟩
      bad := fun s s' h e => by
        obtain ⟨s1, e1, hr, hd⟩ := lmBad_range ho h.1
        have e' : lmBad so s = .ok s' := e
        rw [e1] at e'; injection e' with e'; subst e'; exact ⟨hd, Or.inr hr⟩
      failed := fun s s' h e => by
        obtain ⟨s1, e1, hr, hd⟩ := lmBad_range ho h.1
        have e' : lmBad so s = .ok s' := e
        rw [e1] at e'; injection e' with e'; subst e'; exact ⟨hd, Or.inr hr⟩
      rebuild := fun s b h => h }
  have h0 : DampInv (lmReset so s0) := by
    obtain ⟨b, hb, eb, hb0⟩ := ho.bad
    refine ⟨hi, ?_⟩
    show Fl.NonNeg so.badFactor
    rw [eb]; exact hb0.le
  obtain ⟨h1, h3⟩ := run_solinv inv ⟨h0, Or.inl rfl⟩ h
  exact ⟨(Fl.lt_zero_iff _).2 (Or.inr h1.1), h3⟩

end

/-! ### C21, C24 in exact arithmetic -/

section
variable {R : Type}

theorem stdClamp_real {v lo hi : ℝ} (h : lo ≤ hi) : stdClamp v lo hi = .ok (max lo (min v hi)) := by
  unfold stdClamp
  rw [if_neg (by simpa using h)]
  congr 1
  by_cases h1 : v < lo
  · rw [if_pos (by simpa using h1), min_eq_left (by linarith), max_eq_left h1.le]
  · rw [if_neg (by simpa using h1)]
    have h1 := not_lt.mp h1
    by_cases h2 : hi < v
    · rw [if_pos (by simpa using h2), min_eq_right h2.le, max_eq_right h]
    · rw [if_neg (by simpa using h2), min_eq_left (not_lt.mp h2), max_eq_right h1]

/-- the exponent of the `k`-th bad step -/
theorem tri_succ (k : ℕ) : (k + 1) * (k + 1 + 1) / 2 = k * (k + 1) / 2 + (k + 1) := by
  have : (k + 1) * (k + 1 + 1) = k * (k + 1) + (k + 1) * 2 := by ring
  rw [this, Nat.add_mul_div_right _ _ (by norm_num)]

theorem bad_steps (so : SolverOpts ℝ) (hr : so.dampLo ≤ so.dampHi) (l0 : ℝ) (h0 : 0 ≤ l0)
    (hl : so.dampLo ≤ l0) (hh : l0 ≤ so.dampHi) (hb : 1 ≤ so.badFactor) (k : ℕ) : ∀ (j : ℕ) (s : LMState ℝ R),
    s.badF = so.badFactor ^ (j + 1) → s.lambda = min (l0 * so.badFactor ^ (j * (j + 1) / 2)) so.dampHi →
    ∃ s', runOps so (List.replicate k .bad) s = .ok s' ∧ s'.badF = so.badFactor ^ (j + k + 1) ∧
      s'.lambda = min (l0 * so.badFactor ^ ((j + k) * (j + k + 1) / 2)) so.dampHi := by
  induction k with
  | zero => intro j s h1 h2; exact ⟨s, rfl, h1, h2⟩
  | succ k ih =>
    intro j s h1 h2
    have hbj : 1 ≤ so.badFactor ^ (j + 1) := one_le_pow₀ hb
    have e : lmBad so s = .ok { s with prev := s.lambda, lambda := min (l0 * so.badFactor ^ ((j + 1) * (j + 1 + 1) / 2)) so.dampHi, badF := so.badFactor ^ (j + 1 + 1) } := by
      unfold lmBad
      simp only [RealOps.mul_eq]
      rw [stdClamp_real hr, h1, h2]
      have ht := tri_succ j
      have hv : max so.dampLo (min (min (l0 * so.badFactor ^ (j * (j + 1) / 2)) so.dampHi * so.badFactor ^ (j + 1)) so.dampHi)
          = min (l0 * so.badFactor ^ ((j + 1) * (j + 1 + 1) / 2)) so.dampHi := by
        rw [ht, pow_add so.badFactor (j * (j + 1) / 2) (j + 1), ← mul_assoc]
        have hp : 1 ≤ so.badFactor ^ (j * (j + 1) / 2) := one_le_pow₀ hb
        have hA : l0 ≤ l0 * so.badFactor ^ (j * (j + 1) / 2) := le_mul_of_one_le_right h0 hp
        have hAc := le_mul_of_one_le_right (h0.trans hA) hbj
        have hhc := le_mul_of_one_le_right (h0.trans hh) hbj
        rcases le_total (l0 * so.badFactor ^ (j * (j + 1) / 2)) so.dampHi with h | h
        · rw [min_eq_left h]
          exact max_eq_right (le_min (by linarith) hr)
        · rw [min_eq_right h, min_eq_right hhc, min_eq_right (h.trans hAc)]
          exact max_eq_right hr
      rw [hv]
      rfl
    obtain ⟨s', e', hb', hl'⟩ := ih (j + 1)
      { s with prev := s.lambda, lambda := min (l0 * so.badFactor ^ ((j + 1) * (j + 1 + 1) / 2)) so.dampHi, badF := so.badFactor ^ (j + 1 + 1) } rfl rfl
    refine ⟨s', ?_, ?_, ?_⟩
    · rw [List.replicate_succ]
      show (lmBad so s).bind _ = _
      rw [e]; exact e'
    · rw [hb']; congr 1; omega
    · rw [hl', show j + 1 + k = j + (k + 1) by omega]

/-- **C21**. From a damping `l0` in the range, `k` consecutive rejected (or failed) steps give the
damping `min (l0 * b^(k(k+1)/2)) hi`. -/
theorem C21_bad_steps (so : SolverOpts ℝ) (s : LMState ℝ R) (hr : so.dampLo ≤ so.dampHi) (h0 : 0 ≤ s.lambda)
    (hl : so.dampLo ≤ s.lambda) (hh : s.lambda ≤ so.dampHi) (hb : 1 ≤ so.badFactor)
    (hs : s.badF = so.badFactor) (k : ℕ) :
    ∃ s', runOps so (List.replicate k .bad) s = .ok s' ∧
      s'.lambda = min (s.lambda * so.badFactor ^ (k * (k + 1) / 2)) so.dampHi := by
  obtain ⟨s', e, -, h⟩ := bad_steps so hr s.lambda h0 hl hh hb k 0 s (by simpa using hs) (by simpa using hh)
  exact ⟨s', e, by simpa using h⟩

/-- **C21** (monotonicity): any bad step, whatever happened before, does not decrease the damping. -/
theorem C21_bad_step_monotone (so : SolverOpts ℝ) (s s' : LMState ℝ R)
    (h0 : 0 ≤ s.lambda) (hh : s.lambda ≤ so.dampHi) (hb : 1 ≤ s.badF)
    (h : lmBad so s = .ok s') : s.lambda ≤ s'.lambda := by
  obtain ⟨l, hl, rfl⟩ := lmBad_spec h
  have hr : so.dampLo ≤ so.dampHi := by
    by_contra hc
    unfold stdClamp at hl
    rw [if_pos (by simpa using hc)] at hl
    cases hl
  rw [stdClamp_real hr] at hl
  injection hl with hl
  simp only
  rw [← hl, RealOps.mul_eq]
  exact le_max_of_le_right (le_min (le_mul_of_one_le_right h0 hb) hh)

/-- **C21** (the maximum is reached): with `bad_factor > 1` and a positive damping, after finitely
many consecutive bad steps the damping is the maximum and stays there. -/
theorem C21_reaches_max (so : SolverOpts ℝ) (s : LMState ℝ R) (hr : so.dampLo ≤ so.dampHi) (h0 : 0 < s.lambda)
    (hl : so.dampLo ≤ s.lambda) (hh : s.lambda ≤ so.dampHi) (hb : 1 < so.badFactor)
    (hs : s.badF = so.badFactor) :
    ∃ K, ∀ k ≥ K, ∃ s', runOps so (List.replicate k .bad) s = .ok s' ∧ s'.lambda = so.dampHi := by
  obtain ⟨K, hK⟩ := pow_unbounded_of_one_lt (so.dampHi / s.lambda) hb
  refine ⟨K, fun k hk => ?_⟩
  obtain ⟨s', e, h⟩ := C21_bad_steps so s hr h0.le hl hh hb.le hs k
  refine ⟨s', e, ?_⟩
  rw [h]
  apply min_eq_right
  rw [div_lt_iff₀ h0] at hK
  have hle : K ≤ k * (k + 1) / 2 := by
    refine hk.trans ?_
    rw [Nat.le_div_iff_mul_le (by norm_num)]
    rcases Nat.eq_zero_or_pos k with rfl | h
    · simp
    · nlinarith
  have := pow_le_pow_right₀ hb.le hle
  nlinarith

/-- **C21** (good steps): a good step that does not follow a bad one multiplies the damping by
`good_factor`, clamped to the range. -/
theorem C21_good_after_good (so : SolverOpts ℝ) (s s1 s2 : LMState ℝ R) (q : ℝ)
    (h1 : lmGood so s q = .ok s1) (h2 : lmGood so s1 0 = .ok s2) :
    s2.lambda = max so.dampLo (min (s1.lambda * so.goodFactor) so.dampHi) := by
  obtain ⟨l, hl, rfl⟩ := lmGood_spec h1
  obtain ⟨l2, hl2, rfl⟩ := lmGood_spec h2
  have hr : so.dampLo ≤ so.dampHi := by
    by_contra hc
    unfold stdClamp at hl
    rw [if_pos (by simpa using hc)] at hl
    cases hl
  rw [stdClamp_real hr] at hl2
  injection hl2 with hl2
  rw [← hl2]
  simp [goodScale, ne]

/-- **C24 is violated**, for every number `k ≥ 1` of rejected steps: when nothing is clamped, the last
rejected step multiplied the damping by `b^k`, but the accepted step after it divides by `b^(k+1)`
(and multiplies by `good_factor`). -/
theorem C24_reverts_too_much (so : SolverOpts ℝ) (s : LMState ℝ R) (k : ℕ) (h0 : 0 < s.lambda)
    (hl : so.dampLo ≤ s.lambda) (hb : 1 < so.badFactor) (hs : s.badF = so.badFactor) (hg : 0 < so.goodFactor)
    (hhi : s.lambda * so.badFactor ^ ((k + 1) * (k + 2) / 2) ≤ so.dampHi)
    (hg1 : so.dampLo ≤ s.lambda * so.badFactor ^ ((k + 1) * (k + 2) / 2) * (so.goodFactor / so.badFactor ^ (k + 2)))
    (hg2 : s.lambda * so.badFactor ^ ((k + 1) * (k + 2) / 2) * (so.goodFactor / so.badFactor ^ (k + 2)) ≤ so.dampHi) :
    ∃ s1 s2 s3, runOps so (List.replicate k .bad) s = .ok s1 ∧ lmBad so s1 = .ok s2 ∧ lmGood so s2 0 = .ok s3 ∧
      s2.lambda = s1.lambda * so.badFactor ^ (k + 1) ∧
      s3.lambda = s2.lambda / so.badFactor ^ (k + 2) * so.goodFactor ∧
      s3.lambda ≠ s2.lambda / so.badFactor ^ (k + 1) * so.goodFactor := by
  have hb0 : 0 < so.badFactor := by linarith
  have ht : (k + 1) * (k + 2) / 2 = k * (k + 1) / 2 + (k + 1) := tri_succ k
  have hp : 1 ≤ so.badFactor ^ (k * (k + 1) / 2) := one_le_pow₀ hb.le
  have hp1 : 1 ≤ so.badFactor ^ (k + 1) := one_le_pow₀ hb.le
  have hA : s.lambda ≤ s.lambda * so.badFactor ^ (k * (k + 1) / 2) := le_mul_of_one_le_right h0.le hp
  have hB : s.lambda * so.badFactor ^ (k * (k + 1) / 2) ≤ s.lambda * so.badFactor ^ ((k + 1) * (k + 2) / 2) := by
    rw [ht, pow_add, ← mul_assoc]
    exact le_mul_of_one_le_right (h0.le.trans hA) hp1
  have hr : so.dampLo ≤ so.dampHi := by linarith
  obtain ⟨s1, e1, b1, l1⟩ := bad_steps so hr s.lambda h0.le hl (by linarith) hb.le k 0 s (by simpa using hs)
    (by simp; linarith)
  simp only [Nat.zero_add] at b1 l1
  rw [min_eq_left (hB.trans hhi)] at l1
  have l2 : max so.dampLo (min (s1.lambda * s1.badF) so.dampHi) =
      s.lambda * so.badFactor ^ ((k + 1) * (k + 2) / 2) := by
    have e : s1.lambda * s1.badF = s.lambda * so.badFactor ^ ((k + 1) * (k + 2) / 2) := by
      rw [l1, b1, ht, pow_add so.badFactor (k * (k + 1) / 2) (k + 1), mul_assoc]
    rw [e, min_eq_left hhi]
    exact max_eq_right (by linarith)
  have e2 : lmBad so s1 = .ok { s1 with prev := s1.lambda, lambda := s.lambda * so.badFactor ^ ((k + 1) * (k + 2) / 2), badF := so.badFactor ^ (k + 2) } := by
    unfold lmBad
    simp only [RealOps.mul_eq]
    rw [stdClamp_real hr, l2, b1]
    rfl
  have hne : so.badFactor ^ (k + 2) ≠ so.badFactor := by
    intro h
    have h3 : so.badFactor * 1 < so.badFactor * so.badFactor ^ (k + 1) :=
      mul_lt_mul_of_pos_left (one_lt_pow₀ hb (by omega)) hb0
    have h4 : so.badFactor * so.badFactor ^ (k + 1) = so.badFactor ^ (k + 2) := by ring
    linarith
  have e3 : lmGood so { s1 with prev := s1.lambda, lambda := s.lambda * so.badFactor ^ ((k + 1) * (k + 2) / 2), badF := so.badFactor ^ (k + 2) } 0 =
      .ok { s1 with prev := s.lambda * so.badFactor ^ ((k + 1) * (k + 2) / 2), lambda := s.lambda * so.badFactor ^ ((k + 1) * (k + 2) / 2) * (so.goodFactor / so.badFactor ^ (k + 2)), badF := so.badFactor } := by
    unfold lmGood
    have : goodScale so (0 : ℝ) (so.badFactor ^ (k + 2)) = so.goodFactor / so.badFactor ^ (k + 2) := by
      simp [goodScale, ne, hne]
    simp only [RealOps.mul_eq]
    rw [this, stdClamp_real hr, min_eq_left hg2, max_eq_right hg1]
    rfl
  refine ⟨s1, _, _, e1, e2, e3, ?_, ?_, ?_⟩
  · simp only; rw [l1, ht, pow_add so.badFactor (k * (k + 1) / 2) (k + 1), mul_assoc]
  · simp only; ring
  · simp only
    intro h
    have hpos : 0 < s.lambda * so.badFactor ^ ((k + 1) * (k + 2) / 2) := by positivity
    have hq : so.goodFactor / so.badFactor ^ (k + 2) = so.goodFactor / so.badFactor ^ (k + 1) := by
      have : s.lambda * so.badFactor ^ ((k + 1) * (k + 2) / 2) * (so.goodFactor / so.badFactor ^ (k + 2)) =
        s.lambda * so.badFactor ^ ((k + 1) * (k + 2) / 2) * (so.goodFactor / so.badFactor ^ (k + 1)) := by
          rw [h]; ring
      exact mul_left_cancel₀ hpos.ne' this
    rw [div_eq_div_iff (by positivity) (by positivity)] at hq
    have h5 := mul_left_cancel₀ hg.ne' hq
    have h6 : so.badFactor ^ (k + 2) = so.badFactor ^ (k + 1) * so.badFactor := by ring
    have h7 : so.badFactor ^ (k + 1) < so.badFactor ^ (k + 1) * so.badFactor :=
      lt_mul_of_one_lt_right (by positivity) hb
    linarith

/-- **C24** (what holds, with clamping and any growth of the factor): a good step right after a bad one
reverts at least the scaling of the bad step and applies `good_factor`, but for the lower end of the range;
it divides by at most one factor `bad_factor` too many; and `bad_factor` is used afresh afterwards.
Missing: equality, see `C24_reverts_too_much`. -/
theorem C24_reverts_partial (so : SolverOpts ℝ) (s s2 s3 : LMState ℝ R) (h0 : 0 ≤ s.lambda) (hF : 1 ≤ s.badF)
    (hb : 1 ≤ so.badFactor) (hg : 0 ≤ so.goodFactor) (hg1 : so.goodFactor ≤ 1) (hlo : 0 ≤ so.dampLo)
    (h1 : lmBad so s = .ok s2) (h2 : lmGood so s2 0 = .ok s3) :
    s3.lambda ≤ max so.dampLo (s.lambda * so.goodFactor) ∧
    (s.lambda * s.badF ≤ so.dampHi → min so.dampHi (s.lambda * so.goodFactor / so.badFactor) ≤ s3.lambda) ∧
    s3.badF = so.badFactor ∧ s3.prev = s2.lambda := by
  obtain ⟨l, hl, rfl⟩ := lmBad_spec h1
  obtain ⟨l2, hl2, rfl⟩ := lmGood_spec h2
  have hr : so.dampLo ≤ so.dampHi := by
    by_contra hc
    unfold stdClamp at hl
    rw [if_pos (by simpa using hc)] at hl
    cases hl
  rw [stdClamp_real hr] at hl hl2
  injection hl with hl
  injection hl2 with hl2
  simp only [RealOps.mul_eq] at hl hl2 ⊢
  have hd : 1 ≤ s.badF * so.badFactor := one_le_mul_of_one_le_of_one_le hF hb
  have hd0 : 0 < s.badF * so.badFactor := by linarith
  have hs : ∃ k, goodScale so (0 : ℝ) (s.badF * so.badFactor) = k ∧ so.goodFactor / (s.badF * so.badFactor) ≤ k ∧
      k * s.badF ≤ so.goodFactor := by
    refine ⟨_, rfl, ?_⟩
    have hdiv : so.goodFactor / (s.badF * so.badFactor) ≤ so.goodFactor := div_le_self hg hd
    by_cases hc : s.badF * so.badFactor = so.badFactor
    · have h1 : s.badF = 1 := by
        have : (s.badF - 1) * so.badFactor = 0 := by linarith
        rcases mul_eq_zero.mp this with h | h <;> linarith
      simp [goodScale, ne, h1]
      exact div_le_self hg hb
    · have e : goodScale so (0 : ℝ) (s.badF * so.badFactor) = so.goodFactor / (s.badF * so.badFactor) := by
        have : eq (s.badF * so.badFactor) so.badFactor = false := by rw [RealOps.eq_eq_false]; exact hc
        simp only [goodScale, ne, this]
        simp
      rw [e]
      refine ⟨le_refl _, ?_⟩
      rw [div_mul_eq_mul_div, div_le_iff₀ hd0]
      have : so.goodFactor * s.badF * 1 ≤ so.goodFactor * s.badF * so.badFactor :=
        mul_le_mul_of_nonneg_left hb (mul_nonneg hg (by linarith))
      linarith
  obtain ⟨k, hk, hk1, hk2⟩ := hs
  have hk0 : 0 ≤ k := le_trans (div_nonneg hg hd0.le) hk1
  have hkk : k ≤ 1 := by nlinarith
  rw [hk] at hl2
  refine ⟨?_, fun hhi => ?_, trivial, trivial⟩
  · rw [← hl2, ← hl]
    refine max_le (le_max_left _ _) (le_trans (min_le_left _ _) ?_)
    have : max so.dampLo (min (s.lambda * s.badF) so.dampHi) ≤ max so.dampLo (s.lambda * s.badF) :=
      max_le_max_left _ (min_le_left _ _)
    refine le_trans (mul_le_mul_of_nonneg_right this hk0) ?_
    rw [max_mul_of_nonneg _ _ hk0]
    refine max_le_max ?_ ?_
    · exact mul_le_of_le_one_right hlo hkk
    · calc s.lambda * s.badF * k = s.lambda * (k * s.badF) := by ring
        _ ≤ _ := mul_le_mul_of_nonneg_left hk2 h0
  · rw [← hl2, ← hl, min_eq_left hhi]
    have h3 : s.lambda * so.goodFactor / so.badFactor ≤ max so.dampLo (s.lambda * s.badF) * k := by
      have h4 : s.lambda * so.goodFactor / so.badFactor = s.lambda * s.badF * (so.goodFactor / (s.badF * so.badFactor)) := by
        have : s.badF ≠ 0 := by linarith
        have : so.badFactor ≠ 0 := by linarith
        field_simp
      rw [h4]
      exact mul_le_mul (le_max_right _ _) hk1 (div_nonneg hg hd0.le) (le_trans hlo (le_max_left _ _))
    refine le_trans ?_ (le_max_right _ _)
    rw [min_comm]
    exact min_le_min_right _ h3

/-! ### C57: the step quality -/

theorem cube_anti {q q' : ℝ} (h : q ≤ q') : 1 - (2 * q' - 1) ^ 3 ≤ 1 - (2 * q - 1) ^ 3 := by
  have : (2 * q - 1) ^ 3 ≤ (2 * q' - 1) ^ 3 := by
    have h3 : Odd 3 := by decide
    exact h3.strictMono_pow.monotone (by linarith)
  linarith

theorem goodScale_quality (so : SolverOpts ℝ) {q : ℝ} (hq : q ≠ 0) (b : ℝ) :
    goodScale so q b = max so.goodFactor (1 - (2 * q - 1) ^ 3) / (if b = so.badFactor then 1 else b) := by
  have hm : (if so.goodFactor < 1 - (2 * q - 1) ^ 3 then 1 - (2 * q - 1) ^ 3 else so.goodFactor) =
      max so.goodFactor (1 - (2 * q - 1) ^ 3) := by
    split
    next h => rw [max_eq_right h.le]
    next h => rw [max_eq_left (not_lt.mp h)]
  rw [← hm]
  have hc : cube (2 * q - 1) = (2 * q - 1) ^ 3 := by simp only [cube]
  by_cases hb : b = so.badFactor <;> simp [goodScale, ne, hq, hb, hc]

/-- **C57**, the value: a good step of quality `q ≠ 0` not preceded by a bad one multiplies the damping
by `max(good_factor, 1 - (2q-1)^3)`, clamped to the range; quality 1 gives `good_factor`. -/
theorem C57_value (so : SolverOpts ℝ) (s s1 : LMState ℝ R) (q : ℝ) (hq : q ≠ 0) (hb : s.badF = so.badFactor)
    (h : lmGood so s q = .ok s1) :
    s1.lambda = max so.dampLo (min (s.lambda * max so.goodFactor (1 - (2 * q - 1) ^ 3)) so.dampHi) ∧
    (q = 1 → 0 ≤ so.goodFactor → s1.lambda = max so.dampLo (min (s.lambda * so.goodFactor) so.dampHi)) := by
  obtain ⟨l, hl, rfl⟩ := lmGood_spec h
  have hr : so.dampLo ≤ so.dampHi := by
    by_contra hc
    unfold stdClamp at hl
    rw [if_pos (by simpa using hc)] at hl
    cases hl
  rw [stdClamp_real hr, goodScale_quality so hq, hb, if_pos rfl, div_one] at hl
  injection hl with hl
  refine ⟨hl.symm, fun h1 hg => ?_⟩
  subst h1
  rw [max_eq_left (a := so.goodFactor) (by norm_num; exact hg)] at hl
  exact hl.symm

/-- **C57** (partial): of two good steps from the same state the one of better quality leaves at most as
much damping, and the damping is never more than doubled. Missing: quality 0 (`C57_zero_quality`). -/
theorem C57_better_is_lower_partial (so : SolverOpts ℝ) (s s1 s2 : LMState ℝ R) (q q' : ℝ) (hq : 0 < q) (hqq : q ≤ q')
    (h0 : 0 ≤ s.lambda) (hb : 0 < s.badF) (h1 : lmGood so s q = .ok s1) (h2 : lmGood so s q' = .ok s2) :
    s2.lambda ≤ s1.lambda ∧ (1 ≤ s.badF → so.goodFactor ≤ 2 → s1.lambda ≤ max so.dampLo (2 * s.lambda)) := by
  obtain ⟨l1, hl1, rfl⟩ := lmGood_spec h1
  obtain ⟨l2, hl2, rfl⟩ := lmGood_spec h2
  have hr : so.dampLo ≤ so.dampHi := by
    by_contra hc
    unfold stdClamp at hl1
    rw [if_pos (by simpa using hc)] at hl1
    cases hl1
  have hd : (0 : ℝ) < if s.badF = so.badFactor then 1 else s.badF := by split <;> linarith
  rw [stdClamp_real hr, goodScale_quality so hq.ne'] at hl1
  rw [stdClamp_real hr, goodScale_quality so (by linarith : q' ≠ 0)] at hl2
  injection hl1 with hl1
  injection hl2 with hl2
  simp only [RealOps.mul_eq] at hl1 hl2 ⊢
  rw [← hl1, ← hl2]
  refine ⟨max_le_max_left _ (min_le_min_right _ (mul_le_mul_of_nonneg_left ?_ h0)), fun hb1 hg => ?_⟩
  · exact div_le_div_of_nonneg_right (max_le_max_left _ (cube_anti hqq)) hd.le
  · refine max_le_max_left _ (le_trans (min_le_left _ _) ?_)
    have h3 : max so.goodFactor (1 - (2 * q - 1) ^ 3) ≤ 2 := by
      refine max_le hg ?_
      have := cube_anti hq.le
      norm_num at this
      linarith
    have h4 : max so.goodFactor (1 - (2 * q - 1) ^ 3) / (if s.badF = so.badFactor then 1 else s.badF) ≤ 2 := by
      rw [div_le_iff₀ hd]
      have : (1 : ℝ) ≤ if s.badF = so.badFactor then 1 else s.badF := by split <;> linarith
      linarith
    calc s.lambda * _ ≤ s.lambda * 2 := mul_le_mul_of_nonneg_left h4 h0
      _ = _ := mul_comm _ _

/-- **C57 is violated by quality 0**: a relative decrease of exactly 0 means "no quality" and lowers the
damping like a perfect step; quality 1/2 leaves more damping. -/
theorem C57_zero_quality (so : SolverOpts ℝ) (s : LMState ℝ R) (hb : s.badF = so.badFactor) (hg : so.goodFactor < 1)
    (h0 : 0 < s.lambda) (hlo : so.dampLo < s.lambda) (hhi : s.lambda ≤ so.dampHi) :
    ∃ s1 s2, lmGood so s 0 = .ok s1 ∧ lmGood so s (1 / 2) = .ok s2 ∧ s1.lambda < s2.lambda := by
  have hr : so.dampLo ≤ so.dampHi := by linarith
  have e1 : goodScale so (0 : ℝ) s.badF = so.goodFactor := by simp [goodScale, ne, hb]
  have e2 : goodScale so (1 / 2 : ℝ) s.badF = 1 := by
    rw [goodScale_quality so (by norm_num), if_pos hb]
    norm_num
    exact hg.le
  refine ⟨{ s with prev := s.lambda, lambda := max so.dampLo (min (s.lambda * so.goodFactor) so.dampHi), badF := so.badFactor },
    { s with prev := s.lambda, lambda := s.lambda, badF := so.badFactor }, ?_, ?_, ?_⟩
  · unfold lmGood
    simp only [RealOps.mul_eq]
    rw [e1, stdClamp_real hr]; rfl
  · unfold lmGood
    simp only [RealOps.mul_eq]
    rw [e2, stdClamp_real hr, mul_one, min_eq_left hhi, max_eq_right hlo.le]; rfl
  · simp only
    refine max_lt hlo (lt_of_le_of_lt (min_le_left _ _) ?_)
    nlinarith

end

/-! ### Non-vacuity -/

theorem hasTwo_exact : Fl.HasTwo Fmt.exact :=
  ⟨trivial, trivial, le_self_pow₀ (by norm_num : (1 : ℚ) ≤ 2) (by norm_num : 1024 ≠ 0)⟩

theorem hasTwo_binary64 : Fl.HasTwo Fmt.binary64 := by
  refine ⟨⟨1, 0, by norm_num, by norm_num, by norm_num⟩, ⟨2, 0, by norm_num, by norm_num, by norm_num⟩, ?_⟩
  show (2 : ℚ) ≤ ((2 ^ 53 - 1 : ℤ) : ℚ) * 2 ^ (-(-1074 : ℤ) - 2 * ((53 : ℕ) : ℤ) + 3)
  have h1 : (1 : ℚ) ≤ 2 ^ (-(-1074 : ℤ) - 2 * ((53 : ℕ) : ℤ) + 3) := one_le_zpow₀ (by norm_num) (by norm_num)
  have h2 : (2 : ℚ) ≤ ((2 ^ 53 - 1 : ℤ) : ℚ) := by norm_num
  nlinarith

/-- decision procedure for `FinPos` -/
def Fl.isFinPos {f : Fmt} : Fl f → Bool
  | .fin q _ => decide (0 < q)
  | _ => false

theorem Fl.finPos_of {f : Fmt} {a : Fl f} (h : a.isFinPos = true) : Fl.FinPos a := by
  cases a with
  | fin q hq => exact ⟨q, hq, rfl, by simpa [Fl.isFinPos] using h⟩
  | _ => cases h

/-- the default options satisfy the hypotheses of C20, in exact arithmetic ... -/
theorem dampOpts_sopts1 : DampOpts sopts1 where
  lo := Fl.finPos_of (by decide +kernel)
  hi := by decide +kernel
  range := by decide +kernel
  good := Fl.finPos_of (by decide +kernel)
  bad := Fl.finPos_of (by decide +kernel)

/-- the default options of Levenberg-Marquardt in double precision -/
def sopts64 : SolverOpts (Fl Fmt.binary64) where
  useSquaredNorm := true
  downscaleBy2 := false
  normalize := false
  gradClip := ofInt 0
  useLdlt := true
  hIsFull := true
  checkMinHDiag := ofInt 0
  dampInit := div (ofInt 1) (ofInt 10000)
  dampLo := div (ofInt 1) (ofInt 1000000000)
  dampHi := ofInt 1000000000
  goodFactor := div (ofInt 1) (ofInt 3)
  badFactor := ofInt 2
  lr := ofInt 1

/-- ... and in IEEE double precision. -/
theorem dampOpts_sopts64 : DampOpts sopts64 where
  lo := Fl.finPos_of (by decide +kernel)
  hi := by decide +kernel
  range := by decide +kernel
  good := Fl.finPos_of (by decide +kernel)
  bad := Fl.finPos_of (by decide +kernel)

/-- C20 applied: 2000 rejected steps (enough for `bad_factor_` to overflow to infinity), a good step
of quality 1/2, a failure, in double precision. -/
example (s0 : LMState (Fl Fmt.binary64) (Fl Fmt.binary64)) :
    ∃ s', runOps sopts64 (List.replicate 2000 .bad ++ [.good half, .failed]) (lmReset sopts64 s0) = .ok s' ∧
      InRange sopts64 s'.lambda := by
  obtain ⟨s', h, -, hr⟩ := C20_damping_in_range hasTwo_binary64 dampOpts_sopts64
    (Fl.finPos_of (by decide +kernel)) (List.replicate 2000 .bad ++ [.good half, .failed])
    (fun q hq => by
      simp only [List.mem_append, List.mem_replicate, List.mem_cons, reduceCtorEq, and_false, LmOp.good.injEq,
        List.not_mem_nil, or_false, false_or] at hq
      subst hq; decide +kernel) s0
  exact ⟨s', h, hr (List.append_ne_nil_of_right_ne_nil _ (List.cons_ne_nil _ _))⟩

/-- `C24_reverts_too_much` applies with default-like factors (three rejected steps). -/
example : ∃ (so : SolverOpts ℝ) (s : LMState ℝ ℝ), 0 < s.lambda ∧ so.dampLo ≤ s.lambda ∧ 1 < so.badFactor ∧
    s.badF = so.badFactor ∧ 0 < so.goodFactor ∧
    s.lambda * so.badFactor ^ ((2 + 1) * (2 + 2) / 2) ≤ so.dampHi ∧
    so.dampLo ≤ s.lambda * so.badFactor ^ ((2 + 1) * (2 + 2) / 2) * (so.goodFactor / so.badFactor ^ (2 + 2)) ∧
    s.lambda * so.badFactor ^ ((2 + 1) * (2 + 2) / 2) * (so.goodFactor / so.badFactor ^ (2 + 2)) ≤ so.dampHi := by
  refine ⟨⟨true, false, false, 0, true, true, 0, 1 / 10000, 1 / 1000000000, 1000000000, 1 / 3, 2, 1⟩,
    ⟨⟨0, nofun, nofun, ⟨0, 0, 0, ""⟩⟩, 1 / 10000, 0, 2, true⟩, ?_⟩
  norm_num

/-- `C24_reverts_partial` and the theorems of C57 apply to every state with the default factors. -/
example : ∃ (so : SolverOpts ℝ) (s s2 s3 s4 s5 : LMState ℝ ℝ), 0 < s.lambda ∧ 1 ≤ s.badF ∧ 1 ≤ so.badFactor ∧
    0 ≤ so.goodFactor ∧ so.goodFactor < 1 ∧ 0 ≤ so.dampLo ∧ so.dampLo < s.lambda ∧ s.lambda ≤ so.dampHi ∧ s.badF = so.badFactor ∧
    lmBad so s = .ok s2 ∧ lmGood so s2 0 = .ok s3 ∧ lmGood so s (1 / 4) = .ok s4 ∧ lmGood so s 1 = .ok s5 := by
  refine ⟨⟨true, false, false, 0, true, true, 0, 1 / 10000, 1 / 1000000000, 1000000000, 1 / 3, 2, 1⟩,
    ⟨⟨0, nofun, nofun, ⟨0, 0, 0, ""⟩⟩, 1 / 10000, 0, 2, true⟩, ?_⟩
  have hr : (1 / 1000000000 : ℝ) ≤ 1000000000 := by norm_num
  simp only [lmBad, lmGood]
  simp only [stdClamp_real hr]
  refine ⟨_, _, _, _, by norm_num, by norm_num, by norm_num, by norm_num, by norm_num, by norm_num, by norm_num,
    by norm_num, by norm_num, rfl, rfl, rfl, rfl⟩

end Verif
