import Verif.Lemmas.NumDiffFl
import Verif.Props.NumDiffProps
import Verif.Props.SoftmaxFloat
import Verif.Num.FlSign
import Verif.Examples.Toy
/-!
# C78: numerical differentiation in floating point
-/

set_option linter.unusedSectionVars false

namespace Verif
open FloatOps Loss

/-- Over the real numbers the model is the one of C35. -/
theorem numEvalF_real {X : Type} {n m : Nat} (plus : X → RVec n → X) (f : X → RVec m) (x : X) (method : Method) (h : ℝ) (J0 : RMat m n) :
    (numEvalF plus f x method h J0).2 = estimateNumJac plus f x method h J0 := by
  have eu : ∀ (r : Fin n) (t : ℝ), unitF r t = unit r t := by
    intro r t; funext i
    simp only [unitF, unit, Pi.single_apply]
    split
    · rfl
    · exact Int.cast_zero
  funext i r
  refine (numEvalF_spec plus f x method h J0 i r).trans ?_
  rw [(numEval_spec plus f x method h J0).2.1]
  cases method with
  | forward => simp only [quotF, Method.quotient, eu]; rfl
  | central =>
    simp only [quotF, Method.quotient, eu]
    show _ / (((2 : Int) : ℝ) * h) = _
    push_cast; rfl
  | fastCentral =>
    simp only [quotF, Method.quotient, eu]
    show (_ - f (plus _ (unit r (((-2 : Int) : ℝ) * h))) i) / (((2 : Int) : ℝ) * h) = _
    push_cast; rfl

section
variable {p : ℕ} {hp : p ≠ 0} {emin : ℤ} {hem : emin ≤ -emin - 2 * p + 3} {ep : ℚ}

theorem ieee_hasTwo (h2 : 2 * (p : ℤ) ≤ -emin) : Fl.HasTwo (Fmt.ieee p hp emin hem ep) := by
  have h1 : (2 : ℕ) ≤ 2 ^ p := by
    calc 2 = 2 ^ 1 := rfl
      _ ≤ 2 ^ p := Nat.pow_le_pow_right (by norm_num) (Nat.one_le_iff_ne_zero.mpr hp)
  refine ⟨?_, ?_, ?_⟩
  · have := natGrid (p := p) (emin := emin) hp (by omega) (k := 1) (by omega)
    show GridBin p emin 1
    simpa using this
  · have := natGrid (p := p) (emin := emin) hp (by omega) (k := 2) h1
    show GridBin p emin 2
    simpa using this
  · refine le_trans ?_ (two_pow_le_max hp h2)
    exact_mod_cast h1

/-- doubling a positive number gives a number other than zero or infinity -/
theorem Fl.zero_div_double (h2 : 2 * (p : ℤ) ≤ -emin) {h : Fl (Fmt.ieee p hp emin hem ep)} {d : ℚ} {hd} (eh : h = .fin d hd) (hd0 : 0 < d) :
    FloatOps.div (ofInt 0) (FloatOps.mul (ofInt 2) h) = ofInt 0 := by
  obtain ⟨hz, ez⟩ := Fl.ofInt_zero' (f := Fmt.ieee p hp emin hem ep)
  subst eh
  rw [(ieee_hasTwo h2).two]
  have e : FloatOps.mul (Fl.fin 2 ⟨(ieee_hasTwo h2).2.1, by rw [abs_of_pos (by norm_num)]; exact (ieee_hasTwo h2).2.2⟩) (.fin d hd) =
      (Fl.mk (2 * d) : Fl (Fmt.ieee p hp emin hem ep)) := rfl
  rw [e]
  have hr : (Fmt.ieee p hp emin hem ep).rnd (2 * d) ≠ 0 := by
    have h1 : rndBin p emin d ≤ rndBin p emin (2 * d) := rndBin_mono hp (by linarith)
    rw [rndBin_id hd.1] at h1
    show rndBin p emin (2 * d) ≠ 0
    linarith [h1, hd0]
  unfold Fl.mk Fl.ofGrid
  split
  · exact Fl.zero_div' rfl hr
  · split
    · rw [ez]; exact Fl.mk_zero.trans ez
    · rw [ez]; exact Fl.mk_zero.trans ez

/-- `2^k < |x_i|`, finite -/
def Beyond (k : ℤ) (a : Fl (Fmt.ieee p hp emin hem ep)) : Prop := ∃ q h, a = .fin q h ∧ 2 ^ k < |q|

theorem Beyond.finite {k : ℤ} {a : Fl (Fmt.ieee p hp emin hem ep)} (h : Beyond k a) : finite a = true := by
  obtain ⟨q, hq, rfl, -⟩ := h
  rw [Fl.finite_iff]
  exact ⟨q, hq, rfl⟩

theorem vplusF_absorb {k : ℤ} (hk : emin ≤ k) {n : Nat} {x : Vec (Fl (Fmt.ieee p hp emin hem ep)) n} (hx : ∀ i, finite (x i) = true) {r : Fin n}
    (hr : Beyond k (x r)) {t : Fl (Fmt.ieee p hp emin hem ep)} {d : ℚ} {hd} (et : t = .fin d hd) (hdk : |d| < 2 ^ (k - p)) :
    vplusF x (unitF r t) = x := by
  funext i
  unfold vplusF unitF
  by_cases hi : i = r
  · subst hi
    rw [if_pos rfl]
    obtain ⟨q, hq, e, hqk⟩ := hr
    exact Fl.add_absorb hk e et hqk hdk
  · rw [if_neg hi]
    exact Fl.add_zero_finite (hx i)

/-- **C78**, negative part, every binary format of precision `p`: when a parameter is larger than `2^k` with the step below `2^(k - p)` (half a unit in the last
place of the parameter), its column of the Jacobian is zero, for every function. `fastCentral` moves by twice the step the second time. -/
theorem C78_column_vanishes (h2 : 2 * (p : ℤ) ≤ -emin) {k : ℤ} (hk : emin ≤ k) {n m : Nat} {x : Vec (Fl (Fmt.ieee p hp emin hem ep)) n}
    (hx : ∀ i, finite (x i) = true) {r : Fin n} (hr : Beyond k (x r)) {h : Fl (Fmt.ieee p hp emin hem ep)} {d : ℚ} {hd} (eh : h = .fin d hd) (hd0 : 0 < d)
    {method : Method} (hdk : (if method = .fastCentral then 2 * d else d) < 2 ^ (k - p))
    (f : Vec (Fl (Fmt.ieee p hp emin hem ep)) n → Vec (Fl (Fmt.ieee p hp emin hem ep)) m) {i : Fin m} (hf : finite (f x i) = true)
    (J0 : JMat (Fl (Fmt.ieee p hp emin hem ep)) m n) : (numEvalF vplusF f x method h J0).2 i r = ofInt 0 := by
  have hdk1 : |d| < 2 ^ (k - p) := by
    rw [abs_of_pos hd0]
    split at hdk
    · linarith
    · exact hdk
  have e1 : vplusF x (unitF r h) = x := vplusF_absorb hk hx hr eh hdk1
  rw [numEvalF_spec]
  cases method with
  | forward =>
    simp only [quotF, e1]
    rw [Fl.sub_self' hf, Fl.zero_div' eh hd0.ne']
  | central =>
    have e2 : vplusF x (unitF r (neg h)) = x := by
      subst eh
      exact vplusF_absorb hk hx hr (t := neg (Fl.fin d hd)) (d := -d) (hd := ⟨Fmt.grid_neg _ hd.1, by rw [abs_neg]; exact hd.2⟩) rfl (by rwa [abs_neg])
    simp only [quotF, e1, e2]
    rw [Fl.sub_self' hf, Fl.zero_div_double h2 eh hd0]
  | fastCentral =>
    rw [if_pos rfl] at hdk
    have hg : GridBin p emin (-2 * d) := by
      obtain ⟨a, e, ha, he, hq⟩ := hd.1
      refine ⟨-a, e + 1, by rwa [abs_neg], by omega, ?_⟩
      rw [hq, zpow_add₀ (by norm_num), zpow_one]; push_cast; ring
    have hm2 : (ofInt (-2) : Fl (Fmt.ieee p hp emin hem ep)) = .fin (-2) ⟨Fmt.grid_neg _ (ieee_hasTwo h2).2.1,
        by rw [abs_neg, abs_of_pos (by norm_num)]; exact (ieee_hasTwo h2).2.2⟩ := by
      show Fl.mk (((-2 : ℤ)) : ℚ) = _
      push_cast
      exact Fl.mk_grid _
    -- twice the step does not overflow: it is below the parameter
    have hmax : |(-2 * d : ℚ)| ≤ (Fmt.ieee p hp emin hem ep).max := by
      obtain ⟨q, hq, -, hqk⟩ := hr
      have h3 : (2 : ℚ) ^ (k - p : ℤ) ≤ 2 ^ k := zpow_le_zpow_right₀ (by norm_num) (by omega)
      have h4 := hq.2
      have h5 : |(-2 * d : ℚ)| = 2 * d := by rw [abs_mul, abs_of_pos hd0]; norm_num
      rw [h5]; linarith
    have e3 : vplusF x (unitF r (mul (ofInt (-2)) h)) = x := by
      subst eh
      have e : FloatOps.mul (ofInt (-2)) (Fl.fin d hd) = (Fl.fin (-2 * d) ⟨hg, hmax⟩ : Fl (Fmt.ieee p hp emin hem ep)) := by
        rw [hm2]
        exact Fl.mk_grid (q := -2 * d) ⟨hg, hmax⟩
      refine vplusF_absorb hk hx hr e ?_
      have h5 : |(-2 * d : ℚ)| = 2 * d := by rw [abs_mul, abs_of_pos hd0]; norm_num
      rw [h5]; exact hdk
    simp only [quotF, e1, e3]
    rw [Fl.sub_self' hf, Fl.zero_div_double h2 eh hd0]

end

/-! ### `float` and `double` with the default step -/

theorem eps32 : ∃ h, (eps : Fl Fmt.binary32) = .fin (13743895 / 2 ^ 37) h :=
  ⟨⟨⟨13743895, -37, by norm_num, by norm_num, by norm_num⟩, by
    show |(13743895 / 2 ^ 37 : ℚ)| ≤ (2 ^ 24 - 1 : ℤ) * 2 ^ (-(-149 : ℤ) - 2 * ((24 : ℕ) : ℤ) + 3)
    rw [abs_of_pos (by norm_num)]
    norm_num⟩, Fl.mk_grid _⟩

theorem eps64 : ∃ h, (eps : Fl Fmt.binary64) = .fin (14073749 / 2 ^ 47) h :=
  ⟨⟨⟨14073749, -47, by norm_num, by norm_num, by norm_num⟩, by
    show |(14073749 / 2 ^ 47 : ℚ)| ≤ (2 ^ 53 - 1 : ℤ) * 2 ^ (-(-1074 : ℤ) - 2 * ((53 : ℕ) : ℤ) + 3)
    rw [abs_of_pos (by norm_num)]
    have h1 : (1 : ℚ) ≤ 2 ^ (-(-1074 : ℤ) - 2 * ((53 : ℕ) : ℤ) + 3) := one_le_zpow₀ (by norm_num) (by norm_num)
    have h2 : (1 : ℚ) ≤ ((2 ^ 53 - 1 : ℤ) : ℚ) := by norm_num
    exact le_trans (by norm_num) (one_le_mul_of_one_le_of_one_le h2 h1)⟩, Fl.mk_grid _⟩

/-- **C78**, negative part, `float`: with the default method and step, the derivatives with respect to a parameter of magnitude above 2048 are zero, for every
function that is finite at `x`. -/
theorem C78_float_vanishes {n m : Nat} {x : Vec (Fl Fmt.binary32) n} (hx : ∀ i, finite (x i) = true) {r : Fin n} {q : ℚ} {hq} (hr : x r = .fin q hq)
    (hq2 : 2048 < |q|) (f : Vec (Fl Fmt.binary32) n → Vec (Fl Fmt.binary32) m) {i : Fin m} (hf : finite (f x i) = true) (J0 : JMat (Fl Fmt.binary32) m n) :
    (numEvalF vplusF f x .central eps J0).2 i r = ofInt 0 := by
  obtain ⟨he, e⟩ := eps32
  refine C78_column_vanishes (p := 24) (emin := -149) (k := 11) (by norm_num) (by norm_num) hx ⟨q, hq, hr, by norm_num; exact hq2⟩ e (by norm_num) ?_ f hf J0
  rw [if_neg (by decide)]
  norm_num

/-- **C78**, negative part, `double`: the same above `2^30`. -/
theorem C78_double_vanishes {n m : Nat} {x : Vec (Fl Fmt.binary64) n} (hx : ∀ i, finite (x i) = true) {r : Fin n} {q : ℚ} {hq} (hr : x r = .fin q hq)
    (hq2 : 2 ^ 30 < |q|) (f : Vec (Fl Fmt.binary64) n → Vec (Fl Fmt.binary64) m) {i : Fin m} (hf : finite (f x i) = true) (J0 : JMat (Fl Fmt.binary64) m n) :
    (numEvalF vplusF f x .central eps J0).2 i r = ofInt 0 := by
  obtain ⟨he, e⟩ := eps64
  refine C78_column_vanishes (p := 53) (emin := -1074) (k := 30) (by norm_num) (by norm_num) hx ⟨q, hq, hr, by exact_mod_cast hq2⟩ e (by norm_num) ?_ f hf J0
  rw [if_neg (by decide)]
  norm_num

/-! ### Runs -/

section
variable {F R W S X V M : Type} [FloatOps F]
variable {E : Env F R W S X V M} {o : Options F W V}

/-- A run whose first step is below the limit and does not change `x` stops after it, reports convergence and returns `x`. -/
theorem zero_step_run {w : W} {s s2 : S} {x : X} {dx : V} (hd : Delivers E w s x s2 dx) (hx : E.plusEq x dx = x)
    (hn : lt (ofInt 0) o.minStepNorm2 = true) (hn2 : lt (E.normSq dx) o.minStepNorm2 = true) (ht : lt (ofInt 0) o.maxDurationMs = false)
    {mi b : Int} (hb : loopBound o mi = some b) (fuel : Nat) :
    ∃ st, optimizeAcc E o (fuel + 1) mi w s x = .ok st ∧ st.x = x ∧ st.trace.length = 1 ∧ st.out.converged = true ∧ st.out.finalCost = E.sol.cost s2 := by
  have key : ∀ last, ∃ st', body E o (fuel + 1) last (initSt E w s x) = .ok st' ∧ st'.x = x ∧ st'.trace.length = 1 ∧ st'.out.converged = true ∧
      st'.out.finalCost = E.sol.cost s2 := by
    intro last
    obtain ⟨st', succ, mdx, s3, e, hw⟩ := body_works (o := o) (st := initSt E w s x) (fuel := fuel) (last := last) hd (by
      simp [initSt, Output.init])
    refine ⟨st', e, ?_⟩
    obtain ⟨succ', mdx', w1, s1, out1, ms, -, hs⟩ := body_spec' e
    obtain ⟨r, hr, -, -, hrd, hrs⟩ := hw.trace
    rw [hs.trace] at hr
    have hr := List.append_cancel_left hr
    simp only [List.cons.injEq, and_true] at hr
    subst hr
    simp only at hrd hrs
    subst hrd hrs
    have hmdx : mdx' = some dx := by
      rcases hw.isMdx with h | ⟨-, -, h, -⟩
      · exact h
      · exact absurd h (by simp [initSt, Output.init])
    subst hmdx
    have hxx : st'.x = x := by
      have hu := hs.upd
      generalize st'.x = y, st'.lastDx = ld, st'.lastSucc = ls at hu
      cases hu with
      | succ _ => exact hx
      | roll d _ h => cases h
      | adv _ h => exact hx
    have hlen : st'.trace.length = 1 := by rw [hs.trace]; rfl
    have hfc : st'.out.finalCost = E.sol.cost s2 := by
      rw [hw.finalCost]
      simp [initSt, Output.init]
    refine ⟨hxx, hlen, ?_, hfc⟩
    have hstop : out1.stop = .kMinError ∨ out1.stop = .kMinRelError ∨ out1.stop = .kMinDeltaNorm := by
      cases hs.step with
      | good w2 s2' _ c a b g s3 w3 r ev hc hdd hg hgi hs3 hcr =>
        unfold criteria at hcr
        simp only [hn, hn2, Bool.and_self, if_true] at hcr
        split at hcr
        · obtain ⟨rfl, -⟩ := Prod.mk.inj hcr; exact Or.inl rfl
        · split at hcr
          · obtain ⟨rfl, -⟩ := Prod.mk.inj hcr; exact Or.inr (Or.inl rfl)
          · obtain ⟨rfl, -⟩ := Prod.mk.inj hcr; exact Or.inr (Or.inr rfl)
      | bad w2 s2' _ c a b s3 w3 r ev hc hdd hg hi => exact absurd rfl hi
    have : st'.out.stop = out1.stop := by
      rw [hs.out]; simp [timeStop, ht]
    unfold Output.converged
    rw [this]
    rcases hstop with h | h | h <;> rw [h] <;> decide
  have hne : ∀ {st : LoopSt F R W S X V M}, st.out.converged = true → st.out.stop ≠ .kNone := by
    intro st h h0
    unfold Output.converged at h
    rw [h0] at h
    revert h; decide
  obtain ⟨st, st0, e, -⟩ := run_works (E := E) (o := o) (fuel := fuel + 1) (I := fun st => st = initSt E w s x) (J := fun _ => True)
    (fun last st _ hst => by
      subst hst
      obtain ⟨st', e, -, -, hc, -⟩ := key last
      exact ⟨st', e, fun h => absurd h (hne hc), trivial⟩) hb rfl
  refine ⟨st, e, ?_⟩
  obtain ⟨m, st1, -, hj, -, ⟨-, -, hlen⟩, hst⟩ := run_inv (E := E) (o := o) (fuel := fuel + 1) (I := fun st => st = initSt E w s x)
    (J := fun st' => st' = initSt E w s x ∨ (st'.x = x ∧ st'.trace.length = 1 ∧ st'.out.converged = true ∧ st'.out.finalCost = E.sol.cost s2))
    (fun last st st' _ hst hbody => by
      subst hst
      obtain ⟨st'', e', h1, h2, h3, h4⟩ := key last
      rw [hbody] at e'
      injection e' with e'
      subst e'
      exact ⟨fun h => absurd h (hne h3), Or.inr ⟨h1, h2, h3, h4⟩⟩) rfl (Or.inl rfl) e
  rcases hj with rfl | ⟨h1, h2, h3, h4⟩
  · exact absurd hlen (by simp [initSt])
  · have hstop := hne h3
    rw [hst]
    refine ⟨h1, h2, ?_, h4⟩
    unfold Output.converged at h3 ⊢
    simp only [hstop, false_and, if_false]
    exact h3

end

section
variable {p : ℕ} {hp : p ≠ 0} {emin : ℤ} {hem : emin ≤ -emin - 2 * p + 3} {ep : ℚ}
variable {R W : Type} {n m : Nat} {f : Vec (Fl (Fmt.ieee p hp emin hem ep)) n → Vec (Fl (Fmt.ieee p hp emin hem ep)) m}
variable {J0 : JMat (Fl (Fmt.ieee p hp emin hem ep)) m n} {ratio1 : R} {clock : W → Fl (Fmt.ieee p hp emin hem ep) × W}
variable {alloc : W → (k : Nat) → Option (Vec (Fl (Fmt.ieee p hp emin hem ep)) k × Mat (Fl (Fmt.ieee p hp emin hem ep)) k) × W}
variable {so : SolverOpts (Fl (Fmt.ieee p hp emin hem ep))} {x : Vec (Fl (Fmt.ieee p hp emin hem ep)) n} {k : ℤ}

/-- The start: all parameters are larger than `2^k`, where the default step is below half a unit in the last place; the residuals and the cost are finite. -/
structure FarStart (so : SolverOpts (Fl (Fmt.ieee p hp emin hem ep))) (f : Vec (Fl (Fmt.ieee p hp emin hem ep)) n → Vec (Fl (Fmt.ieee p hp emin hem ep)) m)
    (ratio1 : R) (x : Vec (Fl (Fmt.ieee p hp emin hem ep)) n) (k : ℤ) : Prop where
  two : 2 * (p : ℤ) ≤ -emin
  range : emin ≤ k
  step : ∃ d h, (eps : Fl (Fmt.ieee p hp emin hem ep)) = .fin d h ∧ 0 < d ∧ d < 2 ^ (k - p)
  beyond : ∀ i, Beyond k (x i)
  res : ∀ i, finite (f x i) = true
  cost : finite (normalizeCost so (numCostF ratio1 (f x))).cost = true
  valid : (normalizeCost so (numCostF ratio1 (f x))).isValid = true

theorem FarStart.jac (h : FarStart so f ratio1 x k) (i : Fin m) (r : Fin n) : (numEvalF vplusF f x .central eps J0).2 i r = ofInt 0 := by
  obtain ⟨d, hd, e, h0, h1⟩ := h.step
  exact C78_column_vanishes h.two h.range (fun i => (h.beyond i).finite) (h.beyond r) e h0 (method := .central) (by rw [if_neg (by decide)]; exact h1) f (h.res i) J0

theorem FarStart.acc (h : FarStart so f ratio1 x k) (w : W) :
    (numDiffProb f J0 ratio1 clock alloc).acc.full w x n (fun _ => ofInt 0) (fun _ _ => ofInt 0) =
      ((numCostF ratio1 (f x), fun _ => ofInt 0, fun _ _ => ofInt 0), w) := by
  have hg : ∀ r, numGradF (numEvalF vplusF f x .central eps J0).2 (f x) r = ofInt 0 := by
    intro r
    unfold numGradF
    exact sumF_zero _ fun i => by rw [h.jac]; exact Fl.mul_zero_left (h.res i)
  have hH : ∀ r c, numHessF (numEvalF vplusF f x .central eps J0).2 r c = ofInt 0 := by
    intro r c
    unfold numHessF
    exact sumF_zero _ fun i => by rw [h.jac]; exact Fl.mul_zero_left (by rw [h.jac]; exact Fl.zero_finite)
  simp only [numDiffProb, Prod.mk.injEq, and_true, true_and]
  refine ⟨?_, ?_⟩
  · funext i
    rw [dif_pos i.2, hg]
  · funext i j
    rw [dif_pos ⟨i.2, j.2⟩, hH]

/-- clipping leaves a zero gradient alone -/
theorem clampVec_zero {fm : Fmt} {n : Nat} {c : Fl fm} (hc : lt c (ofInt 0) = false) : clampVec c (fun _ : Fin n => (ofInt 0 : Fl fm)) = fun _ => ofInt 0 := by
  obtain ⟨hz, ez⟩ := Fl.ofInt_zero' (f := fm)
  unfold clampVec
  split
  · rfl
  · funext i
    unfold clampCoef
    rw [ez] at hc ⊢
    cases c with
    | nan => rfl
    | pinf => rfl
    | ninf => cases hc
    | fin q hq =>
      have h1 : ¬ q < 0 := by simpa [FloatOps.lt, Fl.lt] using hc
      have e1 : lt (Fl.fin 0 hz : Fl fm) (neg (Fl.fin q hq)) = false := by
        show decide ((0 : ℚ) < -q) = false
        simp; linarith
      have e2 : lt (Fl.fin q hq : Fl fm) (Fl.fin 0 hz) = false := by
        show decide (q < 0) = false
        simpa using h1
      simp only [e1, e2, Bool.false_eq_true, if_false]

theorem sqNorm_zero {fm : Fmt} {n : Nat} : sqNorm (fun _ : Fin n => (ofInt 0 : Fl fm)) = ofInt 0 :=
  sumF_zero _ fun _ => Fl.mul_zero_left Fl.zero_finite

theorem FarStart.plus_zero (h : FarStart so f ratio1 x k) : (numDiffProb f J0 ratio1 clock alloc).plusEq x ⟨n, fun _ => ofInt 0⟩ = x := by
  funext i
  simp only [numDiffProb]
  rw [dif_pos i.2]
  exact Fl.add_zero_finite (h.beyond i).finite

/-- **C78**, negative part, runs of Gradient Descent on a function without derivatives: whatever the function, a start with large parameters is returned
unchanged after one iteration, and the output reports convergence. -/
theorem C78_gd_stuck (h : FarStart so f ratio1 x k) (hlr : finite so.lr = true) (hclip : lt so.gradClip (ofInt 0) = false)
    {o : Options (Fl (Fmt.ieee p hp emin hem ep)) W (DVec (Fl (Fmt.ieee p hp emin hem ep)))}
    (hn : lt (ofInt 0) o.minStepNorm2 = true) (ht : lt (ofInt 0) o.maxDurationMs = false) {mi b : Int} (hb : loopBound o mi = some b) (fuel : Nat) (w : W)
    (g : Vec (Fl (Fmt.ieee p hp emin hem ep)) n) (H : Mat (Fl (Fmt.ieee p hp emin hem ep)) n) :
    ∃ st, optimizeAcc (gdEnv so (numDiffProb f J0 ratio1 clock alloc)) o (fuel + 1) mi w (gnFresh (numDiffProb f J0 ratio1 clock alloc) g H) x = .ok st ∧
      st.x = x ∧ st.trace.length = 1 ∧ st.out.converged = true ∧ st.out.finalCost = normalizeCost so (numCostF ratio1 (f x)) := by
  have hacc := h.acc (J0 := J0) (clock := clock) (alloc := alloc) w
  have hneg : finite (neg so.lr) = true := by
    obtain ⟨q, hq, e⟩ := (Fl.finite_iff _).mp hlr
    rw [e, Fl.finite_iff]; exact ⟨_, _, rfl⟩
  have hdel : Delivers (gdEnv so (numDiffProb f J0 ratio1 clock alloc)) w (gnFresh (numDiffProb f J0 ratio1 clock alloc) g H) x
      ⟨n, fun _ => ofInt 0, fun _ _ => ofInt 0, normalizeCost so (numCostF ratio1 (f x))⟩ ⟨n, fun _ => ofInt 0⟩ := by
    refine ⟨⟨gnFresh (numDiffProb f J0 ratio1 clock alloc) g H, w, w, ?_, ?_⟩, ?_, h.cost, ?_, fun q => ⟨_, rfl⟩, ⟨_, rfl⟩⟩
    · simp [resizeIfNeeded, gdEnv, envOf, gdSolver, gnResize, numDiffProb]
    · simp only [gdEnv, envOf, gdSolver, gdBuild, gnAccumulate]
      have e : (gnFresh (numDiffProb f J0 ratio1 clock alloc) g H).n = n := rfl
      rw [show (gnFresh (numDiffProb f J0 ratio1 clock alloc) g H) = ⟨n, g, H, { cost := ofInt 0, num := 0, inlier := ratio1 }⟩ from rfl]
      simp only [hacc, clampVec_zero hclip, h.valid]
    · simp only [gdEnv, envOf, gdSolver, gdSolve, h.valid, if_true]
      congr 2
      funext i
      exact Fl.mul_zero_right hneg
    · show finite (sqNorm _) = true
      rw [sqNorm_zero]; exact Fl.zero_finite
  refine zero_step_run hdel (h.plus_zero (J0 := J0) (clock := clock) (alloc := alloc)) hn ?_ ht hb fuel
  show lt (sqNorm _) _ = true
  rw [sqNorm_zero]; exact hn

/-- the Hessian of the numerical differentiation, and its damping, are zero -/
theorem FarStart.system (h : FarStart so f ratio1 x k) (hclip : lt so.gradClip (ofInt 0) = false) (hdiag : lt (ofInt 0) so.checkMinHDiag = false) (w : W)
    (g : Vec (Fl (Fmt.ieee p hp emin hem ep)) n) (H : Mat (Fl (Fmt.ieee p hp emin hem ep)) n) (c : Cost (Fl (Fmt.ieee p hp emin hem ep)) R) :
    buildSystem so (numDiffProb f J0 ratio1 clock alloc) w ⟨n, g, H, c⟩ x =
      (true, ⟨n, fun _ => ofInt 0, fun _ _ => ofInt 0, normalizeCost so (numCostF ratio1 (f x))⟩, w) := by
  have hacc := h.acc (J0 := J0) (clock := clock) (alloc := alloc) w
  simp only [buildSystem, gnAccumulate, hacc, h.valid, if_true, clampVec_zero hclip, hdiag, Bool.false_and, Bool.false_eq_true, if_false]
  have e : symUpper (fun _ _ : Fin n => (ofInt 0 : Fl (Fmt.ieee p hp emin hem ep))) = fun _ _ => ofInt 0 := by
    funext i j; simp [symUpper]
  split
  · rw [e]
  · rfl

/-- `SolveLDLT` on a zero matrix and a zero right hand side gives zero (Eigen's `LDLT` accepts a positive semi-definite matrix and its `solve` takes the pseudo
inverse of the diagonal) -/
def ZeroSolve {F : Type} [FloatOps F] (L : LinAlg F) (n : Nat) : Prop := L.ldlt n (fun _ _ => ofInt 0) (fun _ => ofInt 0) = some fun _ => ofInt 0

theorem solve_zero {L : LinAlg (Fl (Fmt.ieee p hp emin hem ep))} (hL : ZeroSolve L n) (hld : so.useLdlt = true) {one : Bool}
    {c : Cost (Fl (Fmt.ieee p hp emin hem ep)) R} (hc : c.isValid = true) :
    gnSolve so L one (⟨n, fun _ => ofInt 0, fun _ _ => ofInt 0, c⟩ : GNState _ R) = some ⟨n, fun _ => ofInt 0⟩ := by
  have e1 : symUpper (fun _ _ : Fin n => (ofInt 0 : Fl (Fmt.ieee p hp emin hem ep))) = fun _ _ => ofInt 0 := by
    funext i j; simp [symUpper]
  have e2 : negVec (fun _ : Fin n => (ofInt 0 : Fl (Fmt.ieee p hp emin hem ep))) = fun _ => ofInt 0 := by
    funext i; exact Fl.neg_zero'
  simp only [gnSolve, hc, hld, if_true, solveLDLT, e1, e2]
  rw [show L.ldlt n (fun _ _ => ofInt 0) (fun _ => ofInt 0) = some fun _ => ofInt 0 from hL]
  rfl

/-- **C78**, negative part, runs of Gauss-Newton. -/
theorem C78_gn_stuck (h : FarStart so f ratio1 x k) {L : LinAlg (Fl (Fmt.ieee p hp emin hem ep))} (hL : ZeroSolve L n) (hld : so.useLdlt = true)
    (hclip : lt so.gradClip (ofInt 0) = false) (hdiag : lt (ofInt 0) so.checkMinHDiag = false)
    {o : Options (Fl (Fmt.ieee p hp emin hem ep)) W (DVec (Fl (Fmt.ieee p hp emin hem ep)))}
    (hn : lt (ofInt 0) o.minStepNorm2 = true) (ht : lt (ofInt 0) o.maxDurationMs = false) {mi b : Int} (hb : loopBound o mi = some b) (fuel : Nat) (w : W)
    (g : Vec (Fl (Fmt.ieee p hp emin hem ep)) n) (H : Mat (Fl (Fmt.ieee p hp emin hem ep)) n) :
    ∃ st, optimizeAcc (gnEnv so L (numDiffProb f J0 ratio1 clock alloc)) o (fuel + 1) mi w (gnFresh (numDiffProb f J0 ratio1 clock alloc) g H) x = .ok st ∧
      st.x = x ∧ st.trace.length = 1 ∧ st.out.converged = true ∧ st.out.finalCost = normalizeCost so (numCostF ratio1 (f x)) := by
  have hdel : Delivers (gnEnv so L (numDiffProb f J0 ratio1 clock alloc)) w (gnFresh (numDiffProb f J0 ratio1 clock alloc) g H) x
      ⟨n, fun _ => ofInt 0, fun _ _ => ofInt 0, normalizeCost so (numCostF ratio1 (f x))⟩ ⟨n, fun _ => ofInt 0⟩ := by
    refine ⟨⟨gnFresh (numDiffProb f J0 ratio1 clock alloc) g H, w, w, ?_, ?_⟩, ?_, h.cost, ?_, fun q => ⟨_, rfl⟩, ⟨_, rfl⟩⟩
    · simp [resizeIfNeeded, gnEnv, envOf, gnSolver, gnResize, numDiffProb]
    · exact h.system (J0 := J0) (clock := clock) (alloc := alloc) hclip hdiag w g H _
    · exact solve_zero hL hld h.valid
    · show finite (sqNorm _) = true
      rw [sqNorm_zero]; exact Fl.zero_finite
  refine zero_step_run hdel (h.plus_zero (J0 := J0) (clock := clock) (alloc := alloc)) hn ?_ ht hb fuel
  show lt (sqNorm _) _ = true
  rw [sqNorm_zero]; exact hn

/-- **C78**, negative part, runs of Levenberg-Marquardt. -/
theorem C78_lm_stuck (h : FarStart so f ratio1 x k) {L : LinAlg (Fl (Fmt.ieee p hp emin hem ep))} (hL : ZeroSolve L n) (hld : so.useLdlt = true)
    (hclip : lt so.gradClip (ofInt 0) = false) (hdiag : lt (ofInt 0) so.checkMinHDiag = false) (hdamp : finite (add (ofInt 1) so.dampInit) = true)
    (hrange : lt so.dampHi so.dampLo = false)
    {o : Options (Fl (Fmt.ieee p hp emin hem ep)) W (DVec (Fl (Fmt.ieee p hp emin hem ep)))}
    (hn : lt (ofInt 0) o.minStepNorm2 = true) (ht : lt (ofInt 0) o.maxDurationMs = false) {mi b : Int} (hb : loopBound o mi = some b) (fuel : Nat) (w : W)
    (g : Vec (Fl (Fmt.ieee p hp emin hem ep)) n) (H : Mat (Fl (Fmt.ieee p hp emin hem ep)) n) :
    ∃ st, optimizeAcc (lmEnv so L (numDiffProb f J0 ratio1 clock alloc)) o (fuel + 1) mi w (lmFresh so (numDiffProb f J0 ratio1 clock alloc) g H) x = .ok st ∧
      st.x = x ∧ st.trace.length = 1 ∧ st.out.converged = true ∧ st.out.finalCost = normalizeCost so (numCostF ratio1 (f x)) := by
  have hsys := h.system (J0 := J0) (clock := clock) (alloc := alloc) hclip hdiag w (fun _ => ofInt 0) (fun _ _ => ofInt 0)
    { cost := ofInt 0, num := 0, inlier := ratio1 }
  have hsc : scaleDiag (add (ofInt 1) so.dampInit) (fun _ _ : Fin n => (ofInt 0 : Fl (Fmt.ieee p hp emin hem ep))) = fun _ _ => ofInt 0 := by
    funext i j
    unfold scaleDiag
    split
    · exact Fl.mul_zero_left hdamp
    · rfl
  have hdel : Delivers (lmEnv so L (numDiffProb f J0 ratio1 clock alloc)) w (lmFresh so (numDiffProb f J0 ratio1 clock alloc) g H) x
      ⟨⟨n, fun _ => ofInt 0, fun _ _ => ofInt 0, normalizeCost so (numCostF ratio1 (f x))⟩, so.dampInit, ofInt 0, so.badFactor, true⟩
      ⟨n, fun _ => ofInt 0⟩ := by
    refine ⟨⟨lmFresh so (numDiffProb f J0 ratio1 clock alloc) g H, w, w, ?_, ?_⟩, ?_, h.cost, ?_, ?_, ?_⟩
    · simp [resizeIfNeeded, lmEnv, envOf, lmSolver, gnResize, numDiffProb]
    · have e : (lmFresh so (numDiffProb f J0 ratio1 clock alloc) g H : LMState (Fl (Fmt.ieee p hp emin hem ep)) R) =
          ⟨⟨n, fun _ => ofInt 0, fun _ _ => ofInt 0, { cost := ofInt 0, num := 0, inlier := ratio1 }⟩, so.dampInit, ofInt 0, so.badFactor, true⟩ := rfl
      rw [e]
      simp only [lmEnv, envOf, lmSolver]
      unfold lmBuild
      rw [if_pos rfl, hsys]
      simp only [if_true, lmDamp]
      split
      · simp only [hsc]
      · rfl
    · exact solve_zero hL hld h.valid
    · show finite (sqNorm _) = true
      rw [sqNorm_zero]; exact Fl.zero_finite
    · intro q
      simp only [lmEnv, envOf, lmSolver, lmGood, stdClamp, hrange, Bool.false_eq_true, if_false, Res.map]
      exact ⟨_, rfl⟩
    · simp only [lmEnv, envOf, lmSolver, lmBad, stdClamp, hrange, Bool.false_eq_true, if_false, Res.map]
      exact ⟨_, rfl⟩
  refine zero_step_run hdel (h.plus_zero (J0 := J0) (clock := clock) (alloc := alloc)) hn ?_ ht hb fuel
  show lt (sqNorm _) _ = true
  rw [sqNorm_zero]; exact hn

end

/-! ### The error where the step is not absorbed -/

section
variable {p : ℕ} {hp : p ≠ 0} {emin : ℤ} {hem : emin ≤ -emin - 2 * p + 3} {ep : ℚ}

/-- a sum that does not overflow, and its rounding error -/
theorem Fl.add_val_of {a b : Fl (Fmt.ieee p hp emin hem ep)} {q d : ℚ} {hq hd} (ha : a = .fin q hq) (hb : b = .fin d hd)
    (hm : |q| + |d| ≤ (Fmt.ieee p hp emin hem ep).max) :
    ∃ s hs, FloatOps.add a b = .fin s hs ∧ |s - (q + d)| ≤ (|q| + |d|) / 2 ^ p := by
  subst ha hb
  have hle : |q + d| ≤ (Fmt.ieee p hp emin hem ep).max := (abs_add_le q d).trans hm
  have hr : |(Fmt.ieee p hp emin hem ep).rnd (q + d)| ≤ (Fmt.ieee p hp emin hem ep).max := by
    have h1 := abs_le.mp hle
    have h2 := (Fmt.ieee p hp emin hem ep).rnd_mono _ _ h1.2
    have h3 := (Fmt.ieee p hp emin hem ep).rnd_mono _ _ h1.1
    rw [(Fmt.ieee p hp emin hem ep).rnd_id _ (Fmt.ieee p hp emin hem ep).grid_max] at h2
    rw [(Fmt.ieee p hp emin hem ep).rnd_neg, (Fmt.ieee p hp emin hem ep).rnd_id _ (Fmt.ieee p hp emin hem ep).grid_max] at h3
    exact abs_le.mpr ⟨h3, h2⟩
  refine ⟨(Fmt.ieee p hp emin hem ep).rnd (q + d), ⟨(Fmt.ieee p hp emin hem ep).rnd_grid _, hr⟩, ?_, ?_⟩
  · show Fl.mk (q + d) = _
    unfold Fl.mk Fl.ofGrid
    rw [dif_pos hr]
  · refine (rndBin_add_err hq.1 hd.1).trans ?_
    exact div_le_div_of_nonneg_right (abs_add_le q d) (by positivity)

/-- a finite result of `mk` is the rounded number -/
theorem Fl.mk_fin {q v : ℚ} {hv} (h : (Fl.mk q : Fl (Fmt.ieee p hp emin hem ep)) = .fin v hv) : v = rndBin p emin q := by
  unfold Fl.mk Fl.ofGrid at h
  split at h
  · injection h with h; exact h.symm
  · split at h <;> cases h

/-- a finite difference has finite operands, and its rounding error is relative -/
theorem Fl.sub_fin {a b : Fl (Fmt.ieee p hp emin hem ep)} {v : ℚ} {hv} (h : FloatOps.sub a b = .fin v hv) :
    ∃ α hα β hβ, a = .fin α hα ∧ b = .fin β hβ ∧ |v - (α - β)| ≤ |α - β| / 2 ^ p := by
  cases a <;> cases b <;> try cases h
  rename_i α hα β hβ
  refine ⟨α, hα, β, hβ, rfl, rfl, ?_⟩
  rw [Fl.mk_fin h]
  have := rndBin_add_err hα.1 (gridBin_neg hβ.1)
  rwa [← sub_eq_add_neg] at this

/-- a finite quotient by a finite number other than zero -/
theorem Fl.div_fin {a b : Fl (Fmt.ieee p hp emin hem ep)} {v c : ℚ} {hv hc} (hb : b = .fin c hc) (h0 : c ≠ 0) (h : FloatOps.div a b = .fin v hv) :
    ∃ α hα, a = .fin α hα ∧ |v - α / c| ≤ |α / c| / 2 ^ p + 2 ^ emin / 2 := by
  subst hb
  cases a with
  | nan => cases h
  | pinf =>
    have h : (if c < 0 then Fl.ninf else Fl.pinf) = (Fl.fin v hv : Fl (Fmt.ieee p hp emin hem ep)) := h
    split at h <;> cases h
  | ninf =>
    have h : (if c < 0 then Fl.pinf else Fl.ninf) = (Fl.fin v hv : Fl (Fmt.ieee p hp emin hem ep)) := h
    split at h <;> cases h
  | fin α hα =>
    refine ⟨α, hα, rfl, ?_⟩
    have h : (if c = 0 then Fl.infSign α else Fl.mk (α / c)) = (Fl.fin v hv : Fl (Fmt.ieee p hp emin hem ep)) := h
    rw [if_neg h0] at h
    rw [Fl.mk_fin h]
    exact rndBin_err _

/-- both roundings of a difference quotient -/
theorem Fl.quot_fin {a b h : Fl (Fmt.ieee p hp emin hem ep)} {v c : ℚ} {hv hc} (hh : h = .fin c hc) (h0 : 0 < c)
    (e : FloatOps.div (FloatOps.sub a b) h = .fin v hv) :
    ∃ α hα β hβ, a = .fin α hα ∧ b = .fin β hβ ∧ |v - (α - β) / c| ≤ 3 / 2 ^ p * |(α - β) / c| + 2 ^ emin / 2 := by
  obtain ⟨w, hw, ew, h1⟩ := Fl.div_fin hh h0.ne' e
  obtain ⟨α, hα, β, hβ, ha, hb, h2⟩ := Fl.sub_fin ew
  refine ⟨α, hα, β, hβ, ha, hb, ?_⟩
  have hu : (1 : ℚ) / 2 ^ p ≤ 1 := by
    rw [div_le_one (by positivity)]; exact one_le_pow₀ (by norm_num)
  have hu0 : (0 : ℚ) < 1 / 2 ^ p := by positivity
  set u : ℚ := 1 / 2 ^ p with hudef
  have h3 : |w / c - (α - β) / c| ≤ u * |(α - β) / c| := by
    rw [← sub_div, abs_div, abs_div, abs_of_pos h0, ← mul_div_assoc]
    refine div_le_div_of_nonneg_right ?_ h0.le
    calc _ ≤ _ := h2
      _ = u * |α - β| := by rw [hudef]; ring
  have h4 : |w / c| ≤ (1 + u) * |(α - β) / c| := by
    have : |w / c| ≤ |w / c - (α - β) / c| + |(α - β) / c| := by
      have := abs_add_le (w / c - (α - β) / c) ((α - β) / c)
      rwa [sub_add_cancel] at this
    linarith
  have h5 : |v - (α - β) / c| ≤ |v - w / c| + |w / c - (α - β) / c| := abs_sub_le _ _ _
  have h6 : |w / c| / 2 ^ p = u * |w / c| := by rw [hudef]; ring
  rw [h6] at h1
  have hQ := abs_nonneg ((α - β) / c)
  have h7 : u * |w / c| ≤ u * ((1 + u) * |(α - β) / c|) := mul_le_mul_of_nonneg_left h4 hu0.le
  have h8 : u * ((1 + u) * |(α - β) / c|) ≤ 2 * u * |(α - β) / c| := by
    have := mul_le_mul_of_nonneg_right (mul_le_mul_of_nonneg_left hu hu0.le) hQ
    nlinarith
  have h9 : (3 : ℚ) / 2 ^ p = 3 * u := by rw [hudef]; ring
  rw [h9]
  linarith

theorem vplusF_update {n : Nat} {x : Vec (Fl (Fmt.ieee p hp emin hem ep)) n} (hx : ∀ i, finite (x i) = true) (r : Fin n)
    (t : Fl (Fmt.ieee p hp emin hem ep)) : vplusF x (unitF r t) = Function.update x r (add (x r) t) := by
  funext i
  unfold vplusF unitF Function.update
  by_cases hi : i = r
  · subst hi; simp
  · simp only [hi, if_false, dite_false]
    exact Fl.add_zero_finite (hx i)

/-- a function with derivative bounded by `L` moves by at most `L` times the distance -/
theorem lip_of_deriv {g g1 : ℝ → ℝ} {ρ L : ℝ} (h1 : ∀ t ∈ Set.Icc (-ρ) ρ, HasDerivAt g (g1 t) t) (hL : ∀ t ∈ Set.Icc (-ρ) ρ, |g1 t| ≤ L) {s t : ℝ}
    (hs : s ∈ Set.Icc (-ρ) ρ) (ht : t ∈ Set.Icc (-ρ) ρ) : |g s - g t| ≤ L * |s - t| := by
  have := Convex.norm_image_sub_le_of_norm_hasDerivWithin_le (f := g) (f' := g1) (s := Set.Icc (-ρ) ρ) (C := L)
    (fun t ht => (h1 t ht).hasDerivWithinAt) (fun t ht => hL t ht) (convex_Icc _ _) ht hs
  simpa [Real.norm_eq_abs] using this

/-- **C78**, positive part (`_partial`: the error bound grows with the magnitude of the parameter, and nothing is left of it where the step is absorbed): the
entry of the Jacobian computed by the central method, when it is finite, is within truncation, step and rounding errors of the derivative `g1 0` of the exact
residual `g(t)` along the coordinate. `η = 2^-p (|x_r| + h)` bounds the rounding of `x_r ± h`, `δ` the errors of the user's function, `L` the first and `M` the
third derivative. -/
theorem C78_central_error_partial {n m : Nat} (h2 : 2 * (p : ℤ) ≤ -emin) {x : Vec (Fl (Fmt.ieee p hp emin hem ep)) n} (hx : ∀ i, finite (x i) = true) {r : Fin n} {q d : ℚ} {hq hd}
    (hr : x r = .fin q hq) {h : Fl (Fmt.ieee p hp emin hem ep)} (eh : h = .fin d hd) (hd0 : 0 < d) (hm : |q| + d ≤ (Fmt.ieee p hp emin hem ep).max)
    (hm2 : 2 * d ≤ (Fmt.ieee p hp emin hem ep).max)
    (f : Vec (Fl (Fmt.ieee p hp emin hem ep)) n → Vec (Fl (Fmt.ieee p hp emin hem ep)) m) (i : Fin m) {g g1 g2 g3 : ℝ → ℝ} {L M δ ρ : ℝ}
    (hρ : (d : ℝ) + (|(q : ℝ)| + d) / 2 ^ p ≤ ρ)
    (hf : ∀ (q' : ℚ) hq', |(q' : ℝ) - q| ≤ ρ → ∀ v hv, f (Function.update x r (.fin q' hq')) i = .fin v hv → |(v : ℝ) - g (q' - q)| ≤ δ)
    (h1 : ∀ t ∈ Set.Icc (-ρ) ρ, HasDerivAt g (g1 t) t) (h1b : ∀ t ∈ Set.Icc (-ρ) ρ, |g1 t| ≤ L) (hg2 : ∀ t ∈ Set.Icc (-ρ) ρ, HasDerivAt g1 (g2 t) t)
    (hg3 : ∀ t ∈ Set.Icc (-ρ) ρ, HasDerivAt g2 (g3 t) t) (hM : ∀ t ∈ Set.Icc (-ρ) ρ, |g3 t| ≤ M) (J0 : JMat (Fl (Fmt.ieee p hp emin hem ep)) m n)
    {v : ℚ} {hv} (e : (numEvalF vplusF f x .central h J0).2 i r = .fin v hv) :
    |(v : ℝ) - g1 0| ≤ (1 + 3 / 2 ^ p) * (M * d ^ 2 / 6 + (L * ((|(q : ℝ)| + d) / 2 ^ p) + δ) / d) + 3 / 2 ^ p * |g1 0| + 2 ^ emin / 2 := by
  have hdr : (0 : ℝ) < d := by exact_mod_cast hd0
  have hη : (0 : ℝ) ≤ (|(q : ℝ)| + d) / 2 ^ p := by positivity
  rw [numEvalF_spec] at e
  simp only [quotF, vplusF_update hx] at e
  -- the denominator
  have e2h : ∃ hc, mul (ofInt 2) h = (.fin (2 * d) hc : Fl (Fmt.ieee p hp emin hem ep)) := by
    have hg : GridBin p emin (2 * d) := by
      obtain ⟨a, ex, ha, he, hq⟩ := hd.1
      refine ⟨a, ex + 1, ha, by omega, ?_⟩
      rw [hq, zpow_add₀ (by norm_num), zpow_one]; ring
    have hmx : |2 * d| ≤ (Fmt.ieee p hp emin hem ep).max := by rw [abs_of_pos (by linarith)]; exact hm2
    refine ⟨⟨hg, hmx⟩, ?_⟩
    rw [(ieee_hasTwo h2).two, eh]
    exact Fl.mk_grid (q := 2 * d) ⟨hg, hmx⟩
  obtain ⟨hc, e2h⟩ := e2h
  obtain ⟨α, hα, β, hβ, ea, eb, hquot⟩ := Fl.quot_fin e2h (by linarith) e
  -- the two points
  obtain ⟨s, hs, es, hse⟩ := Fl.add_val_of hr eh (by rw [abs_of_pos hd0]; exact hm)
  have en : neg h = (.fin (-d) ⟨Fmt.grid_neg _ hd.1, by rw [abs_neg]; exact hd.2⟩ : Fl (Fmt.ieee p hp emin hem ep)) := by rw [eh]; rfl
  obtain ⟨t, ht, et, hte⟩ := Fl.add_val_of hr en (by rw [abs_neg, abs_of_pos hd0]; exact hm)
  rw [abs_of_pos hd0] at hse
  rw [abs_neg, abs_of_pos hd0] at hte
  rw [es] at ea
  rw [et] at eb
  have hse' : |((s : ℝ) - q) - d| ≤ (|(q : ℝ)| + d) / 2 ^ p := by
    have : ((|s - (q + d)| : ℚ) : ℝ) ≤ (((|q| + d) / 2 ^ p : ℚ) : ℝ) := by exact_mod_cast hse
    push_cast at this
    rwa [show (s : ℝ) - q - d = s - (q + d) by ring]
  have hte' : |((t : ℝ) - q) - (-d)| ≤ (|(q : ℝ)| + d) / 2 ^ p := by
    have : ((|t - (q + -d)| : ℚ) : ℝ) ≤ (((|q| + d) / 2 ^ p : ℚ) : ℝ) := by exact_mod_cast hte
    push_cast at this
    rwa [show (t : ℝ) - q - -d = t - (q + -d) by ring]
  have hsρ : |(s : ℝ) - q| ≤ ρ := by
    have := abs_add_le ((s : ℝ) - q - d) d
    rw [sub_add_cancel, abs_of_pos hdr] at this
    linarith
  have htρ : |(t : ℝ) - q| ≤ ρ := by
    have := abs_add_le ((t : ℝ) - q - -d) (-d)
    rw [sub_add_cancel, abs_neg, abs_of_pos hdr] at this
    linarith
  have hdρ : (d : ℝ) ≤ ρ := by linarith
  have ha := hf s hs hsρ α hα ea
  have hb := hf t ht htρ β hβ eb
  have hls := lip_of_deriv h1 h1b (abs_le.mp hsρ) (t := (d : ℝ)) ⟨by linarith, hdρ⟩
  have hlt := lip_of_deriv h1 h1b (abs_le.mp htρ) (t := -(d : ℝ)) ⟨by linarith, by linarith⟩
  have hL : 0 ≤ L := (abs_nonneg _).trans (h1b 0 ⟨by linarith, by linarith⟩)
  have sub : ∀ t, t ∈ Set.Icc (-(d : ℝ)) d → t ∈ Set.Icc (-ρ) ρ := fun t ht => ⟨by linarith [ht.1], by linarith [ht.2]⟩
  have hce := central_error hdr (fun t ht => h1 t (sub t ht)) (fun t ht => hg2 t (sub t ht)) (fun t ht => hg3 t (sub t ht)) (fun t ht => hM t (sub t ht))
  -- the exact quotient of the computed values
  set η : ℝ := (|(q : ℝ)| + d) / 2 ^ p
  set D : ℝ := M * d ^ 2 / 6 + (L * η + δ) / d with hD
  have hQ : |((α : ℝ) - β) / (2 * d) - g1 0| ≤ D := by
    have hls' : |g (s - q) - g d| ≤ L * η := hls.trans (mul_le_mul_of_nonneg_left hse' hL)
    have hlt' : |g (t - q) - g (-d)| ≤ L * η := hlt.trans (mul_le_mul_of_nonneg_left hte' hL)
    have hnum : |((α : ℝ) - β) - (g d - g (-d))| ≤ 2 * (L * η + δ) := by
      have e1 : ((α : ℝ) - β) - (g d - g (-d)) = ((α - g (s - q)) - (β - g (t - q))) + ((g (s - q) - g d) - (g (t - q) - g (-d))) := by ring
      rw [e1]
      have a1 := abs_le.mp ha
      have a2 := abs_le.mp hb
      have a3 := abs_le.mp hls'
      have a4 := abs_le.mp hlt'
      exact abs_le.mpr ⟨by linarith [a1.1, a2.2, a3.1, a4.2], by linarith [a1.2, a2.1, a3.2, a4.1]⟩
    have hq2 : |((α : ℝ) - β) / (2 * d) - (g d - g (-d)) / (2 * d)| ≤ (L * η + δ) / d := by
      rw [← sub_div, abs_div, abs_of_pos (show (0 : ℝ) < 2 * d by linarith), div_le_div_iff₀ (by linarith) hdr]
      nlinarith
    have := abs_sub_le (((α : ℝ) - β) / (2 * d)) ((g d - g (-d)) / (2 * d)) (g1 0)
    linarith
  have hquot' : |(v : ℝ) - ((α : ℝ) - β) / (2 * d)| ≤ 3 / 2 ^ p * |((α : ℝ) - β) / (2 * d)| + 2 ^ emin / 2 := by
    have : ((|v - (α - β) / (2 * d)| : ℚ) : ℝ) ≤ ((3 / 2 ^ p * |(α - β) / (2 * d)| + 2 ^ emin / 2 : ℚ) : ℝ) := by exact_mod_cast hquot
    push_cast at this
    exact this
  have hQa : |((α : ℝ) - β) / (2 * d)| ≤ |g1 0| + D := by
    have := abs_add_le (((α : ℝ) - β) / (2 * d) - g1 0) (g1 0)
    rw [sub_add_cancel] at this
    linarith
  have hfin := abs_sub_le (v : ℝ) (((α : ℝ) - β) / (2 * d)) (g1 0)
  have h3 : (0 : ℝ) ≤ 3 / 2 ^ p := by positivity
  have := mul_le_mul_of_nonneg_left hQa h3
  nlinarith

end

/-! ### Concrete cases -/

/-- the residual `x - c` in single precision -/
def line32 (c : Int) (x : Vec (Fl Fmt.binary32) 1) : Vec (Fl Fmt.binary32) 1 := fun _ => sub (x 0) (ofInt c)

/-- default options (options.h:28-71, 112-133) of a `float` solver, up to the rounding of the decimal constants -/
def sopts32 : SolverOpts (Fl Fmt.binary32) where
  useSquaredNorm := true
  downscaleBy2 := false
  normalize := false
  gradClip := ofInt 0
  useLdlt := true
  hIsFull := true
  checkMinHDiag := ofInt 0
  dampInit := div (ofInt 1) (ofInt 10000)
  dampLo := div (ofInt 1) (ofInt 1000000000)
  dampHi := ofInt 1000000000
  goodFactor := div (ofInt 1) (ofInt 3)
  badFactor := ofInt 2
  lr := div (ofInt 1) (ofInt 1000)

/-- default optimizer options (options.h:75-110): the limit on the step is `1e-14` -/
def opts32 : Options (Fl Fmt.binary32) Nat (DVec (Fl Fmt.binary32)) where
  checkFinalCost := false
  useStepQuality := false
  saveLast := true
  maxIters := 50
  minError := div (ofInt 1) (ofInt 1000000000000)
  minRerrDec := div (ofInt 1) (ofInt 10000000000)
  minStepNorm2 := div (ofInt 1) (ofInt 100000000000000)
  minGradNorm2 := div (ofInt 1) (ofInt 1000000000000000000)
  maxTotalFailures := 0
  maxConsecFailures := 5
  maxDurationMs := ofInt 0
  stopCallback := none
  stopCallback2 := none

/-- one-dimensional linear algebra -/
def lin32 : LinAlg (Fl Fmt.binary32) where
  ldlt := fun n A b =>
    if h : n = 1 then
      let a := A ⟨0, by omega⟩ ⟨0, by omega⟩
      if lt a (ofInt 0) then none
      else some (fun i => if eq a (ofInt 0) then ofInt 0 else div (b i) a)
    else none
  inv := fun _ A => fun i j => div (ofInt 1) (A i j)

def prob32 (c : Int) : Problem (Fl Fmt.binary32) (Fl Fmt.binary32) Nat (Vec (Fl Fmt.binary32) 1) :=
  numDiffProb (line32 c) (fun _ _ => ofInt 7) (ofInt 1) (fun w => (ofInt 1, w)) (fun w _ => (some (fun _ => ofInt 7, fun _ _ => ofInt 7), w))

theorem far32 : FarStart sopts32 (line32 8192) (ofInt 1 : Fl Fmt.binary32) (fun _ => ofInt 5000) 11 := by
  obtain ⟨he, e⟩ := eps32
  have h5 : ∃ h, (ofInt 5000 : Fl Fmt.binary32) = .fin 5000 h := by
    refine ⟨⟨⟨5000, 0, by norm_num, by norm_num, by norm_num⟩, ?_⟩, ?_⟩
    · show |(5000 : ℚ)| ≤ (2 ^ 24 - 1 : ℤ) * 2 ^ (-(-149 : ℤ) - 2 * ((24 : ℕ) : ℤ) + 3)
      rw [abs_of_pos (by norm_num)]
      norm_num
    · show Fl.mk ((5000 : ℤ) : ℚ) = _
      push_cast
      exact Fl.mk_grid _
  obtain ⟨h5, e5⟩ := h5
  exact ⟨by norm_num, by norm_num, ⟨_, he, e, by norm_num, by norm_num⟩, fun _ => ⟨5000, h5, e5, by norm_num⟩, fun i => by revert i; decide +kernel,
    by decide +kernel, by decide +kernel⟩

/-- The hypotheses are met by the residual `x - 8192` at `x = 5000` with the default options: Levenberg-Marquardt, Gauss-Newton and Gradient Descent
stop at 5000 and report convergence. -/
example : (∃ st, optimizeAcc (lmEnv sopts32 lin32 (prob32 8192)) opts32 10 (-1) 0 (lmFresh sopts32 (prob32 8192) (fun _ => ofInt 7) (fun _ _ => ofInt 7)) (fun _ => ofInt 5000) = .ok st ∧
      st.x = (fun _ => ofInt 5000) ∧ st.out.converged = true) ∧
    (∃ st, optimizeAcc (gnEnv sopts32 lin32 (prob32 8192)) opts32 10 (-1) 0 (gnFresh (prob32 8192) (fun _ => ofInt 7) (fun _ _ => ofInt 7)) (fun _ => ofInt 5000) = .ok st ∧
      st.x = (fun _ => ofInt 5000) ∧ st.out.converged = true) ∧
    (∃ st, optimizeAcc (gdEnv sopts32 (prob32 8192)) opts32 10 (-1) 0 (gnFresh (prob32 8192) (fun _ => ofInt 7) (fun _ _ => ofInt 7)) (fun _ => ofInt 5000) = .ok st ∧
      st.x = (fun _ => ofInt 5000) ∧ st.out.converged = true) := by
  have hz : ZeroSolve lin32 1 := by
    simp only [ZeroSolve, lin32, dite_true]
    rw [if_neg (by decide +kernel)]
    congr 1
    funext i
    rw [if_pos (by decide +kernel)]
  refine ⟨?_, ?_, ?_⟩
  · obtain ⟨st, e, h1, -, h2, -⟩ := C78_lm_stuck (J0 := fun _ _ => ofInt 7) (clock := fun w => (ofInt 1, w))
      (alloc := fun w _ => (some (fun _ => ofInt 7, fun _ _ => ofInt 7), w)) far32 hz rfl (by decide +kernel) (by decide +kernel) (by decide +kernel)
      (by decide +kernel) (o := opts32) (by decide +kernel) (by decide +kernel) (mi := -1) (b := 51) (by decide +kernel) 9 (0 : Nat) (fun _ => ofInt 7) (fun _ _ => ofInt 7)
    exact ⟨st, e, h1, h2⟩
  · obtain ⟨st, e, h1, -, h2, -⟩ := C78_gn_stuck (J0 := fun _ _ => ofInt 7) (clock := fun w => (ofInt 1, w))
      (alloc := fun w _ => (some (fun _ => ofInt 7, fun _ _ => ofInt 7), w)) far32 hz rfl (by decide +kernel) (by decide +kernel)
      (o := opts32) (by decide +kernel) (by decide +kernel) (mi := -1) (b := 51) (by decide +kernel) 9 (0 : Nat) (fun _ => ofInt 7) (fun _ _ => ofInt 7)
    exact ⟨st, e, h1, h2⟩
  · obtain ⟨st, e, h1, -, h2, -⟩ := C78_gd_stuck (J0 := fun _ _ => ofInt 7) (clock := fun w => (ofInt 1, w))
      (alloc := fun w _ => (some (fun _ => ofInt 7, fun _ _ => ofInt 7), w)) far32 (by decide +kernel) (by decide +kernel)
      (o := opts32) (by decide +kernel) (by decide +kernel) (mi := -1) (b := 51) (by decide +kernel) 9 (0 : Nat) (fun _ => ofInt 7) (fun _ _ => ofInt 7)
    exact ⟨st, e, h1, h2⟩

/-- Started at 100, the residual `x - 150` is solved. -/
example : ∃ st, optimizeAcc (lmEnv sopts32 lin32 (prob32 150)) opts32 10 (-1) 0 (lmFresh sopts32 (prob32 150) (fun _ => ofInt 7) (fun _ _ => ofInt 7))
    (fun _ => ofInt 100) = .ok st ∧ (eq (st.x 0) (ofInt 150) && st.out.converged) = true := Res.exists_of_holds (by decide +kernel)

/-- The limit is attained: at 2048 the derivative of `x` is not zero (it is 0.61 instead of 1). -/
example : eq ((numEvalF vplusF (fun x => x) (fun _ : Fin 1 => (ofInt 2048 : Fl Fmt.binary32)) .central eps (fun _ _ => ofInt 7)).2 0 0) (ofInt 0) = false ∧
    lt ((numEvalF vplusF (fun x => x) (fun _ : Fin 1 => (ofInt 2048 : Fl Fmt.binary32)) .central eps (fun _ _ => ofInt 7)).2 0 0)
      (div (ofInt 62) (ofInt 100)) = true := by decide +kernel

/-- The error bound applies to the identity in double precision (no truncation error, no evaluation error) for every parameter up to `2^20`: the result is
within `0.003` of 1. -/
example {x : Vec (Fl Fmt.binary64) 1} {q : ℚ} {hq} (hr : x 0 = .fin q hq) (hq2 : |q| ≤ 2 ^ 20) (J0 : JMat (Fl Fmt.binary64) 1 1) {v : ℚ} {hv}
    (e : (numEvalF vplusF (fun x => x) x .central eps J0).2 0 0 = .fin v hv) : |(v : ℝ) - 1| ≤ 0.003 := by
  obtain ⟨he, ee⟩ := eps64
  have hmax : (2 : ℚ) ^ 21 ≤ Fmt.binary64.max := by
    show _ ≤ (2 ^ 53 - 1 : ℤ) * (2 : ℚ) ^ (-(-1074 : ℤ) - 2 * ((53 : ℕ) : ℤ) + 3)
    have h1 : (1 : ℚ) ≤ 2 ^ (-(-1074 : ℤ) - 2 * ((53 : ℕ) : ℤ) + 3) := one_le_zpow₀ (by norm_num) (by norm_num)
    have h2 : (2 : ℚ) ^ 21 ≤ ((2 ^ 53 - 1 : ℤ) : ℚ) := by norm_num
    exact h2.trans (le_mul_of_one_le_right (le_trans (by norm_num) h2) h1)
  have hqr : |(q : ℝ)| ≤ 2 ^ 20 := by exact_mod_cast hq2
  have hx : ∀ i, finite (x i) = true := by
    intro i
    rw [Subsingleton.elim i 0, hr, Fl.finite_iff]
    exact ⟨q, hq, rfl⟩
  have key := C78_central_error_partial (p := 53) (emin := -1074) (by norm_num) hx hr ee (by norm_num)
    (le_trans (by norm_num; linarith) hmax) (le_trans (by norm_num) hmax)
    (fun x => x) 0 (g := fun t => q + t) (g1 := fun _ => 1) (g2 := fun _ => 0) (g3 := fun _ => 0) (L := 1) (M := 0) (δ := 0) (ρ := 1)
    (by push_cast; have : |(q : ℝ)| / 2 ^ 53 ≤ 2 ^ 20 / 2 ^ 53 := div_le_div_of_nonneg_right hqr (by positivity)
        rw [add_div]; norm_num at this ⊢; linarith) (fun q' hq' _ v hv h => by
      have h := (Function.update_self (f := x) (0 : Fin 1) (Fl.fin q' hq')).symm.trans h
      injection h with h
      subst h
      simp) (fun t _ => by simpa using (hasDerivAt_id t).const_add (q : ℝ)) (fun _ _ => by simp) (fun t _ => hasDerivAt_const t 1)
    (fun t _ => hasDerivAt_const t 0) (fun _ _ => by simp) J0 e
  refine key.trans ?_
  have h1 : (2 : ℝ) ^ (-1074 : ℤ) ≤ 1 / 2 ^ 20 := by
    rw [show (1 : ℝ) / 2 ^ 20 = 2 ^ (-20 : ℤ) by norm_num]
    exact zpow_le_zpow_right₀ (by norm_num) (by norm_num)
  have h2 : |(q : ℝ)| / 2 ^ 53 ≤ 2 ^ 20 / 2 ^ 53 := div_le_div_of_nonneg_right hqr (by positivity)
  push_cast
  rw [add_div, abs_one]
  generalize |(q : ℝ)| / 2 ^ 53 = a at h2
  generalize (2 : ℝ) ^ (-1074 : ℤ) = b at h1
  norm_num at h1 h2 ⊢
  linarith

end Verif
