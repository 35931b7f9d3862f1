import Verif.Lemmas.MixedFl
import Verif.Props.Termination
import Verif.Props.History
import Verif.Props.Stopping
import Verif.Props.Failures
import Verif.Props.FiniteX
import Verif.Props.SqrtFloat
import Verif.Lemmas.Double
import Verif.Model.Defaults
import Verif.Model.EigenLDLT
/-!
# C124: optimizers on `float`

The system of equations, the steps and the damping of an optimizer with `Scalar = float` are `float`s, the costs, the cost
changes and the stop criteria are `double`s.
-/

namespace Verif
open FloatOps

/-! ## One type for everything -/

section
variable {F R W X : Type} [FloatOps F] {so : SolverOpts F} {L : LinAlg F} {P : MxProblem F F R W X} {o : Options F W (DVec F)}

/-- **C124, the model.** If `Scalar` is `double`, the Gauss-Newton optimizer with two types is the one of the other properties. -/
theorem C124_same_gn (fuel : Nat) (mi : Int) (w : W) (s : MxGN F F R) (x : X) :
    optimizeAcc (gnEnv so L P.one) o fuel mi w s.one x =
      (optimizeAcc (mxGnEnv (Conv.refl F) so L P) o fuel mi w s x).map (LoopSt.mapSt MxGN.one id) :=
  run_hom mxGn_hom fuel mi w s x

/-- **C124, the model**, Gradient Descent. -/
theorem C124_same_gd (fuel : Nat) (mi : Int) (w : W) (s : MxGN F F R) (x : X) :
    optimizeAcc (gdEnv so P.one) o fuel mi w s.one x =
      (optimizeAcc (mxGdEnv (Conv.refl F) so P) o fuel mi w s x).map (LoopSt.mapSt MxGN.one id) :=
  run_hom mxGd_hom fuel mi w s x

/-- **C124, the model**, Levenberg-Marquardt. -/
theorem C124_same_lm (fuel : Nat) (mi : Int) (w : W) (s : MxLM F F R) (x : X) :
    optimizeAcc (lmEnv so L P.one) o fuel mi w s.one x =
      (optimizeAcc (mxLmEnv (Conv.refl F) so L P) o fuel mi w s x).map (LoopSt.mapSt MxLM.one id) :=
  run_hom mxLm_hom fuel mi w s x

end

/-! ## Runs on `float`s -/

section
variable {R W X S V M : Type} {E : Env DblF R W S X V M} {o : Options DblF W V}

/-- what is known of every run that returns -/
structure SoundRun (o : Options DblF W V) (mi : Int) (st : LoopSt DblF R W S X V M) : Prop where
  /-- at least one, at most `budget` iterations -/
  iters : 1 ≤ st.trace.length ∧ (st.trace.length : Int) ≤ budget o mi
  /-- no NaN, no infinity -/
  finite : ∀ e ∈ st.out.errs, finite e = true
  /-- the reported cost is the least cost seen -/
  best : st.out.errs ≠ [] → st.out.finalCost.cost ∈ st.out.errs ∧ ∀ e ∈ st.out.errs, lt e st.out.finalCost.cost = false
  /-- the best cost never increases -/
  down : st.trace.Pairwise fun a b => lt a.out.finalCost.cost b.out.finalCost.cost = false

theorem sound_run (hh : HooksDefined E) (hmc : 0 < o.maxConsecFailures) (hmc8 : o.maxConsecFailures < 256)
    {mi : Int} (hmi : budget o mi ≤ 65536) {fuel : Nat} (hf : o.maxConsecFailures ≤ fuel) (w : W) (s : S) (x : X) :
    ∃ st, optimizeAcc E o fuel mi w s x = .ok st ∧ SoundRun o mi st := by
  have hc : Counts E o fun _ => 0 := ⟨fun _ _ _ => Nat.zero_le _, fun _ _ _ => rfl, fun _ => rfl, fun _ _ _ _ _ _ => rfl, fun _ _ _ _ _ _ => rfl⟩
  obtain ⟨st, h, h1, h2, -⟩ := C01_bounded_work hh hc hmc hmc8 (mi := mi) (by unfold intMax; omega) hf w s x
  obtain ⟨b1, -, b3⟩ := C04_final_cost_is_best hmi h
  obtain ⟨f1, -⟩ := C11_results_finite h
  refine ⟨st, h, ⟨h1, h2⟩, ?_, b1, b3⟩
  intro e he
  unfold FloatOps.finite
  rw [(f1 e he).1, (f1 e he).2]; rfl

end

section
variable {R W X : Type} {so : SolverOpts Sgl} {L : LinAlg Sgl} {P : MxProblem Sgl DblF R W X} {o : Options DblF W (DVec Sgl)}

/-- **C124, Levenberg-Marquardt on `float`s.** Every run returns, after at most `budget` iterations; all costs it saves are
finite, the reported one is the least of them, and the best cost never increases: comparing `double`s that come from `float`s is exact. -/
theorem C124_lm_float (hr : lt so.dampHi so.dampLo = false) (hmc : 0 < o.maxConsecFailures) (hmc8 : o.maxConsecFailures < 256)
    {mi : Int} (hmi : budget o mi ≤ 65536) {fuel : Nat} (hf : o.maxConsecFailures ≤ fuel) (w : W) (s : MxLM Sgl DblF R) (x : X) :
    ∃ st, optimizeAcc (mxLmEnv convF so L P) o fuel mi w s x = .ok st ∧ SoundRun o mi st := by
  refine sound_run ⟨fun s q => ?_, fun s => ?_, fun s => ?_⟩ hmc hmc8 hmi hf w s x
  · show ∃ s', mxGood convF so s q = .ok s'
    unfold mxGood stdClamp; rw [hr]; exact ⟨_, rfl⟩
  · show ∃ s', mxBad so s = .ok s'
    unfold mxBad stdClamp; rw [hr]; exact ⟨_, rfl⟩
  · show ∃ s', mxBad so s = .ok s'
    unfold mxBad stdClamp; rw [hr]; exact ⟨_, rfl⟩

/-- **C124, Gauss-Newton on `float`s.** -/
theorem C124_gn_float (hmc : 0 < o.maxConsecFailures) (hmc8 : o.maxConsecFailures < 256)
    {mi : Int} (hmi : budget o mi ≤ 65536) {fuel : Nat} (hf : o.maxConsecFailures ≤ fuel) (w : W) (s : MxGN Sgl DblF R) (x : X) :
    ∃ st, optimizeAcc (mxGnEnv convF so L P) o fuel mi w s x = .ok st ∧ SoundRun o mi st :=
  sound_run ⟨fun s _ => ⟨s, rfl⟩, fun s => ⟨s, rfl⟩, fun s => ⟨s, rfl⟩⟩ hmc hmc8 hmi hf w s x

/-- **C124, Gradient Descent on `float`s.** -/
theorem C124_gd_float (hmc : 0 < o.maxConsecFailures) (hmc8 : o.maxConsecFailures < 256)
    {mi : Int} (hmi : budget o mi ≤ 65536) {fuel : Nat} (hf : o.maxConsecFailures ≤ fuel) (w : W) (s : MxGN Sgl DblF R) (x : X) :
    ∃ st, optimizeAcc (mxGdEnv convF so P) o fuel mi w s x = .ok st ∧ SoundRun o mi st :=
  sound_run ⟨fun s _ => ⟨s, rfl⟩, fun s => ⟨s, rfl⟩, fun s => ⟨s, rfl⟩⟩ hmc hmc8 hmi hf w s x

end

/-! ## The stop criterion on the relative decrease -/

/-- `1e-4f` -/
theorem eps_val : ∃ h, (eps : DblF).v = .fin (13743895 / 2 ^ 37) h := by
  have hg : GridBin 24 (-149) (13743895 / 2 ^ 37) := ⟨13743895, -37, by norm_num, by norm_num, by rw [zpow_neg]; norm_num⟩
  have hm : |(13743895 / 2 ^ 37 : ℚ)| ≤ Fmt.binary32.max := by decide +kernel
  obtain ⟨h, e⟩ := mk_grid (f := Fmt.binary32) hg hm
  obtain ⟨h', e'⟩ := up_fin h
  refine ⟨h', ?_⟩
  rw [← e', ← e]
  rfl

/-- **C124, the relative decrease.** A run on `float`s that ends with `kMinRelError` had a best cost above `1e-4f` (and below the
largest `float`) before its last iteration: below, the criterion is dead, whatever `min_rerr_dec` is. (With `Scalar = double`
the limit is `1e-7f`.) -/
theorem C124_rel_stop {R W X S V M : Type} {E : Env DblF R W S X V M} {o : Options DblF W V} {fuel : Nat} {mi : Int} (hmi : budget o mi ≤ 65535)
    {w : W} {s : S} {x : X} {st : LoopSt DblF R W S X V M} (h : optimizeAcc E o fuel mi w s x = .ok st) (hs : st.out.stop = .kMinRelError) :
    ∃ best ∈ st.out.errs.dropLast, (∀ e ∈ st.out.errs.dropLast, lt e best = false) ∧
      ∃ (q : ℚ) (hq : _), best.v = .fin q hq ∧ 13743895 / 2 ^ 37 < q ∧ q < Fmt.binary32.max := by
  obtain ⟨r, -, hj⟩ := C07_stop_reason_justified hmi h
  rw [hs] at hj
  obtain ⟨-, e, best, -, hb, h1, h2, -⟩ := hj
  refine ⟨best, hb.1, hb.2, ?_⟩
  obtain ⟨g1, e1⟩ := eps_val
  obtain ⟨g2, e2⟩ := DblF.scalarMax_val
  have h1 : Fl.lt (eps : DblF).v best.v = true := h1
  have h2 : Fl.lt best.v (scalarMax : DblF).v = true := h2
  rw [e1] at h1
  rw [e2] at h2
  cases hv : best.v with
  | nan => rw [hv] at h1; cases h1
  | pinf => rw [hv] at h2; cases h2
  | ninf => rw [hv] at h1; cases h1
  | fin q hq =>
    rw [hv] at h1 h2
    exact ⟨q, hq, rfl, by simpa [Fl.lt] using h1, by simpa [Fl.lt] using h2⟩

/-! ## The damping -/

/-- **C124, no loss on the way up.** `float`s that become `double`s and back are the same. -/
theorem C124_exact (a : Sgl) : convF.down (convF.up a) = a ∧ isNaN (convF.up a) = isNaN a ∧ isInf (convF.up a) = isInf a := by
  cases a with
  | nan => exact ⟨rfl, rfl, rfl⟩
  | pinf => exact ⟨rfl, rfl, rfl⟩
  | ninf => exact ⟨rfl, rfl, rfl⟩
  | fin q h =>
    obtain ⟨h', e⟩ := up_fin h
    refine ⟨?_, ?_, ?_⟩
    · show Fl.conv (convF.up (.fin q h)).v = _
      rw [e]
      obtain ⟨h'', e''⟩ := mk_grid (f := Fmt.binary32) h.1 h.2
      exact e''
    · show Fl.isNaN (convF.up (.fin q h)).v = _
      rw [e]; rfl
    · show Fl.isInf (convF.up (.fin q h)).v = _
      rw [e]; rfl

/-- **C124, comparisons.** The order of `float`s is that of the `double`s they become. -/
theorem C124_order (a b : Sgl) : lt (convF.up a) (convF.up b) = lt a b := by
  show Fl.lt (convF.up a).v (convF.up b).v = Fl.lt a b
  cases a with
  | fin q h =>
    obtain ⟨h', e⟩ := up_fin h
    rw [e]
    cases b with
    | fin q2 h2 => obtain ⟨h2', e2⟩ := up_fin h2; rw [e2]; rfl
    | _ => rfl
  | _ =>
    cases b with
    | fin q2 h2 => obtain ⟨h2', e2⟩ := up_fin h2; rw [e2]; rfl
    | _ => rfl

/-- the factor of the damping -/
theorem factor_val {l : ℚ} (hl : Fmt.binary32.Grid l ∧ |l| ≤ Fmt.binary32.max) (prev : Sgl) (h0 : 0 ≤ l) (h1 : l ≤ 1 / 2 ^ 26) :
    ∃ (k : ℚ) (hk : _), (mxFactor convF true (.fin l hl) prev).v = .fin k hk ∧ 1 ≤ k ∧ k ≤ 1 + 1 / 2 ^ 26 := by
  obtain ⟨h', e⟩ := up_fin hl
  have hone : ∃ h, (ofInt 1 : Fl Fmt.binary64) = .fin 1 h := by
    have := mk_grid (f := Fmt.binary64) (q := 1) ⟨1, 0, by norm_num, by norm_num, by norm_num⟩ (by decide +kernel)
    obtain ⟨h, e⟩ := this
    refine ⟨h, ?_⟩
    show Fl.mk ((1 : ℤ) : ℚ) = _
    rw [Int.cast_one]; exact e
  obtain ⟨g1, e1⟩ := hone
  have hk1 : 1 ≤ rndBin 53 (-1074) (1 + l) := by
    have := rndBin_mono (p := 53) (emin := -1074) (by norm_num) (show (1 : ℚ) ≤ 1 + l by linarith)
    rwa [rndBin_id ⟨1, 0, by norm_num, by norm_num, by norm_num⟩] at this
  have hk2 : rndBin 53 (-1074) (1 + l) ≤ 1 + 1 / 2 ^ 26 := by
    have := rndBin_mono (p := 53) (emin := -1074) (by norm_num) (show 1 + l ≤ 1 + 1 / 2 ^ 26 by linarith)
    rwa [rndBin_id (q := 1 + 1 / 2 ^ 26) ⟨2 ^ 26 + 1, -26, by norm_num, by norm_num, by rw [zpow_neg]; norm_num⟩] at this
  have hm : |rndBin 53 (-1074) (1 + l)| ≤ Fmt.binary64.max := by
    rw [abs_of_nonneg (by linarith)]
    refine hk2.trans ?_
    decide +kernel
  obtain ⟨g2, e2⟩ := mk_of_rnd (f := Fmt.binary64) (q := 1 + l) rfl hm
  refine ⟨_, g2, ?_, hk1, hk2⟩
  show Fl.add (ofInt 1) (convF.up (.fin l hl)).v = _
  rw [e, e1]
  exact e2

/-- **C124 is violated: damping has no effect below `2^-26`** (`damping_range` goes down to `1e-9f`, and every good step divides by
three). For any system of `float`s, if `0 < lambda_ <= 2^-26`, multiplying the diagonal by `1 + lambda_` changes nothing: the product
is rounded back to the `float` it came from. A singular matrix stays singular, and Levenberg-Marquardt is Gauss-Newton. -/
theorem C124_damping_lost {R : Type} (s : MxLM Sgl DblF R) (hreb : s.rebuild = true) {l : ℚ} {hl : _} (hlam : s.lambda = .fin l hl)
    (h0 : 0 < l) (h1 : l ≤ 1 / 2 ^ 26) (hfin : ∀ i, finite (s.gn.H i i) = true) : mxDamp convF s = s := by
  have key : ∀ i j, (if i = j then mxScale convF (mxFactor convF true s.lambda s.prev) (s.gn.H i j) else s.gn.H i j) = s.gn.H i j := by
    intro i j
    split
    next hij =>
      subst hij
      obtain ⟨q, hq, e⟩ := (Fl.finite_iff _).1 (hfin i)
      rw [e, hlam]
      obtain ⟨k, hk, ek, k1, k2⟩ := factor_val hl s.prev h0.le h1
      obtain ⟨h', e'⟩ := up_fin hq
      show Fl.conv (Fl.mul (convF.up (.fin q hq)).v (mxFactor convF true (.fin l hl) s.prev).v) = _
      rw [ek, e']
      have hb := scale_back hq.1 k1 k2
      have hm : |rndBin 53 (-1074) (q * k)| ≤ Fmt.binary64.max := by
        have hab : ∀ r : ℚ, |rndBin 53 (-1074) r| = rndBin 53 (-1074) |r| := by
          intro r
          rcases le_total 0 r with h | h
          · rw [abs_of_nonneg h, abs_of_nonneg (rndBin_nonneg h)]
          · rw [abs_of_nonpos h, rndBin_neg, abs_of_nonpos]
            have := rndBin_nonneg (p := 53) (emin := -1074) (q := -r) (by linarith)
            rw [rndBin_neg] at this; linarith
        rw [hab]
        have hle : |q * k| ≤ 2 ^ 200 := by
          rw [abs_mul, abs_of_nonneg (by linarith : 0 ≤ k)]
          have h3 : |q| ≤ 2 ^ 128 := hq.2.trans (by decide +kernel)
          have h4 : k ≤ 2 := k2.trans (by norm_num)
          calc |q| * k ≤ 2 ^ 128 * 2 := mul_le_mul h3 h4 (by linarith) (by positivity)
            _ ≤ 2 ^ 200 := by norm_num
        have := rndBin_mono (p := 53) (emin := -1074) (by norm_num) hle
        rw [rndBin_id (q := 2 ^ 200) ⟨1, 200, by norm_num, by norm_num, by norm_num⟩] at this
        refine this.trans ?_
        decide +kernel
      obtain ⟨g2, e2⟩ := mk_of_rnd (f := Fmt.binary64) (q := q * k) rfl hm
      have e3 : (Fl.mul (.fin q h') (.fin k hk) : Fl Fmt.binary64) = _ := e2
      rw [e3]
      obtain ⟨g4, e4⟩ := mk_of_rnd (f := Fmt.binary32) (q := rndBin 53 (-1074) (q * k)) hb hq.2
      exact e4
    · rfl
  unfold mxDamp
  split
  · obtain ⟨⟨n, g, H, c⟩, lam, prev, bf, reb⟩ := s
    simp only at hreb hlam key
    subst hreb
    simp only
    have e : (fun i j => if i = j then mxScale convF (mxFactor convF true lam prev) (H i j) else H i j) = H := by
      funext i j; exact key i j
    rw [e]
  · rfl

theorem sgl_err (q : ℚ) : |rndBin 24 (-149) q - q| ≤ |q| / 2 ^ 24 + 1 / 2 ^ 150 := by
  have h := rndBin_err (p := 24) (emin := -149) q
  have e : (2 : ℚ) ^ (-149 : ℤ) / 2 = 1 / 2 ^ 150 := by norm_num
  rwa [e] at h

/-- the roundings of one damped coefficient -/
theorem damp_err {h l : ℚ} (hl : 0 ≤ l) (hl' : l ≤ 2 ^ 128) (hT : |h * (1 + l)| ≤ 2 ^ 127) :
    ∃ k p r, rndBin 53 (-1074) (1 + l) = k ∧ |k| ≤ 2 ^ 200 ∧ rndBin 53 (-1074) (h * k) = p ∧ |p| ≤ 2 ^ 200 ∧ rndBin 24 (-149) p = r ∧ |r| ≤ 2 ^ 127 + 2 ^ 110 ∧
      |r - h * (1 + l)| ≤ |h * (1 + l)| / 2 ^ 23 + 1 / 2 ^ 149 := by
  have hε : (1 : ℚ) / 2 ^ 1075 ≤ 1 / 2 ^ 200 := one_div_le_one_div_of_le (by positivity) (pow_le_pow_right₀ (by norm_num) (by norm_num))
  refine ⟨_, _, _, rfl, ?_, rfl, ?_, rfl, ?_, ?_⟩
  all_goals
    have e1 := dbl_err (1 + l)
    set k := rndBin 53 (-1074) (1 + l)
    have e2 := dbl_err (h * k)
    set p := rndBin 53 (-1074) (h * k)
    have e3 := sgl_err p
    set r := rndBin 24 (-149) p
    rw [abs_of_nonneg (by linarith : 0 ≤ 1 + l)] at e1
    have b1 : |k - (1 + l)| ≤ (1 + l) / 2 ^ 52 := by
      have : (1 : ℚ) / 2 ^ 200 ≤ (1 + l) / 2 ^ 53 := by
        rw [div_le_div_iff₀ (by positivity) (by positivity)]
        have : (2 : ℚ) ^ 53 ≤ 2 ^ 200 := by norm_num
        nlinarith
      have e : (1 + l) / 2 ^ 52 = (1 + l) / 2 ^ 53 + (1 + l) / 2 ^ 53 := by ring
      rw [e]; linarith
    have b2 : |h * k - h * (1 + l)| ≤ |h * (1 + l)| / 2 ^ 52 := by
      rw [← mul_sub, abs_mul, abs_mul, abs_of_nonneg (by linarith : 0 ≤ 1 + l), mul_div_assoc]
      exact mul_le_mul_of_nonneg_left b1 (abs_nonneg _)
    generalize h * (1 + l) = T at *
    have tk : |h * k| ≤ |T| + |T| / 2 ^ 52 := by
      have := abs_sub_abs_le_abs_sub (h * k) T; linarith
    have tp : |p| ≤ |h * k| + (|h * k| / 2 ^ 53 + 1 / 2 ^ 200) := by
      have := abs_sub_abs_le_abs_sub p (h * k); linarith
    have tr : |r| ≤ |p| + (|p| / 2 ^ 24 + 1 / 2 ^ 150) := by
      have := abs_sub_abs_le_abs_sub r p; linarith
  · have := abs_sub_abs_le_abs_sub k (1 + l)
    rw [abs_of_nonneg (by linarith : 0 ≤ 1 + l)] at this
    norm_num at *
    linarith
  · norm_num at *
    linarith
  · norm_num at *
    linarith
  · have tri : |r - T| ≤ |r - p| + |p - h * k| + |h * k - T| := by
      have h1 := abs_sub_le r p T
      have h2 := abs_sub_le p (h * k) T
      linarith
    norm_num at *
    have hT0 := abs_nonneg T
    linarith

/-- **C124, damping.** As long as nothing overflows, a coefficient on the diagonal becomes `h (1 + lambda_)` up to a relative error of `2^-23` (and an absolute error
of `2^-149`). Missing: that the coefficient grows whenever `lambda_ > 0` (false, `C124_damping_lost`). -/
theorem C124_damping_error_partial {h l : ℚ} {hh hl : _} (h0 : 0 ≤ l) (hT : |h * (1 + l)| ≤ 2 ^ 127) (prev : Sgl) :
    ∃ (r : ℚ) (hr : _), mxScale convF (mxFactor convF true (.fin l hl) prev) (.fin h hh) = .fin r hr ∧
      |r - h * (1 + l)| ≤ |h * (1 + l)| / 2 ^ 23 + 1 / 2 ^ 149 := by
  obtain ⟨g1, e1⟩ : ∃ g, (ofInt 1 : Fl Fmt.binary64) = .fin 1 g := by
    obtain ⟨g, e⟩ := mk_grid (f := Fmt.binary64) (q := 1) ⟨1, 0, by norm_num, by norm_num, by norm_num⟩ (by decide +kernel)
    refine ⟨g, ?_⟩
    show Fl.mk ((1 : ℤ) : ℚ) = _
    rw [Int.cast_one]; exact e
  have hl2 : l ≤ 2 ^ 128 := (le_abs_self l).trans (hl.2.trans (by decide +kernel))
  obtain ⟨k, p, r, ek, bk, ep, bp, er, br, herr⟩ := damp_err (h := h) h0 hl2 hT
  have hM : (2 : ℚ) ^ 200 ≤ Fmt.binary64.max := by decide +kernel
  have hm : (2 : ℚ) ^ 127 + 2 ^ 110 ≤ Fmt.binary32.max := by decide +kernel
  obtain ⟨g2, e2⟩ := mk_of_rnd (f := Fmt.binary64) (q := 1 + l) ek (bk.trans hM)
  obtain ⟨g3, e3⟩ := mk_of_rnd (f := Fmt.binary64) (q := h * k) ep (bp.trans hM)
  obtain ⟨g4, e4⟩ := mk_of_rnd (f := Fmt.binary32) (q := p) er (br.trans hm)
  refine ⟨r, g4, ?_, herr⟩
  obtain ⟨u1, v1⟩ := up_fin hl
  obtain ⟨u2, v2⟩ := up_fin hh
  show Fl.conv (Fl.mul (convF.up (.fin h hh)).v (Fl.add (ofInt 1) (convF.up (.fin l hl)).v)) = _
  rw [v1, v2, e1]
  have a1 : (Fl.add (.fin 1 g1) (.fin l u1) : Fl Fmt.binary64) = .fin k g2 := e2
  rw [a1]
  have a2 : (Fl.mul (.fin h u2) (.fin k g2) : Fl Fmt.binary64) = .fin p g3 := e3
  rw [a2]
  exact e4

/-- **C124 is violated**: what `Build` leaves is the system of Gauss-Newton, and the step is its step. -/
theorem C124_lm_is_gn {R W X : Type} {L : LinAlg Sgl} {so : SolverOpts Sgl} {P : MxProblem Sgl DblF R W X} {w w1 : W} {s : MxLM Sgl DblF R} {x : X} {g1 : MxGN Sgl DblF R}
    (hreb : s.rebuild = true) {l : ℚ} {hl : _} (hlam : s.lambda = .fin l hl) (h0 : 0 < l) (h1 : l ≤ 1 / 2 ^ 26)
    (hb : (mxGnEnv convF so L P).sol.build w s.gn x = (true, g1, w1)) (hfin : ∀ i, finite (g1.H i i) = true) :
    ∃ s1, (mxLmEnv convF so L P).sol.build w s x = (true, s1, w1) ∧
      (mxLmEnv convF so L P).sol.solve s1 = (mxGnEnv convF so L P).sol.solve g1 := by
  refine ⟨{ s with gn := g1 }, ?_, rfl⟩
  show mxLmBuild convF so P w s x = _
  unfold mxLmBuild
  have hb : mxBuildSystem so P w s.gn x = (true, g1, w1) := hb
  rw [if_pos hreb, hb]
  simp only [if_true]
  rw [C124_damping_lost { s with gn := g1 } hreb hlam h0 h1 hfin]

/-! ## Long steps -/

/-- **C124 is violated: long steps.** The squared length of a step of `float`s is a `float`: it is infinite as soon as a coefficient is `2^64 ≈ 1.8e19` or more,
though the step is finite. -/
theorem C124_long_step {n : Nat} {v : Vec Sgl n} {i : Fin n} {q : ℚ} {hq : _} (hv : v i = .fin q hq) (h : 2 ^ 64 ≤ |q|) :
    finite (convF.up (sqNorm v)) = false := by
  have hn : finite (sqNorm v) ≠ true := by
    intro hf
    have hf := sumF_finite hf i
    rw [hv] at hf
    obtain ⟨r, hr, e⟩ := (Fl.finite_iff _).1 hf
    have hbig : 2 ^ 128 ≤ rndBin 24 (-149) (q * q) := by
      have h2 : (2 : ℚ) ^ 128 ≤ q * q := by
        rw [← abs_mul_abs_self q]
        calc (2 : ℚ) ^ 128 = 2 ^ 64 * 2 ^ 64 := by norm_num
          _ ≤ _ := mul_le_mul h h (by positivity) (abs_nonneg _)
      have := rndBin_mono (p := 24) (emin := -149) (by norm_num) h2
      rwa [rndBin_id (q := 2 ^ 128) ⟨1, 128, by norm_num, by norm_num, by norm_num⟩] at this
    have e' : (Fl.mk (q * q) : Sgl) = .fin r hr := e
    unfold Fl.mk Fl.ofGrid at e'
    have hmx : Fmt.binary32.max < 2 ^ 128 := by decide +kernel
    have hnot : ¬ |Fmt.binary32.rnd (q * q)| ≤ Fmt.binary32.max := by
      have : Fmt.binary32.rnd (q * q) = rndBin 24 (-149) (q * q) := rfl
      rw [this]
      intro hc
      have := (le_abs_self _).trans hc
      linarith
    rw [dif_neg hnot] at e'
    split at e' <;> cases e'
  cases hs : finite (convF.up (sqNorm v))
  · rfl
  · obtain ⟨-, h1, h2⟩ := C124_exact (sqNorm v)
    exact absurd (by rw [← hs]; unfold FloatOps.finite; rw [h1, h2]) hn

/-- **C124 is violated: long steps**, the run. If the first step has such a coefficient, the run of Gauss-Newton stops at once with `kSystemHasNaNOrInf`, without
applying it. -/
theorem C124_long_step_run {R W X : Type} {L : LinAlg Sgl} {so : SolverOpts Sgl} {P : MxProblem Sgl DblF R W X} {o : Options DblF W (DVec Sgl)} {fuel : Nat} {mi : Int}
    (hmi : budget o mi < intMax) (hnt : lt (ofInt 0) o.maxDurationMs = false) {x : X} {w w1 w2 : W} {s s1 s2 : MxGN Sgl DblF R} {dx : DVec Sgl}
    (hr : Ready (mxGnEnv convF so L P) w s x w1 s1) (hb : (mxGnEnv convF so L P).sol.build w1 s1 x = (true, s2, w2))
    (hdx : (mxGnEnv convF so L P).sol.solve s2 = some dx) (hfin : finite s2.cost.cost = true)
    {i : Fin dx.n} {q : ℚ} {hq : _} (hv : dx.v i = .fin q hq) (h : 2 ^ 64 ≤ |q|) :
    ∃ st, optimizeAcc (mxGnEnv convF so L P) o (fuel + 1) mi w s x = .ok st ∧
      FailedAtOnce (mxGnEnv convF so L P) x w2 .kSystemHasNaNOrInf st :=
  C10_bad_step hmi hnt hr hb hdx hfin (C124_long_step hv h)

/-! ## Concrete cases -/

/-- `options` of tests/sqrt2.cpp:22-28 -/
def sqrtMxOpts : Options DblF Nat (DVec Sgl) := { defaultOptions litF with maxIters := 20, maxConsecFailures := 0 }

/-- the least normal `float` -/
def tolS : Sgl := .mk (1 / 2 ^ 126)

def sqrtMx : MxProblem Sgl DblF Unit Nat Sgl := sqrtProbMx () (fun w => (ofInt 0, w)) fun w _ => (none, w)

def sqrtMxRun (x0 : ℚ) : Option (List (ℚ × Bool) × ℚ × StopReason) :=
  match optimizeAcc (mxLmEnv convF (defaultSolverOpts litS) (eigenLinAlg tolS fun _ A => A) sqrtMx) sqrtMxOpts 1 (-1) 0
    (mxLmFresh (defaultSolverOpts litS) sqrtMx) (litS x0) with
  | .ok st => some (st.trace.map (fun r => (flVal (Rec.x r), Rec.succ r)), flVal st.x, st.out.stop)
  | _ => none

/-- `TestSqrt2` in mixed precision from its three starting points: the test passes, the last point is the `float` nearest to the root. From `-0.3f` the first step
is undone inexactly. -/
example : sqrtMxRun 1 = some ([(1, true), (3145623 / 2097152, true), (2970977 / 2097152, true), (5931651 / 4194304, true), (11863283 / 8388608, true)],
    11863283 / 8388608, .kMinError) := by decide +kernel

example : (sqrtMxRun (-3 / 10)).map (fun r => (r.2, r.1.length, r.1[2]?)) =
    some ((-11863283 / 8388608, .kMinError), 14, some ((-1258291 / 4194304 : ℚ), false)) := by decide +kernel

example : (sqrtMxRun (16 / 5)).map (·.2) = some (11863283 / 8388608, .kMinError) := by decide +kernel

/-- the hypotheses of `C124_lm_float` hold for this problem with the default options -/
example : ∃ st, optimizeAcc (mxLmEnv convF (defaultSolverOpts litS) (eigenLinAlg tolS fun _ A => A) sqrtMx) (defaultOptions litF) 5 (-1) 0
    (mxLmFresh (defaultSolverOpts litS) sqrtMx) (litS 1) = .ok st ∧ SoundRun (defaultOptions litF) (-1) st :=
  C124_lm_float (by decide +kernel) (by decide) (by decide) (by decide) (by decide) _ _ _

/-- a run that ends with `kMinRelError` -/
example : (match optimizeAcc (mxLmEnv convF (defaultSolverOpts litS) (eigenLinAlg tolS fun _ A => A) sqrtMx)
      { sqrtMxOpts with minRerrDec := litF (99 / 100) } 1 (-1) 0 (mxLmFresh (defaultSolverOpts litS) sqrtMx) (litS 1) with
    | .ok st => some (st.out.stop, st.out.errs.map fun e => decide (1 / 100 < flVal e.v))
    | _ => none) = some (.kMinRelError, [true, true]) := by decide +kernel

/-- the lower bound of the damping is one of the values below `2^-26`; nine good steps lead there from the initial value -/
example : lt (litS (1 / 10 ^ 9)) (litS (1 / 2 ^ 26)) = true ∧
    (match (List.range 9).foldlM (fun (s : MxLM Sgl DblF Unit) _ => match mxGood convF (defaultSolverOpts litS) s (ofInt 0) with
      | .ok s' => some s'
      | _ => none) (mxLmFresh (defaultSolverOpts litS) sqrtMx) with
    | some s => lt s.lambda (litS (1 / 2 ^ 26)) && lt (ofInt 0) s.lambda
    | none => false) = true := by decide +kernel

/-- a singular system -/
def singMx (l : ℚ) : MxLM Sgl DblF Unit := ⟨⟨2, fun i => if i = 0 then ofInt 1 else ofInt 0, fun _ _ => ofInt 1, { cost := ofInt 1, num := 1, inlier := () }⟩, litS l, ofInt 0, ofInt 2, true⟩

/-- It stays singular with the damping at its lower bound, the diagonal stays 1; with ten times `2^-26` it changes. -/
example : mxDamp convF (singMx (1 / 10 ^ 9)) = singMx (1 / 10 ^ 9) ∧
    (List.finRange _).map (fun i => flVal ((mxDamp convF (singMx (10 / 2 ^ 26))).gn.H i i)) = [1 + 1 / 2 ^ 23, 1 + 1 / 2 ^ 23] := by
  refine ⟨?_, by decide +kernel⟩
  have hv : flVal (litS (1 / 10 ^ 9)) = 9007199 / 9007199254740992 := by decide +kernel
  obtain ⟨q, hq, e⟩ := (Fl.finite_iff (litS (1 / 10 ^ 9))).1 (by decide +kernel)
  rw [e] at hv
  have hv : q = 9007199 / 9007199254740992 := hv
  exact C124_damping_lost (singMx (1 / 10 ^ 9)) rfl (l := q) (hl := hq) e (by rw [hv]; norm_num) (by rw [hv]; norm_num) (fun i => by
    show finite (ofInt 1 : Sgl) = true
    decide +kernel)

/-- `r = a * x - b` with `a = 2^-40` and `b = 2^30` -/
def longMx : MxProblem Sgl DblF Unit Nat Sgl where
  acc :=
    { full := fun w x _ _ _ =>
        let a : Sgl := .mk (1 / 2 ^ 40)
        let r : Sgl := sub (mul a x) (.mk (2 ^ 30))
        (({ cost := convF.up (mul r r), num := 1, inlier := () }, (fun _ => mul a r), (fun _ _ => mul a a)), w)
      eval := fun w x =>
        let r : Sgl := sub (mul (.mk (1 / 2 ^ 40)) x) (.mk (2 ^ 30))
        ({ cost := convF.up (mul r r), num := 1, inlier := () }, w) }
  dims := some 1
  dynDims := fun _ => 1
  plusEq := fun x d => if h : 0 < d.n then add x (d.v ⟨0, h⟩) else x
  clock := fun w => (ofInt 0, w)
  alloc := fun w _ => (none, w)
  ratio1 := ()

/-- The step from 0 to the solution is `2^70`, a `float`: the run refuses it. -/
example : (match optimizeAcc (mxGnEnv convF (defaultSolverOpts litS) (eigenLinAlg tolS fun _ A => A) longMx) (defaultOptions litF) 5 (-1) 0
      (mxGnFresh longMx (fun _ => ofInt 0) fun _ _ => ofInt 0) (ofInt 0) with
    | .ok st => some (st.out.stop, flVal st.x)
    | _ => none) = some (.kSystemHasNaNOrInf, 0) ∧
    (match mxBuildSystem (defaultSolverOpts litS) longMx 0 (mxGnFresh longMx (fun _ => ofInt 0) fun _ _ => ofInt 0) (ofInt 0) with
    | (_, s, _) => (mxSolve (defaultSolverOpts litS) (eigenLinAlg tolS fun _ A => A) true s).map fun d => (List.finRange d.n).map fun i => flVal (d.v i)) =
      some [2 ^ 70] := by decide +kernel

end Verif
