import Verif.Lemmas.NoisyRun
import Verif.Lemmas.SqrtFl
/-!
# C92: rounding errors do not spoil the convergence

Gauss-Newton on the square root example in IEEE arithmetic, run by the same optimizer as everything else.
-/

set_option linter.unusedSectionVars false

namespace Verif
open FloatOps

/-- the number a finite floating point number stands for (0 for the others) -/
def flVal {f : Fmt} : Fl f → ℚ
  | .fin q _ => q
  | _ => 0

/-- relative distance to `s` -/
noncomputable def relErr {f : Fmt} (s : ℝ) (x : Fl f) : ℝ := |(flVal x : ℝ) / s - 1|

/-- bound of the relative error after `n` iterations in exact arithmetic: 1, 0.26, 0.26², 0.26⁴, ... -/
noncomputable def quadRate (n : Nat) : ℝ := if n = 0 then 1 else (13 / 50) ^ 2 ^ (n - 1)

theorem quadRate_succ {n : Nat} (h : n ≠ 0) : quadRate (n + 1) = quadRate n ^ 2 := by
  unfold quadRate
  rw [if_neg (by omega), if_neg h, ← pow_mul, ← pow_succ]
  congr 2
  omega

theorem quadRate_le {n : Nat} (h : n ≠ 0) : quadRate n ≤ 13 / 50 := by
  unfold quadRate
  rw [if_neg h]
  calc (13 / 50 : ℝ) ^ 2 ^ (n - 1) ≤ (13 / 50) ^ 1 := pow_le_pow_of_le_one (by norm_num) (by norm_num) (Nat.one_le_two_pow)
    _ = 13 / 50 := pow_one _

theorem quadRate_nonneg (n : Nat) : 0 ≤ quadRate n := by unfold quadRate; split <;> positivity

/-- the options that change the cost or the system are off, the system is solved by `LDLT` -/
structure SqrtOpts {F : Type} [FloatOps F] (so : SolverOpts F) : Prop where
  sq : so.useSquaredNorm = true
  down : so.downscaleBy2 = false
  norm : so.normalize = false
  clip : eq so.gradClip (ofInt 0) = true
  ldlt : so.useLdlt = true
  diag : lt (ofInt 0) so.checkMinHDiag = false

/-- `LDLT` on a positive number divides -/
def LdltOne {F : Type} [FloatOps F] (L : LinAlg F) : Prop :=
  ∀ h b : F, finite h = true → lt (ofInt 0) h = true → L.ldlt 1 (fun _ _ => h) (fun _ => b) = some fun _ => div b h

section
variable {p : ℕ} {hp : p ≠ 0} {emin : ℤ} {hem : emin ≤ -emin - 2 * p + 3} {ep : ℚ} {aq : ℚ} {N : ℕ}
variable {R W : Type} {so : SolverOpts (Fl (Fmt.ieee p hp emin hem ep))} {L : LinAlg (Fl (Fmt.ieee p hp emin hem ep))}
variable {ratio1 : R} {clock : W → Fl (Fmt.ieee p hp emin hem ep) × W}
  {alloc : W → (k : Nat) → Option (Vec (Fl (Fmt.ieee p hp emin hem ep)) k × Mat (Fl (Fmt.ieee p hp emin hem ep)) k) × W}

/-- finite numbers between half and twice the root -/
def NearRoot (s : ℝ) (x : Fl (Fmt.ieee p hp emin hem ep)) : Prop := ∃ q hq, x = .fin q hq ∧ 1 / 2 ≤ (q : ℝ) / s ∧ (q : ℝ) / s ≤ 2

theorem sqrt_delivers (h : SqrtFmt p hp emin hem ep aq N) {s : ℝ} (hs : 0 < s) (hsa : s ^ 2 = aq) {a x : Fl (Fmt.ieee p hp emin hem ep)} {ha}
    (ea : a = .fin aq ha) (hso : SqrtOpts so) (hL : LdltOne L) (hx : NearRoot s x) (w : W) (st : GNState (Fl (Fmt.ieee p hp emin hem ep)) R) (hst : st.n = 1) :
    Delivers (gnEnv so L (sqrtProbF a ratio1 clock alloc)) w st x
      ⟨1, fun _ => mul (mul (ofInt 2) x) (sqrtRes a x), fun _ _ => mul (mul (ofInt 2) x) (mul (ofInt 2) x),
        { cost := mul (sqrtRes a x) (sqrtRes a x), num := 1, inlier := ratio1 }⟩ ⟨1, fun _ => sqrtStep a x⟩ := by
  obtain ⟨q, hq, ex, h1, h2⟩ := hx
  obtain ⟨r, hr, H, hH, d, hd, x', hx', c, hc, dd, hdd, er, eH, H0, ed, ex', ec, edd, ec1, ec2, -⟩ := sqrt_stepF h hs hsa ea ex h1 h2
  obtain ⟨n, g0, H0', c0⟩ := st
  obtain rfl : n = 1 := hst
  have hval : ({ cost := mul (sqrtRes a x) (sqrtRes a x), num := 1, inlier := ratio1 } : Cost (Fl (Fmt.ieee p hp emin hem ep)) R).isValid = true := by
    unfold Cost.isValid
    rw [ec]
    have : eq (Fl.fin c hc : Fl (Fmt.ieee p hp emin hem ep)) maxVal = false := by
      show decide (c = (Fmt.ieee p hp emin hem ep).max) = false
      simpa using ec2.ne
    simp [FloatOps.ne, this]
  have hnorm : normalizeCost so ({ cost := mul (sqrtRes a x) (sqrtRes a x), num := 1, inlier := ratio1 } : Cost _ R) =
      { cost := mul (sqrtRes a x) (sqrtRes a x), num := 1, inlier := ratio1 } := by
    unfold normalizeCost
    simp [hso.sq, hso.down, hso.norm]
  have hacc : gnAccumulate so (sqrtProbF a ratio1 clock alloc) w ⟨1, g0, H0', c0⟩ x =
      (⟨1, fun _ => mul (mul (ofInt 2) x) (sqrtRes a x), fun _ _ => mul (mul (ofInt 2) x) (mul (ofInt 2) x),
        { cost := mul (sqrtRes a x) (sqrtRes a x), num := 1, inlier := ratio1 }⟩, w) := by
    unfold gnAccumulate
    simp only [sqrtProbF, hnorm]
    simp
  refine ⟨⟨⟨1, g0, H0', c0⟩, w, w, ?_, ?_⟩, ?_, ?_, ?_, fun q => ⟨_, rfl⟩, ⟨_, rfl⟩⟩
  · simp [resizeIfNeeded, gnEnv, envOf, gnSolver, gnResize, sqrtProbF]
  · show buildSystem so (sqrtProbF a ratio1 clock alloc) w ⟨1, g0, H0', c0⟩ x = _
    unfold buildSystem
    rw [hacc]
    simp only [hval, if_true, hso.diag, Bool.false_and, Bool.false_eq_true, if_false, hso.ldlt, Bool.not_true, Bool.and_false]
    unfold clampVec
    rw [if_pos hso.clip]
  · show gnSolve so L _ _ = _
    unfold gnSolve
    simp only [hval, if_true, hso.ldlt]
    unfold solveLDLT
    have e1 : symUpper (fun _ _ : Fin 1 => mul (mul (ofInt 2) x) (mul (ofInt 2) x)) = fun _ _ => mul (mul (ofInt 2) x) (mul (ofInt 2) x) := by
      funext i j; simp [symUpper]
    rw [e1]
    have e2 := hL (mul (mul (ofInt 2) x) (mul (ofInt 2) x)) (neg (mul (mul (ofInt 2) x) (sqrtRes a x)))
      (by rw [eH, Fl.finite_iff]; exact ⟨_, _, rfl⟩) (by rw [eH]; obtain ⟨hz, ez⟩ := Fl.ofInt_zero' (f := Fmt.ieee p hp emin hem ep); rw [ez]; exact decide_eq_true H0)
    show (L.ldlt 1 _ (fun _ => neg (mul (mul (ofInt 2) x) (sqrtRes a x)))).map _ = _
    rw [e2]
    rfl
  · show finite (mul (sqrtRes a x) (sqrtRes a x)) = true
    rw [ec, Fl.finite_iff]; exact ⟨_, _, rfl⟩
  · show finite (add (ofInt 0) (mul (sqrtStep a x) (sqrtStep a x))) = true
    rw [edd]
    obtain ⟨hz, ez⟩ := Fl.ofInt_zero' (f := Fmt.ieee p hp emin hem ep)
    obtain ⟨y, hy, ey, -⟩ := Fl.add_err (ha := hz) (hb := hdd) (by
      have := hdd.2
      rw [Rat.cast_zero, zero_add]; exact_mod_cast this)
    rw [ez, ey, Fl.finite_iff]; exact ⟨_, _, rfl⟩

/-- the limit below which rounding errors decide -/
theorem limit_le (h : SqrtFmt p hp emin hem ep aq N) {s : ℝ} (hs : 0 < s) (hsa : s ^ 2 = aq) :
    16 * (1 / 2 ^ p : ℝ) ≤ 16 * (1 / 2 ^ p) + N * (3 * (1 / 2 ^ p)) ∧ 16 * (1 / 2 ^ p : ℝ) + N * (3 * (1 / 2 ^ p)) ≤ 1 / 64 := by
  obtain ⟨-, h2, -⟩ := h.real hs hsa
  constructor
  · have : (0 : ℝ) ≤ N * (3 * (1 / 2 ^ p)) := by positivity
    linarith
  · linarith

theorem sqrt_noisy (h : SqrtFmt p hp emin hem ep aq N) {s : ℝ} (hs : 0 < s) (hsa : s ^ 2 = aq) {a : Fl (Fmt.ieee p hp emin hem ep)} {ha}
    (ea : a = .fin aq ha) (hso : SqrtOpts so) (hL : LdltOne L) :
    NoisyDescent (gnEnv so L (sqrtProbF a ratio1 clock alloc)) (fun st : GNState _ R => st.n = 1) (NearRoot s) (fun x => ⟨1, fun _ => sqrtStep a x⟩)
      (fun x => mul (sqrtRes a x) (sqrtRes a x)) (relErr s) quadRate (16 * (1 / 2 ^ p)) (3 * (1 / 2 ^ p)) N := by
  obtain ⟨B1, B2⟩ := limit_le h hs hsa
  have hrange : ∀ {q : ℚ}, |(q : ℝ) / s - 1| ≤ 13 / 50 → 1 / 2 ≤ (q : ℝ) / s ∧ (q : ℝ) / s ≤ 2 := fun hq => by
    have := abs_le.mp hq; constructor <;> linarith
  have hrate : ∀ x, NearRoot s x → relErr s x ≤ 13 / 50 →
      relErr s (add x (sqrtStep a x)) ≤ max (relErr s x ^ 2) (16 * (1 / 2 ^ p) + N * (3 * (1 / 2 ^ p))) := by
    rintro x ⟨q, hq, ex, h1, h2⟩ he
    obtain ⟨r, hr, H, hH, d, hd, x', hx', c, hc, dd, hdd, er, eH, H0, ed, ex', ec, edd, ec1, ec2, hn⟩ := sqrt_stepF h hs hsa ea ex h1 h2
    rw [ed, ex', ex] at *
    have := hn.rate he B1
    rw [← sq_abs] at this
    exact this
  refine ⟨?_, ?_, ?_, ?_, ?_, ?_⟩
  · intro w st x hok hx
    refine ⟨_, sqrt_delivers h hs hsa ea hso hL hx w st hok, rfl, ?_⟩
    rintro s3 b (rfl | ⟨q, hq⟩ | hq)
    · rfl
    · injection hq with hq; subst hq; rfl
    · injection hq with hq; subst hq; rfl
  · rintro x ⟨q, hq, ex, h1, h2⟩
    obtain ⟨r, hr, H, hH, d, hd, x', hx', c, hc, dd, hdd, er, eH, H0, ed, ex', ec, edd, ec1, ec2, hn⟩ := sqrt_stepF h hs hsa ea ex h1 h2
    refine ⟨x', hx', ?_, hrange (hn.into h1 h2)⟩
    show add x (sqrtStep a x) = _
    rw [ed]; exact ex'
  · intro i x hx he
    show relErr s (add x (sqrtStep a x)) ≤ _
    rcases Nat.eq_zero_or_pos i with rfl | hi
    · obtain ⟨q, hq, ex, h1, h2⟩ := hx
      obtain ⟨r, hr, H, hH, d, hd, x', hx', c, hc, dd, hdd, er, eH, H0, ed, ex', ec, edd, ec1, ec2, hn⟩ := sqrt_stepF h hs hsa ea ex h1 h2
      rw [ed, ex']
      refine le_max_of_le_left ((hn.into h1 h2).trans ?_)
      norm_num [quadRate]
    · have h13 : relErr s x ≤ 13 / 50 := he.trans (max_le (quadRate_le (by omega)) (B2.trans (by norm_num)))
      refine (hrate x hx h13).trans (max_le ?_ (le_max_right _ _))
      rw [quadRate_succ (by omega)]
      have h0 : 0 ≤ relErr s x := abs_nonneg _
      rcases le_max_iff.mp he with h1 | h1
      · exact le_max_of_le_left (pow_le_pow_left₀ h0 h1 2)
      · refine le_max_of_le_right ?_
        have : relErr s x * relErr s x ≤ 1 * (16 * (1 / 2 ^ p) + N * (3 * (1 / 2 ^ p))) := mul_le_mul (by linarith) h1 h0 (by norm_num)
        rw [sq]; linarith
  · intro x hx he
    show relErr s (add x (sqrtStep a x)) ≤ _
    have h0 : 0 ≤ relErr s x := abs_nonneg _
    refine (hrate x hx (by linarith)).trans (max_le ?_ le_rfl)
    have : relErr s x * relErr s x ≤ 1 * (16 * (1 / 2 ^ p) + N * (3 * (1 / 2 ^ p))) := mul_le_mul (by linarith) he h0 (by norm_num)
    rw [sq]; linarith
  · rintro x ⟨q, hq, ex, h1, h2⟩ hT
    obtain ⟨r, hr, H, hH, d, hd, x', hx', c, hc, dd, hdd, er, eH, H0, ed, ex', ec, edd, ec1, ec2, hn⟩ := sqrt_stepF h hs hsa ea ex h1 h2
    have hx1 := hrange (hn.into h1 h2)
    obtain ⟨r1, hr1, _, _, _, _, _, _, c1, hc1, _, _, er', _, _, _, _, ec', _, ec1', _, hn'⟩ := sqrt_stepF h hs hsa (x := .fin x' hx') ea rfl hx1.1 hx1.2
    rw [ex] at hT
    obtain ⟨k1, k2⟩ := hn.decrease h1 h2 hT hn'.res
    show lt (sub (mul (sqrtRes a (add x (sqrtStep a x))) (sqrtRes a (add x (sqrtStep a x)))) (mul (sqrtRes a x) (sqrtRes a x))) (ofInt 0) = true
    rw [ec, ed, ex', ec', FloatLaws.sub_neg _ _ ((Fl.finite_iff _).mpr ⟨_, _, rfl⟩) ((Fl.finite_iff _).mpr ⟨_, _, rfl⟩)]
    refine decide_eq_true ?_
    have hE := (h.real hs hsa).2.2.2.1 4 le_rfl
    have u0 : (0 : ℝ) < 1 / 2 ^ p := by positivity
    have u1 := hn.u1
    have s4 : 0 < s ^ 4 := by positivity
    have a1 := abs_le.mp ec1
    have a2 := abs_le.mp ec1'
    have m1 : (r1 : ℝ) ^ 2 ≤ 81 / 100 * r ^ 2 := by
      rw [abs_div, abs_div, abs_of_pos (by positivity : 0 < s ^ 2), ← mul_div_assoc, div_le_div_iff_of_pos_right (by positivity)] at k1
      have := pow_le_pow_left₀ (abs_nonneg _) k1 2
      rw [mul_pow, sq_abs, sq_abs] at this
      linarith
    have m2 : 256 * (s ^ 4 * (1 / 2 ^ p) ^ 2) ≤ (r : ℝ) ^ 2 := by
      rw [abs_div, abs_of_pos (by positivity : 0 < s ^ 2), le_div_iff₀ (by positivity)] at k2
      have := pow_le_pow_left₀ (by positivity) k2 2
      rw [sq_abs] at this
      linarith
    have m3 : 0 < s ^ 4 * (1 / 2 ^ p : ℝ) ^ 2 := by positivity
    have m4 : (r1 : ℝ) ^ 2 * (1 / 2 ^ p) ≤ (81 / 100 * r ^ 2) * (1 / 1024) := mul_le_mul m1 u1 u0.le (by positivity)
    have m5 : (r : ℝ) ^ 2 * (1 / 2 ^ p) ≤ r ^ 2 * (1 / 1024) := mul_le_mul_of_nonneg_left u1 (sq_nonneg _)
    have : (c1 : ℝ) < c := by linarith
    exact_mod_cast this
  · rintro x ⟨q, hq, ex, h1, h2⟩ he
    obtain ⟨r, hr, H, hH, d, hd, x', hx', c, hc, dd, hdd, er, eH, H0, ed, ex', ec, edd, ec1, ec2, hn⟩ := sqrt_stepF h hs hsa ea ex h1 h2
    rw [ex] at he
    have he' : |(q : ℝ) / s - 1| ≤ 16 * (1 / 2 ^ p) + N * (3 * (1 / 2 ^ p)) := he
    have hnear : |(x' : ℝ) / s - 1| ≤ 1 / 64 := by
      refine (hn.rate (by linarith) B1).trans (max_le ?_ B2)
      rw [← sq_abs, sq]
      calc _ ≤ (1 : ℝ) * (1 / 64) := mul_le_mul (by linarith) (by linarith) (abs_nonneg _) (by norm_num)
        _ = 1 / 64 := one_mul _
    obtain ⟨δ, hδ, eδ⟩ := hn.upd
    have u0 : (0 : ℝ) < 1 / 2 ^ p := by positivity
    have u1 := hn.u1
    have hδ' := abs_le.mp hδ
    have hn1 := abs_le.mp hnear
    have hq1 := abs_le.mp he'
    -- the exact sum
    have c1 : |(q : ℝ) / s + d / s| ≤ 103 / 100 := by
      have e : (q : ℝ) / s + d / s = x' / s / (1 + δ) := by rw [eδ]; field_simp [show (1 + δ) ≠ 0 by linarith]
      rw [e, abs_div, abs_of_pos (by linarith : 0 < 1 + δ), div_le_iff₀ (by linarith), abs_of_nonneg (by linarith)]
      linarith
    have c2 : |(x' : ℝ) / s - (q / s + d / s)| ≤ 11 / 10 * (1 / 2 ^ p) := by
      rw [eδ, show ((q : ℝ) / s + d / s) * (1 + δ) - (q / s + d / s) = (q / s + d / s) * δ by ring, abs_mul]
      have := mul_le_mul c1 hδ (abs_nonneg _) (by norm_num)
      linarith
    have hc2 := abs_le.mp c2
    have c3 : |(x' : ℝ) / s + (-d) / s| ≤ 103 / 100 := by
      rw [neg_div, abs_le]; constructor <;> linarith
    have c3' : |(x' : ℝ) + ((-d : ℚ) : ℝ)| ≤ 103 / 100 * s := by
      push_cast
      rw [← add_div, abs_div, abs_of_pos hs, div_le_iff₀ hs] at c3
      exact c3
    have M1 : 1024 * s ≤ ((Fmt.ieee p hp emin hem ep).max : ℝ) := by simpa using (h.real hs hsa).2.2.2.2 1 (by norm_num)
    obtain ⟨z, hz, ez, ez1⟩ := Fl.add_err (ha := hx') (hb := ⟨gridBin_neg hd.1, by rw [abs_neg]; exact hd.2⟩) (c3'.trans (by linarith))
    have c4 : |(z : ℝ) / s - (x' / s + (-d) / s)| ≤ 103 / 100 * (1 / 2 ^ p) := by
      have e : (z : ℝ) / s - (x' / s + (-d) / s) = (z - (x' + ((-d : ℚ) : ℝ))) / s := by push_cast; field_simp
      rw [e, abs_div, abs_of_pos hs, div_le_iff₀ hs]
      have := mul_le_mul_of_nonneg_right c3' u0.le
      linarith
    have hc4 := abs_le.mp c4
    have c5 : |(z : ℝ) / s - 1| ≤ |(q : ℝ) / s - 1| + 3 * (1 / 2 ^ p) := by
      have c6 : |(z : ℝ) / s - q / s| ≤ 3 * (1 / 2 ^ p) := by
        rw [neg_div] at hc4
        rw [abs_le]; constructor <;> linarith
      have := abs_add_le ((z : ℝ) / s - q / s) (q / s - 1)
      rw [sub_add_sub_cancel] at this
      linarith
    have e : (gnEnv so L (sqrtProbF a ratio1 clock alloc)).plusEq ((gnEnv so L (sqrtProbF a ratio1 clock alloc)).plusEq x ⟨1, fun _ => sqrtStep a x⟩)
        ((gnEnv so L (sqrtProbF a ratio1 clock alloc)).negV ⟨1, fun _ => sqrtStep a x⟩) = .fin z hz := by
      show add (add x (sqrtStep a x)) (neg (sqrtStep a x)) = _
      rw [ed, ex']; exact ez
    rw [e, ex]
    exact ⟨⟨z, hz, rfl, hrange (by linarith)⟩, c5⟩

/-- **C92** Gauss-Newton on the square root example, in any IEEE format with enough digits and for any `a` far enough from its limits, started anywhere between
half and twice the root: the run ends normally, every point of it is finite, the relative error after `i` iterations is at most 0.26 to the power `2^(i-1)`,
or `16 + 3 N` units of rounding, where `N` bounds the number of consecutive failures (`max_consec_failures`, or the number of iterations if this is 0); and
without stop criteria it is so for the number of iterations asked for. -/
theorem C92_sqrt (h : SqrtFmt p hp emin hem ep aq N) {a : Fl (Fmt.ieee p hp emin hem ep)} {ha} (ea : a = .fin aq ha) (hso : SqrtOpts so) (hL : LdltOne L)
    {o : Options (Fl (Fmt.ieee p hp emin hem ep)) W (DVec (Fl (Fmt.ieee p hp emin hem ep)))} {mi k : Int} (hk : loopBound o mi = some k) (hk2 : k ≤ 65536)
    (hN : (0 < o.maxConsecFailures ∧ o.maxConsecFailures ≤ N ∧ o.maxConsecFailures ≤ 255) ∨ k ≤ N)
    {q0 : ℚ} {hq0} (h1 : Real.sqrt aq / 2 ≤ q0) (h2 : (q0 : ℝ) ≤ 2 * Real.sqrt aq) (fuel : Nat) (w : W)
    (g : Vec (Fl (Fmt.ieee p hp emin hem ep)) 1) (H : Mat (Fl (Fmt.ieee p hp emin hem ep)) 1) :
    ∃ st, ∃ (q : ℚ) (hq : _), optimizeAcc (gnEnv so L (sqrtProbF a ratio1 clock alloc)) o (fuel + 1) mi w (gnFresh (sqrtProbF a ratio1 clock alloc) g H) (.fin q0 hq0) = .ok st ∧
      st.x = .fin q hq ∧ |(q : ℝ) - Real.sqrt aq| ≤ Real.sqrt aq * max (quadRate st.trace.length) ((16 + 3 * N) / 2 ^ p) ∧
      (∀ i r, st.trace[i]? = some r → ∃ (q : ℚ) (hq : _), r.x = .fin q hq ∧ |(q : ℝ) - Real.sqrt aq| ≤ Real.sqrt aq * max (quadRate i) ((16 + 3 * N) / 2 ^ p)) ∧
      (Quiet o → |(q : ℝ) - Real.sqrt aq| ≤ Real.sqrt aq * max (quadRate k.toNat) ((16 + 3 * N) / 2 ^ p)) := by
  have ha0 : (0 : ℝ) < aq := by exact_mod_cast h.pos
  have hs : 0 < Real.sqrt aq := Real.sqrt_pos.mpr ha0
  have hsa : Real.sqrt aq ^ 2 = aq := Real.sq_sqrt ha0.le
  have eB : 16 * (1 / 2 ^ p : ℝ) + N * (3 * (1 / 2 ^ p)) = (16 + 3 * N) / 2 ^ p := by ring
  have hx0 : NearRoot (Real.sqrt aq) (.fin q0 hq0 : Fl (Fmt.ieee p hp emin hem ep)) :=
    ⟨q0, hq0, rfl, by rw [le_div_iff₀ hs]; linarith, by rw [div_le_iff₀ hs]; linarith⟩
  have conv : ∀ {q : ℚ} {hq} {B : ℝ}, relErr (Real.sqrt aq) (.fin q hq : Fl (Fmt.ieee p hp emin hem ep)) ≤ B → |(q : ℝ) - Real.sqrt aq| ≤ Real.sqrt aq * B := by
    intro q hq B hB
    have e : (q : ℝ) - Real.sqrt aq = Real.sqrt aq * (q / Real.sqrt aq - 1) := by field_simp
    rw [e, abs_mul, abs_of_pos hs]
    exact mul_le_mul_of_nonneg_left hB hs.le
  obtain ⟨st, e, ⟨q, hq, ex, -⟩, e2, e3, e4⟩ := noisy_run (sqrt_noisy (ratio1 := ratio1) (clock := clock) (alloc := alloc) h hs hsa ea hso hL) (by positivity)
    (fuel := fuel) hk hk2 hN (w := w) (s := gnFresh (sqrtProbF a ratio1 clock alloc) g H) rfl hx0 (by
      obtain ⟨q, hq, e, h1, h2⟩ := hx0
      rw [e]
      show |(q : ℝ) / Real.sqrt aq - 1| ≤ quadRate 0
      rw [quadRate, if_pos rfl, abs_le]; constructor <;> linarith)
  rw [eB] at e2 e4
  rw [ex] at e2 e4
  refine ⟨st, q, hq, e, ex, conv e2, fun i r hr => ?_, fun hq' => ?_⟩
  · obtain ⟨⟨q, hq, er, -⟩, e5⟩ := e3 i r hr
    rw [eB, er] at e5
    exact ⟨q, hq, er, conv e5⟩
  · rcases e4 hq' with h5 | h5
    · rw [← h5, Int.toNat_natCast]; exact conv e2
    · exact conv (h5.trans (le_max_right _ _))

end

/-- `float` and the test's number satisfy the conditions, for up to 22 failures -/
theorem sqrt2_float : SqrtFmt 24 (by norm_num) (-149) (by norm_num) (13743895 / 2 ^ 37) 2 22 := by
  refine ⟨by norm_num, by norm_num, by norm_num, by norm_num, ?_, ?_⟩ <;> norm_num [Fmt.ieee]

set_option exponentiation.threshold 3000 in
/-- so do `double` and all numbers between 2⁻⁴⁰⁰ and 2⁴⁰⁰ -/
theorem sqrt_double {aq : ℚ} (h1 : (2 : ℚ) ^ (-400 : ℤ) ≤ aq) (h2 : aq ≤ 2 ^ 400) {N : ℕ} (hN : N ≤ 65536) :
    SqrtFmt 53 (by norm_num) (-1074) (by norm_num) (14073749 / 2 ^ 47) aq N := by
  have h0 : (0 : ℚ) < aq := lt_of_lt_of_le (by positivity) h1
  refine ⟨h0, by omega, by norm_num, ?_, by norm_num [Fmt.ieee], ?_⟩
  · have := pow_le_pow_left₀ (by positivity) h1 2
    refine le_trans ?_ (div_le_div_of_nonneg_right this (by positivity))
    norm_num
  · have := pow_le_pow_left₀ h0.le h2 2
    refine (mul_le_mul_of_nonneg_left this (by norm_num)).trans ?_
    norm_num [Fmt.ieee]

section
variable {R W : Type} {ratio1 : R}

/-- **C92**, the numbers of tests/sqrt2.cpp (`float`, 20 iterations, `max_consec_failures = 0`, margin `1e-5`), for every start between 0.71 and 2.82, with the
stop criteria off. -/
theorem C92_sqrt2_float {so : SolverOpts (Fl Fmt.binary32)} {L : LinAlg (Fl Fmt.binary32)} (hso : SqrtOpts so) (hL : LdltOne L) {clock : W → Fl Fmt.binary32 × W}
    {alloc : W → (k : Nat) → Option (Vec (Fl Fmt.binary32) k × Mat (Fl Fmt.binary32) k) × W}
    {o : Options (Fl Fmt.binary32) W (DVec (Fl Fmt.binary32))} (ho : Quiet o) {k : Int} (hk : loopBound o 20 = some k)
    {q0 : ℚ} {hq0} (h1 : 71 / 100 ≤ q0) (h2 : q0 ≤ 282 / 100) (fuel : Nat) (w : W) (g : Vec (Fl Fmt.binary32) 1) (H : Mat (Fl Fmt.binary32) 1) :
    ∃ st, ∃ (q : ℚ) (hq : _), optimizeAcc (gnEnv so L (sqrtProbF (ofInt 2) ratio1 clock alloc)) o (fuel + 1) 20 w (gnFresh (sqrtProbF (ofInt 2) ratio1 clock alloc) g H) (.fin q0 hq0) = .ok st ∧
      st.x = .fin q hq ∧ |(q : ℝ) - Real.sqrt 2| ≤ 1 / 100000 := by
  have hk' : 21 ≤ k ∧ k ≤ 22 := by
    simp only [loopBound, intMax] at hk
    rw [if_neg (by norm_num : ¬ (20 : Int) < 0)] at hk
    cases o.checkFinalCost <;> norm_num at hk <;> omega
  have e2 := (ieee_hasTwo (hp := by norm_num) (hem := by norm_num) (ep := 13743895 / 2 ^ 37) (p := 24) (emin := -149) (by norm_num)).two
  have hlo : (141 / 100 : ℝ) ≤ Real.sqrt 2 := Real.le_sqrt_of_sq_le (by norm_num)
  have hhi : Real.sqrt 2 ≤ 1415 / 1000 := Real.sqrt_le_iff.mpr ⟨by norm_num, by norm_num⟩
  have h1' : ((71 / 100 : ℚ) : ℝ) ≤ q0 := by exact_mod_cast h1
  have h2' : (q0 : ℝ) ≤ ((282 / 100 : ℚ) : ℝ) := by exact_mod_cast h2
  push_cast at h1' h2'
  obtain ⟨st, q, hq, e, ex, -, -, hfin⟩ := C92_sqrt (ratio1 := ratio1) (clock := clock) (alloc := alloc) sqrt2_float e2 hso hL hk (by omega) (.inr (by omega))
    (q0 := q0) (hq0 := hq0) (by push_cast; linarith) (by push_cast; linarith) fuel w g H
  refine ⟨st, q, hq, e, ex, ?_⟩
  have := hfin ho
  push_cast at this
  refine this.trans ?_
  have hm : max (quadRate k.toNat) ((16 + 3 * 22) / 2 ^ 24) ≤ (82 / 2 ^ 24 : ℝ) := by
    refine max_le ?_ (by norm_num)
    have hk6 : quadRate k.toNat ≤ (13 / 50) ^ 2 ^ 5 := by
      unfold quadRate
      rw [if_neg (by omega)]
      exact pow_le_pow_of_le_one (by norm_num) (by norm_num) (Nat.pow_le_pow_right (by norm_num) (by omega))
    exact hk6.trans (by norm_num)
  calc _ ≤ 1415 / 1000 * (82 / 2 ^ 24 : ℝ) := mul_le_mul hhi hm (le_max_of_le_left (quadRate_nonneg _)) (by norm_num)
    _ ≤ 1 / 100000 := by norm_num

end

/-! ### Concrete case -/

/-- exact division for matrices of size 1, nothing for others -/
def linOne {F : Type} [FloatOps F] : LinAlg F where
  ldlt := fun n A b => if n = 1 then some fun i => div (b i) (A i i) else none
  inv := fun _ A => A

theorem linOne_ldlt {F : Type} [FloatOps F] : LdltOne (linOne : LinAlg F) := fun _ _ _ _ => rfl

def sqrtExOpts (n : Nat) : Options (Fl Fmt.binary32) Nat (DVec (Fl Fmt.binary32)) where
  checkFinalCost := false
  useStepQuality := false
  saveLast := true
  maxIters := n
  minError := ofInt 0
  minRerrDec := ofInt 0
  minStepNorm2 := ofInt 0
  minGradNorm2 := ofInt 0
  maxTotalFailures := 0
  maxConsecFailures := 0
  maxDurationMs := ofInt 0
  stopCallback := none
  stopCallback2 := none

def sqrtExSopts : SolverOpts (Fl Fmt.binary32) where
  useSquaredNorm := true
  downscaleBy2 := false
  normalize := false
  gradClip := ofInt 0
  useLdlt := true
  hIsFull := true
  checkMinHDiag := ofInt 0
  dampInit := div (ofInt 1) (ofInt 10000)
  dampLo := div (ofInt 1) (ofInt 1000000000)
  dampHi := ofInt 1000000000
  goodFactor := div (ofInt 1) (ofInt 3)
  badFactor := ofInt 2
  lr := ofInt 1

theorem sqrtExSopts_ok : SqrtOpts sqrtExSopts :=
  ⟨rfl, rfl, rfl, by decide +kernel, rfl, by decide +kernel⟩

/-- the hypotheses of `C92_sqrt2_float` hold for the start 1 -/
example : ∃ st, ∃ (q : ℚ) (hq : _), optimizeAcc (gnEnv sqrtExSopts linOne (sqrtProbF (ofInt 2) () (fun w : Nat => (ofInt 0, w)) fun w _ => (none, w))) (sqrtExOpts 7) 1 20 0
    (gnFresh (sqrtProbF (ofInt 2) () (fun w : Nat => (ofInt 0, w)) fun w _ => (none, w)) (fun _ => ofInt 7) fun _ _ => ofInt 7) (ofInt 1) = .ok st ∧
    st.x = .fin q hq ∧ |(q : ℝ) - Real.sqrt 2| ≤ 1 / 100000 := by
  have e1 := (ieee_hasTwo (hp := by norm_num) (hem := by norm_num) (ep := 13743895 / 2 ^ 37) (p := 24) (emin := -149) (by norm_num)).one
  obtain ⟨hq, e⟩ : ∃ hq, (ofInt 1 : Fl Fmt.binary32) = .fin 1 hq := ⟨_, e1⟩
  have := C92_sqrt2_float (ratio1 := ()) (clock := fun w : Nat => (ofInt 0, w)) (alloc := fun w _ => (none, w)) sqrtExSopts_ok linOne_ldlt (o := sqrtExOpts 7)
    ⟨by decide +kernel, by decide +kernel, by decide +kernel, by decide +kernel, rfl, rfl, by decide +kernel⟩ (k := 21) (by decide +kernel)
    (q0 := 1) (hq0 := hq) (by norm_num) (by norm_num) 0 0 (fun _ => ofInt 7) fun _ _ => ofInt 7
  rw [e]
  exact this

/-- The run in `float`: after 4 steps nothing can be improved, the step no longer decreases the computed cost and is rejected, again and again. -/
example : (match optimizeAcc (gnEnv sqrtExSopts linOne (sqrtProbF (ofInt 2) () (fun w : Nat => (ofInt 0, w)) fun w _ => (none, w))) (sqrtExOpts 6) 1 (-1) 0
    (gnFresh (sqrtProbF (ofInt 2) () (fun w : Nat => (ofInt 0, w)) fun w _ => (none, w)) (fun _ => ofInt 7) fun _ _ => ofInt 7) (ofInt 1) with
    | Res.ok st => some (st.trace.map fun r => (flVal (Rec.x r), Rec.succ r))
    | _ => none) = some [(1, true), (3 / 2, true), (11883861 / 8388608, true), (11863301 / 8388608, true), (11863283 / 8388608, true),
      (11863283 / 8388608, false), (11863283 / 8388608, false)] := by
  decide +kernel

end Verif
