import Verif.Props.FloatRun
/-!
# C120: Gauss-Newton finds the minimum of `|x - z|` to the last bit (tests/basic.cpp in IEEE `double` arithmetic)
-/

set_option linter.unusedSectionVars false

namespace Verif
open FloatOps

/-- **Sterbenz' lemma.** The difference of two numbers of the grid that are close to each other is on the grid. -/
theorem sterbenz {p : ℕ} {emin : ℤ} {a b : ℚ} (ha : GridBin p emin a) (hb : GridBin p emin b) (h : |a - b| ≤ |b| / 2) : GridBin p emin (a - b) := by
  have hab : |a - b| ≤ |a| := by
    have := abs_sub_abs_le_abs_sub b a
    rw [abs_sub_comm b a] at this
    linarith
  have hbb : |a - b| ≤ |b| := h.trans (by have := abs_nonneg b; linarith)
  obtain ⟨m, e, hm, he, rfl⟩ := ha
  obtain ⟨n, f, hn, hf, rfl⟩ := hb
  have key : ∀ (m n e f : ℤ), e ≤ f → ∃ k : ℤ, (m : ℚ) * 2 ^ e - n * 2 ^ f = k * 2 ^ e := by
    intro m n e f hef
    obtain ⟨j, rfl⟩ := Int.le.dest hef
    refine ⟨m - n * 2 ^ j, ?_⟩
    rw [zpow_add₀ (by norm_num), zpow_natCast]; push_cast; ring
  have fin : ∀ (k m e : ℤ), |m| < 2 ^ p → |(k : ℚ) * 2 ^ e| ≤ |(m : ℚ) * 2 ^ e| → |k| < 2 ^ p := by
    intro k m e hm h
    rw [abs_mul, abs_mul] at h
    have h1 := le_of_mul_le_mul_right h (abs_pos.2 (two_zpow_pos e).ne')
    have : |k| ≤ |m| := by exact_mod_cast h1
    exact lt_of_le_of_lt this hm
  rcases le_total e f with hef | hef
  · obtain ⟨k, hk⟩ := key m n e f hef
    rw [hk] at hab
    exact ⟨k, e, fin k m e hm hab, he, hk⟩
  · obtain ⟨k, hk⟩ := key n m f e hef
    have hk' : (m : ℚ) * 2 ^ e - n * 2 ^ f = (-k : ℤ) * 2 ^ f := by push_cast; linarith
    rw [hk'] at hbb
    exact ⟨-k, f, fin (-k) n f hn hbb, hf, hk'⟩

section
variable {R W : Type} {P : Problem F64 R W (Vec F64 1)} {z : F64} {tol : F64} {inv : (n : Nat) → Mat F64 n → Mat F64 n}

/-- the Gauss-Newton step at `x` -/
def GnOne (c : ℚ) (x : Vec F64 1) (d : DVec F64) : Prop :=
  ∃ q v δ, Val (x 0) q ∧ d = ⟨1, fun _ => v⟩ ∧ Val v δ ∧ |q + δ - c| ≤ |q - c| / 2 ^ 53 ∧ (|q - c| ≤ |c| / 2 → δ = c - q)

theorem locGn_delivers (h : LocTest P z) {c : ℚ} (hz : Val z c) {t : ℚ} (ht : Val tol t) (ht2 : t < 1 / 2) (w : W) (s : GNState F64 R) (hs : s.n = 1) (x : Vec F64 1) {q : ℚ} (hx : Val (x 0) q)
    (hq : |q - c| ≤ 10 ^ 151) :
    ∃ s2 dx, Delivers (gnEnv (defaultSolverOpts litD) (eigenLinAlg tol inv) P) w s x s2 dx ∧ s2.cost.cost = absF (sub (x 0) z) ∧
      sqNorm s2.g = sqNorm (n := 1) (fun _ => sub (x 0) z) ∧ GnOne c x dx ∧ s2.n = 1 := by
  obtain ⟨ρ, hρ, hρe⟩ := hx.sub hz (hq.trans (big_ten (by norm_num)))
  have hρ2 : |ρ| ≤ 2 * 10 ^ 151 := by
    have := abs_sub_abs_le_abs_sub ρ (q - c)
    have h0 := abs_nonneg (q - c)
    have : |q - c| / 2 ^ 53 ≤ |q - c| := div_le_self h0 (one_le_pow₀ (by norm_num))
    linarith
  have hρ3 : |ρ| ≤ 10 ^ 152 := hρ2.trans (by norm_num)
  have hdiv := hρ.neg.div val_one (by norm_num) (by
    rw [div_one, abs_neg]
    exact hρ3.trans (big_ten (by norm_num)))
  rw [div_one, rndBin_id (gridBin_neg hρ.grid)] at hdiv
  have hex : |q - c| ≤ |c| / 2 → ρ = q - c := fun hc => by
    have hg := sterbenz hx.grid hz.grid hc
    have h1 : Val (sub (x 0) z) (rndBin 53 (-1074) (q - c)) := by
      obtain ⟨_, e1⟩ := hx
      obtain ⟨_, e2⟩ := hz
      rw [e1, e2]
      exact val_of_le (hq.trans (big_ten (by norm_num)))
    rw [rndBin_id hg] at h1
    exact hρ.unique h1
  obtain ⟨c0, w1, hf, hc1, hc2⟩ := h.full w x (fun _ => ofInt 0) (fun _ _ => ofInt 0)
  obtain ⟨n0, g0, H0, c00⟩ := s
  obtain rfl : n0 = 1 := hs
  have hcv : c0.isValid = true := by
    unfold Cost.isValid
    rw [hc2, hc1]
    have : FloatOps.eq (absF (sub (x 0) z)) maxVal = false := by
      rw [FloatLaws.eq_spec _ _ hρ.absF.finite FloatLaws.max_finite]
      have hm : Val maxVal Fmt.binary64.max := ⟨_, rfl⟩
      rw [hρ.absF.lt hm]
      have : |ρ| < Fmt.binary64.max := by
        refine lt_of_le_of_lt hρ2 (lt_of_lt_of_le ?_ dbl_max)
        calc (2 : ℚ) * 10 ^ 151 < 10 ^ 152 := by norm_num
          _ ≤ _ := big_ten (by norm_num)
      simp [this]
    simp [ne, this]
  have hnc : normalizeCost (defaultSolverOpts litD) c0 = c0 := by
    unfold normalizeCost; simp [defaultSolverOpts]
  have hb : buildSystem (defaultSolverOpts litD) P w ⟨1, g0, H0, c00⟩ x = (true, ⟨1, fun _ => sub (x 0) z, fun _ _ => ofInt 1, c0⟩, w1) := by
    unfold buildSystem gnAccumulate
    simp only [hf, hnc, hcv, if_true]
    have e1 : (defaultSolverOpts litD).gradClip = ofInt 0 := lit_zero
    have e2 : (defaultSolverOpts litD).checkMinHDiag = ofInt 0 := lit_zero
    have e3 : FloatOps.eq (ofInt 0 : F64) (ofInt 0) = true := by
      rw [FloatLaws.eq_spec _ _ val_zero.finite val_zero.finite]; simp [FloatLaws.lt_irrefl]
    rw [e1, e2]
    simp only [clampVec, e3, if_true, FloatLaws.lt_irrefl, Bool.false_and, Bool.false_eq_true, if_false]
    rfl
  refine ⟨⟨1, fun _ => sub (x 0) z, fun _ _ => ofInt 1, c0⟩, ⟨1, fun _ => div (neg (sub (x 0) z)) (ofInt 1)⟩, ⟨⟨⟨1, g0, H0, c00⟩, w, w1, ?_, hb⟩, ?_, ?_, ?_, fun _ => ⟨_, rfl⟩, ⟨_, rfl⟩⟩,
    hc1, rfl, ⟨q, _, _, hx, rfl, hdiv, ?_, fun hc => by rw [hex hc]; ring⟩, rfl⟩
  · unfold resizeIfNeeded
    have hd : (gnEnv (defaultSolverOpts litD) (eigenLinAlg tol inv) P).dynDims x = 1 := h.dyn x
    simp only [hd]
    rw [if_neg (by simp), if_neg (by norm_num)]
    have : (gnEnv (defaultSolverOpts litD) (eigenLinAlg tol inv) P).sol.resize w ⟨1, g0, H0, c00⟩ 1 = (.done ⟨1, g0, H0, c00⟩, w) := by
      show gnResize P w ⟨1, g0, H0, c00⟩ 1 = (.done ⟨1, g0, H0, c00⟩, w)
      unfold gnResize; rw [h.dims]; simp
    rw [this]
  · show gnSolve _ _ _ _ = _
    unfold gnSolve
    simp only [hcv, if_true]
    have e1 : (defaultSolverOpts litD).useLdlt = true := rfl
    rw [e1]
    simp only [if_true]
    unfold solveLDLT
    have := ldlt_one (tol := tol) (A := symUpper fun _ _ => (ofInt 1 : F64)) (b := negVec fun _ => sub (x 0) z) (a := 1) val_one (by norm_num) ht ht2 hdiv
    show Option.map _ (eigenLdlt tol 1 _ _) = _
    rw [this]
    rfl
  · show finite c0.cost = true
    rw [hc1]; exact hρ.absF.finite
  · refine (sq_one hdiv ?_).finite
    rw [abs_neg]
    exact hρ3.trans (big_ten (by norm_num))
  · rw [show q + -ρ - c = -(ρ - (q - c)) by ring, abs_neg]; exact hρe

/-- the next point of Gauss-Newton -/
theorem locGn_next (h : LocTest P z) {c : ℚ} (hz : Val z c) (hc : |c| ≤ 10 ^ 150) {x : Vec F64 1} {q : ℚ} (hx : Val (x 0) q) (hq : |q - c| ≤ 10 ^ 151) {d : DVec F64} (hd : GnOne c x d) :
    ∃ y, Val (P.plusEq x d 0) y ∧ |y - c| ≤ 11 / 10 / 2 ^ 53 * |q - c| + |c| / 2 ^ 53 ∧ (|q - c| ≤ |c| / 2 → P.plusEq x d 0 = z) := by
  obtain ⟨q', v, δ, hx', rfl, hv, hl, hex⟩ := hd
  obtain rfl := hx.unique hx'
  rw [h.plus]
  have h0 := abs_nonneg (q - c)
  have hc0 := abs_nonneg c
  have hl' : |q - c| / 2 ^ 53 ≤ 1 / 100 * |q - c| := by
    rw [div_eq_mul_one_div, mul_comm]
    exact mul_le_mul_of_nonneg_right (by norm_num) h0
  have h1 : |q + δ| ≤ |q + δ - c| + |c| := by
    have := abs_add_le (q + δ - c) c
    rwa [sub_add_cancel] at this
  have h2 : |q + δ| ≤ 10 ^ 308 := by
    have a1 : (10 : ℚ) ^ 152 = 10 * 10 ^ 151 := by rw [pow_succ]; ring
    have a2 : (10 : ℚ) ^ 152 ≤ 10 ^ 308 := big_ten (by norm_num)
    have a3 : (10 : ℚ) ^ 150 ≤ 10 ^ 151 := big_ten (by norm_num)
    refine le_trans ?_ a2
    rw [a1]
    linarith
  obtain ⟨y, hy, he⟩ := hx.add hv h2
  refine ⟨y, hy, ?_, fun hc2 => ?_⟩
  · have h4 := abs_add_le (y - (q + δ)) (q + δ - c)
    rw [show y - (q + δ) + (q + δ - c) = y - c by ring] at h4
    have h5 : |q + δ| / 2 ^ 53 ≤ (1 / 100 * |q - c| + |c|) / 2 ^ 53 := div_le_div_of_nonneg_right (by linarith) (by positivity)
    have h6 : (11 / 10 / 2 ^ 53 * |q - c| + |c| / 2 ^ 53 : ℚ) = (11 / 10 * |q - c| + |c|) / 2 ^ 53 := by ring
    rw [h6]
    have h7 : |q - c| / 2 ^ 53 + (1 / 100 * |q - c| + |c|) / 2 ^ 53 = (101 / 100 * |q - c| + |c|) / 2 ^ 53 := by ring
    have h8 : (101 / 100 * |q - c| + |c|) / 2 ^ 53 ≤ (11 / 10 * |q - c| + |c|) / 2 ^ 53 := div_le_div_of_nonneg_right (by linarith) (by positivity)
    linarith
  · have e := hex hc2
    subst e
    refine Val.eq_of (q := c) ?_ hz
    obtain ⟨_, e1⟩ := hx
    obtain ⟨_, e2⟩ := hv
    show Val (add (x 0) v) c
    rw [e1, e2]
    have := val_of_le (q := q + (c - q)) h2
    rw [add_sub_cancel, rndBin_id hz.grid] at this
    have e3 : (FloatOps.add (.fin q ‹_›) (.fin (c - q) ‹_›) : F64) = Fl.mk (q + (c - q)) := rfl
    rw [e3, add_sub_cancel]
    exact this

theorem val_self {a : F64} {q : ℚ} (h : Val a q) : Val (sub a a) 0 := by
  obtain ⟨_, rfl⟩ := h
  have := val_of_le (q := q - q) (by rw [sub_self, abs_zero]; exact pow_nonneg (by norm_num) _)
  rw [sub_self, rndBin_zero] at this
  have e : (FloatOps.sub (.fin q ‹_›) (.fin q ‹_›) : F64) = Fl.mk (q - q) := rfl
  rw [e, sub_self]; exact this

/-- the Gauss-Newton step is as long as the distance -/
theorem locGn_len {c q δ : ℚ} (hl : |q + δ - c| ≤ |q - c| / 2 ^ 53) : |δ| ≤ 1001 / 1000 * |q - c| ∧ |q - c| ≤ 1001 / 1000 * |δ| := by
  have h0 := abs_nonneg (q - c)
  have hl' : |q - c| / 2 ^ 53 ≤ 1 / 10000 * |q - c| := by
    rw [div_eq_mul_one_div, mul_comm]
    exact mul_le_mul_of_nonneg_right (by norm_num) h0
  have h1 := abs_sub (q + δ - c) (q - c)
  rw [show q + δ - c - (q - c) = δ by ring] at h1
  have h2 := abs_sub (q + δ - c) δ
  rw [show q + δ - c - δ = q - c by ring] at h2
  constructor <;> linarith

theorem locGn_lower (h : LocTest P z) {c : ℚ} (hz : Val z c) (hc : |c| ≤ 10 ^ 150) {x : Vec F64 1} {q : ℚ} (hx : Val (x 0) q) (hq : |q - c| ≤ 10 ^ 151) {d : DVec F64} (hd : GnOne c x d)
    (hns : lt (sqNorm d.v) (litD (1 / 10 ^ 14)) = false) :
    ∃ ρ ρ', Val (absF (sub (x 0) z)) ρ ∧ Val (absF (sub (P.plusEq x d 0) z)) ρ' ∧ 0 < ρ ∧ ρ' ≤ ρ / 10 ∧ 97 / 10 ^ 9 ≤ |q - c| := by
  obtain ⟨y, hy, hyl, hye⟩ := locGn_next h hz hc hx hq hd
  have hd' := hd
  obtain ⟨q', v, δ, hx', rfl, hv, hl, -⟩ := hd'
  obtain rfl := hx.unique hx'
  obtain ⟨sv, hsv, hs1, hs2⟩ := lit_step
  obtain ⟨hδ1, hδ2⟩ := locGn_len hl
  have h0 := abs_nonneg (q - c)
  have a2 : (10 : ℚ) ^ 153 = 100 * 10 ^ 151 := by rw [show (153 : ℕ) = 2 + 151 by norm_num, pow_add]; norm_num
  have hsq := sq_one hv (by
    rw [a2]
    generalize (10 : ℚ) ^ 151 = B at *
    linarith)
  rw [hsq.lt hsv, decide_eq_false_iff_not] at hns
  have hbig : 98 / 10 ^ 9 < |δ| := by
    by_contra hn
    exact hns ((short_iff hs1 hs2).2 (not_lt.1 hn))
  have hee : 97 / 10 ^ 9 ≤ |q - c| := by linarith
  obtain ⟨ρ, hρ, hρ1, hρ2⟩ := loc_cost hz hx (hq.trans (big_ten (by norm_num)))
  rcases le_total |q - c| (|c| / 2) with hcc | hcc
  · rw [hye hcc]
    refine ⟨|ρ|, |0|, hρ.absF, (val_self hz).absF, by linarith, by rw [abs_zero]; linarith, hee⟩
  · have hy2 : |y - c| ≤ 1 / 1000 * |q - c| := by
      have b1 : (11 / 10 / 2 ^ 53 : ℚ) * |q - c| ≤ 1 / 10000 * |q - c| := mul_le_mul_of_nonneg_right (by norm_num) h0
      have b2 : |c| / 2 ^ 53 ≤ 1 / 10000 * |q - c| := by
        rw [div_le_iff₀ (by positivity)]
        norm_num
        linarith
      linarith
    obtain ⟨ρ', hρ', hρ1', hρ2'⟩ := loc_cost (x := P.plusEq x ⟨1, fun _ => v⟩) hz hy (by
      refine le_trans ?_ (big_ten (by norm_num : 151 ≤ 152))
      linarith)
    exact ⟨|ρ|, |ρ'|, hρ.absF, hρ'.absF, by linarith, by linarith, hee⟩

/-- the levels of the run: distances `2^(52 m) / 4 |c|`, then the minimum itself -/
def gnB (c : ℚ) (k i : ℕ) (e : ℚ) : Prop := (i ≤ k → |e| ≤ 2 ^ (52 * (k - i)) / 4 * |c|) ∧ (k < i → e = 0)

theorem gnB_succ {c : ℚ} {k i : ℕ} {e e' : ℚ} (h : gnB c k i e) (hi : i ≤ k) (h1 : |e'| ≤ 11 / 10 / 2 ^ 53 * |e| + |c| / 2 ^ 53) (h2 : |e| ≤ |c| / 2 → e' = 0) : gnB c k (i + 1) e' := by
  have h := h.1 hi
  have hc := abs_nonneg c
  refine ⟨fun hi' => ?_, fun hi' => h2 ?_⟩
  · obtain ⟨m, hm⟩ : ∃ m, k - i = m + 1 := ⟨k - i - 1, by omega⟩
    have hm' : k - (i + 1) = m := by omega
    rw [hm, show 52 * (m + 1) = 52 * m + 52 by ring, pow_add] at h
    rw [hm']
    have hp : (1 : ℚ) ≤ 2 ^ (52 * m) := one_le_pow₀ (by norm_num)
    have hpc : |c| ≤ 2 ^ (52 * m) * |c| := by
      have := mul_le_mul_of_nonneg_right hp hc
      rwa [one_mul] at this
    have h3 : |e| ≤ 2 ^ 52 / 4 * (2 ^ (52 * m) * |c|) := by
      refine h.trans (le_of_eq ?_); ring
    have h4 : (11 / 10 / 2 ^ 53 : ℚ) * |e| ≤ 11 / 10 / 2 ^ 53 * (2 ^ 52 / 4 * (2 ^ (52 * m) * |c|)) := mul_le_mul_of_nonneg_left h3 (by norm_num)
    have h5 : |c| / 2 ^ 53 ≤ 1 / 100 * |c| := by
      rw [div_eq_mul_one_div, mul_comm]
      exact mul_le_mul_of_nonneg_right (by norm_num) hc
    have h6 : (11 / 10 / 2 ^ 53 : ℚ) * (2 ^ 52 / 4 * (2 ^ (52 * m) * |c|)) = 11 / 80 * (2 ^ (52 * m) * |c|) := by ring
    have h7 : (2 : ℚ) ^ (52 * m) / 4 * |c| = 1 / 4 * (2 ^ (52 * m) * |c|) := by ring
    rw [h7]
    linarith
  · obtain rfl : i = k := by omega
    rw [Nat.sub_self, mul_zero, pow_zero] at h
    linarith

/-- what the criteria say of a step at `x`: if one holds, and not the one on the relative decrease, then the point is near the minimum, and the criterion is that on the error or the step -/
theorem locGn_near {c q ρ δ : ℚ} {v : F64} {x : Vec F64 1} {b : Bool} {best : F64} {r : StopReason} (hρ : Val (sub (x 0) z) ρ) (hρ1 : 999 / 1000 * |q - c| ≤ |ρ|) (hρ2 : |ρ| ≤ 1001 / 1000 * |q - c|)
    (hv : Val v δ) (hl : |q + δ - c| ≤ |q - c| / 2 ^ 53) (hq : |q - c| ≤ 10 ^ 151)
    (hc : ConvergedFrom (testOptsD b : Options F64 W (DVec F64)) best (absF (sub (x 0) z)) (sqNorm (n := 1) fun _ => v) (sqNorm (n := 1) fun _ => sub (x 0) z) r) (hr : r ≠ .kMinRelError) :
    |q - c| ≤ 11 / 10 ^ 8 ∧ (r = .kMinError ∨ r = .kMinDeltaNorm ∧ lt (absF (sub (x 0) z)) (litD (1 / 10 ^ 12)) = false) := by
  obtain ⟨sv, hsv, hs1, hs2⟩ := lit_step
  obtain ⟨hδ1, hδ2⟩ := locGn_len hl
  have a2 : (10 : ℚ) ^ 153 = 100 * 10 ^ 151 := by rw [show (153 : ℕ) = 2 + 151 by norm_num, pow_add]; norm_num
  have h0 := abs_nonneg (q - c)
  have hδ3 : |δ| ≤ 10 ^ 153 := by
    rw [a2]
    generalize (10 : ℚ) ^ 151 = B at *
    linarith
  have hρ3 : |ρ| ≤ 10 ^ 153 := by
    rw [a2]
    generalize (10 : ℚ) ^ 151 = B at *
    linarith
  obtain ⟨ev, hev, he1, he2⟩ := lit_err
  cases hc with
  | error a1 a2 =>
    have a2 : lt (absF (sub (x 0) z)) (litD (1 / 10 ^ 12)) = true := a2
    rw [hρ.absF.lt hev, decide_eq_true_eq] at a2
    exact ⟨by linarith, Or.inl rfl⟩
  | rel a1 a2 a3 => exact absurd rfl hr
  | step a1 a3 n1 =>
    have a3 : lt (sqNorm (n := 1) fun _ => v) (litD (1 / 10 ^ 14)) = true := a3
    rw [(sq_one hv hδ3).lt hsv, decide_eq_true_eq] at a3
    have := (short_iff hs1 hs2).1 a3
    have n1 : (lt (ofInt 0) (litD (1 / 10 ^ 12)) && lt (absF (sub (x 0) z)) (litD (1 / 10 ^ 12))) = false := n1
    have hpos : lt (ofInt 0) (litD (1 / 10 ^ 12)) = true := by rw [val_zero.lt hev]; simp; linarith
    rw [hpos, Bool.true_and] at n1
    exact ⟨by linarith, Or.inr ⟨rfl, n1⟩⟩
  | grad a1 a3 n1 n2 n3 =>
    exfalso
    obtain ⟨gv, hgv, hg1, hg2⟩ := lit_grad
    have a3 : lt (sqNorm (n := 1) fun _ => sub (x 0) z) (litD (1 / 10 ^ 18)) = true := a3
    rw [(sq_one hρ hρ3).lt hgv, decide_eq_true_eq] at a3
    have n3 : (lt (ofInt 0) (litD (1 / 10 ^ 14)) && lt (sqNorm (n := 1) fun _ => v) (litD (1 / 10 ^ 14))) = false := n3
    have hpos : lt (ofInt 0) (litD (1 / 10 ^ 14)) = true := by rw [val_zero.lt hsv]; simp; linarith
    rw [hpos, Bool.true_and, (sq_one hv hδ3).lt hsv, decide_eq_false_iff_not] at n3
    have hbig : 98 / 10 ^ 9 < |δ| := by
      by_contra hn
      exact n3 ((short_iff hs1 hs2).2 (not_lt.1 hn))
    have h9 : (9 / 10 ^ 15 : ℚ) ≤ ρ * ρ := by
      rw [← abs_mul_abs_self]
      have : 96 / 10 ^ 9 ≤ |ρ| := by linarith
      nlinarith
    have e2 : (101 / 10 ^ 20 : ℚ) < rndBin 53 (-1074) (9 / 10 ^ 15) := by decide +kernel
    have := rndBin64_mono h9
    linarith

/-- the run of C120, with all its iterations -/
theorem locGn_run (h : LocTest P z) {c : ℚ} (hz : Val z c) (hc1 : 1 / 10 ^ 5 ≤ |c|) (hc : |c| ≤ 10 ^ 150) {t : ℚ} (ht : Val tol t) (ht2 : t < 1 / 2) (b : Bool) {x0 : Vec F64 1} {q0 : ℚ}
    (hx0 : Val (x0 0) q0) (hfar : |q0 - c| ≤ 10 ^ 150) {k : ℕ} (hk : k ≤ 40) (hq0 : |q0 - c| ≤ 2 ^ (52 * k) / 4 * |c|) (g : Vec F64 (P.dims.getD 0)) (H : Mat F64 (P.dims.getD 0)) (fuel : Nat) (w : W) :
    ∃ st, optimizeAcc (gnEnv (defaultSolverOpts litD) (eigenLinAlg tol inv) P) (testOptsD b) (fuel + 1) (-1) w (gnFresh P g H) x0 = .ok st ∧
      st.trace.length ≤ k + 2 ∧
      (∀ i r, st.trace[i]? = some r → (∃ q, Val (r.x 0) q ∧ |q - c| ≤ 10 ^ 150 ∧ gnB c k i (q - c)) ∧ r.succ = true ∧ ∃ dx, r.dx = some dx ∧ GnOne c r.x dx ∧ r.xNext = P.plusEq r.x dx ∧
        (i + 1 < st.trace.length → lt (sqNorm dx.v) (litD (1 / 10 ^ 14)) = false)) ∧
      ∃ r dx, st.trace[st.trace.length - 1]? = some r ∧ r.dx = some dx ∧ st.x = P.plusEq r.x dx ∧ st.out.stop ≠ .kMinRelError ∧
        ConvergedFrom (testOptsD b : Options F64 W (DVec F64)) (bestBefore (fun x => absF (sub (x 0) z)) st.trace (st.trace.length - 1)) (absF (sub (r.x 0) z)) (sqNorm dx.v)
          (sqNorm (n := 1) fun _ => sub (r.x 0) z) st.out.stop := by
  obtain ⟨M, hM, hM51⟩ : ∃ M, loopBound (testOptsD b : Options F64 W (DVec F64)) (-1) = some M ∧ 51 ≤ M := by
    cases b
    · exact ⟨51, rfl, le_refl _⟩
    · exact ⟨52, rfl, by norm_num⟩
  obtain ⟨sv, hsv, hs1, hs2⟩ := lit_step
  have h151 : (10 : ℚ) ^ 150 ≤ 10 ^ 151 := big_ten (by norm_num)
  obtain ⟨st, e, h1, h2, r, d, h3, h4, h5, h6⟩ := contracting_run (E := gnEnv (defaultSolverOpts litD) (eigenLinAlg tol inv) P) (o := testOptsD b)
    (C := fun x => absF (sub (x 0) z)) (g2 := fun x => sqNorm (n := 1) fun _ => sub (x 0) z) (Ok := fun s => s.n = 1) (T := GnOne c) (N := k + 1) (x0 := x0)
    (Lvl := fun i x => ∃ q, Val (x 0) q ∧ |q - c| ≤ 10 ^ 150 ∧ gnB c k i (q - c)) (testOptsD_unwatched b)
    (by show lt (ofInt 0) (litD (1 / 10 ^ 14)) = true; rw [val_zero.lt hsv]; simp; linarith)
    (fun i w s x _ hl hok => by
      obtain ⟨q, hx, hq, -⟩ := hl
      obtain ⟨s2, dx, a1, a2, a3, a4, a5⟩ := locGn_delivers (inv := inv) h hz ht ht2 w s hok x hx (hq.trans h151)
      refine ⟨s2, dx, a1, a2, a3, a4, a5, fun qq s3 _ hg => ?_⟩
      have hg : (Res.ok s2 : Res (GNState F64 R)) = .ok s3 := hg
      injection hg with hg
      subst hg
      exact a5)
    (fun i x dx hi hl hT hns => by
      obtain ⟨q, hx, hq, hl⟩ := hl
      have hq' := hq.trans h151
      obtain ⟨y, hy, hyl, hye⟩ := locGn_next h hz hc hx hq' hT
      obtain ⟨ρ, ρ', b1, b2, b3, b4, b5⟩ := locGn_lower h hz hc hx hq' hT hns
      refine ⟨⟨y, hy, ?_, gnB_succ hl (by omega) hyl fun hcc => ?_⟩, ?_⟩
      · rcases le_total |q - c| (|c| / 2) with hcc | hcc
        · rw [hye hcc] at hy
          rw [hy.unique hz, sub_self, abs_zero]
          exact pow_nonneg (by norm_num) _
        · have h0 := abs_nonneg (q - c)
          have c1 : (11 / 10 / 2 ^ 53 : ℚ) * |q - c| ≤ 1 / 10 * |q - c| := mul_le_mul_of_nonneg_right (by norm_num) h0
          have c2 : |c| / 2 ^ 53 ≤ 1 / 10 * |q - c| := by
            rw [div_le_iff₀ (by positivity)]
            norm_num
            linarith
          linarith
      · have hy' : Val z y := by rw [← hye hcc]; exact hy
        rw [hy'.unique hz, sub_self]
      · have := FloatLaws.sub_neg _ _ b2.finite b1.finite
        refine this.trans ?_
        rw [b2.lt b1, decide_eq_true_eq]
        linarith)
    (fun x dx hl hT => by
      obtain ⟨q, hx, -, hl⟩ := hl
      obtain ⟨q', v, δ, hx', rfl, hv, hle, -⟩ := hT
      obtain rfl := hx.unique hx'
      have h0 := hl.2 (by omega)
      have hδ := (locGn_len hle).1
      rw [h0, abs_zero, mul_zero] at hδ
      have hsq := sq_one hv (hδ.trans (pow_nonneg (by norm_num) _))
      refine (hsq.lt hsv).trans ?_
      rw [decide_eq_true_eq]
      exact (short_iff hs1 hs2).2 (hδ.trans (by norm_num)))
    ⟨q0, hx0, hfar, fun _ => hq0, fun h => absurd h (by omega)⟩
    (by
      obtain ⟨ρ, hρ, -, hρ2⟩ := loc_cost hz hx0 (hfar.trans (big_ten (by norm_num)))
      have hm : Val maxVal Fmt.binary64.max := ⟨_, rfl⟩
      refine (FloatLaws.sub_neg _ _ hρ.absF.finite hm.finite).trans ?_
      rw [hρ.absF.lt hm, decide_eq_true_eq]
      refine lt_of_le_of_lt hρ2 (lt_of_lt_of_le ?_ dbl_max)
      calc 1001 / 1000 * |q0 - c| ≤ 1001 / 1000 * 10 ^ 150 := mul_le_mul_of_nonneg_left hfar (by norm_num)
        _ < 10 ^ 152 := by norm_num
        _ ≤ _ := big_ten (by norm_num))
    (fuel := fuel) hM (by push_cast; omega) (w := w) (s := gnFresh P g H)
    (by show P.dims.getD 0 = 1; rw [h.dims]; rfl)
  have hlast : st.trace[st.trace.length - 1]? = some r := by rw [← List.getLast?_eq_getElem?]; exact h3
  obtain ⟨⟨q, hx, hq, -⟩, -, d', h7, hT, -⟩ := h2 _ _ hlast
  have hq' := hq.trans h151
  obtain ⟨ρ, hρ, hρ1, hρ2⟩ := loc_cost hz hx (hq'.trans (big_ten (by norm_num)))
  have hnr : st.out.stop ≠ .kMinRelError := by
    intro hr
    rw [hr] at h6
    cases h6 with
    | rel a1 a2 a3 =>
      rcases Nat.lt_or_ge 1 st.trace.length with hl | hl
      · obtain ⟨i, hi⟩ : ∃ i, st.trace.length - 1 = i + 1 := ⟨st.trace.length - 2, by omega⟩
        rw [hi] at a2 a3 hlast
        have hu := List.getElem?_eq_getElem (l := st.trace) (i := i) (by omega)
        obtain ⟨⟨qu, hxu, hqu, -⟩, -, du, k1, k2, k3, k4⟩ := h2 _ _ hu
        have hns := k4 (by omega)
        have k5 := (run_path e).next hu hlast
        obtain ⟨ρu, ρ', b1, b2, b3, b4, b5⟩ := locGn_lower h hz hc hxu (hqu.trans h151) k2 hns
        have k6 : r.x = P.plusEq st.trace[i].x du := by rw [k5, k3]; rfl
        rw [← k6] at b2
        simp only [bestBefore, hu, Option.map_some, Option.getD_some] at a2 a3
        obtain ⟨ρv, c1, c2, c3⟩ := loc_cost hz hxu ((hqu.trans h151).trans (big_ten (by norm_num)))
        have c4 := c1.absF.unique b1
        refine rel_large b1 b2 b3 ?_ ?_ b4 a2 a3
        · have := hρ.absF.unique b2
          rw [← this]; exact abs_nonneg _
        · rw [← c4]
          refine c3.trans ?_
          calc 1001 / 1000 * |qu - c| ≤ 10 * 10 ^ 151 := by
                have := hqu.trans h151
                have h9 := abs_nonneg (qu - c)
                generalize (10 : ℚ) ^ 151 = B at *
                linarith
            _ = 10 ^ 152 := by rw [pow_succ]; ring
            _ ≤ _ := big_ten (by norm_num)
      · rw [show st.trace.length - 1 = 0 by omega] at a2
        have : relDerr (bestBefore (fun x : Vec F64 1 => absF (sub (x 0) z)) st.trace 0) (absF (sub (r.x 0) z)) = ofInt 0 := by
          unfold relDerr bestBefore
          rw [not_lt_scalarMax]; simp
        rw [this, val_zero.lt val_zero] at a2
        simp at a2
  exact ⟨st, e, by omega, h2, r, d, hlast, h4, h5, hnr, h6⟩

/-- **C120.** Gauss-Newton with the default options on the residual `x - z` in IEEE `double` arithmetic: from every `double` up to `1e150` away from `z` the run ends as converged, and the result
is `z`, to the last bit. If the distance is at most `2^(52 k) / 4 |z|` the run takes at most `k + 2` iterations. -/
theorem C120_gn_exact (h : LocTest P z) {c : ℚ} (hz : Val z c) (hc1 : 1 / 10 ^ 5 ≤ |c|) (hc : |c| ≤ 10 ^ 150) {t : ℚ} (ht : Val tol t) (ht2 : t < 1 / 2) (b : Bool) {x0 : Vec F64 1} {q0 : ℚ}
    (hx0 : Val (x0 0) q0) (hfar : |q0 - c| ≤ 10 ^ 150) {k : ℕ} (hk : k ≤ 40) (hq0 : |q0 - c| ≤ 2 ^ (52 * k) / 4 * |c|) (g : Vec F64 (P.dims.getD 0)) (H : Mat F64 (P.dims.getD 0)) (fuel : Nat) (w : W) :
    ∃ st, optimizeAcc (gnEnv (defaultSolverOpts litD) (eigenLinAlg tol inv) P) (testOptsD b) (fuel + 1) (-1) w (gnFresh P g H) x0 = .ok st ∧
      st.out.succeeded = true ∧ st.out.converged = true ∧ (st.out.stop = .kMinError ∨ st.out.stop = .kMinDeltaNorm) ∧ st.trace.length ≤ k + 2 ∧ (∀ r ∈ st.trace, r.succ = true) ∧ st.x 0 = z := by
  obtain ⟨st, e, h1, h2, r, d, hlast, h4, h5, hnr, h6⟩ := locGn_run (inv := inv) h hz hc1 hc ht ht2 b hx0 hfar hk hq0 g H fuel w
  have h151 : (10 : ℚ) ^ 150 ≤ 10 ^ 151 := big_ten (by norm_num)
  obtain ⟨⟨q, hx, hq, -⟩, -, d', h7, hT, -⟩ := h2 _ _ hlast
  rw [h4] at h7
  obtain rfl := Option.some.inj h7
  have hq' := hq.trans h151
  obtain ⟨y, hy, hyl, hye⟩ := locGn_next h hz hc hx hq' hT
  obtain ⟨ρ, hρ, hρ1, hρ2⟩ := loc_cost hz hx (hq'.trans (big_ten (by norm_num)))
  obtain ⟨hsmall, hwhy⟩ : |q - c| ≤ 11 / 10 ^ 8 ∧ (st.out.stop = .kMinError ∨ st.out.stop = .kMinDeltaNorm ∧ lt (absF (sub (r.x 0) z)) (litD (1 / 10 ^ 12)) = false) := by
    obtain ⟨q', v, δ, hx', rfl, hv, hle, -⟩ := hT
    obtain rfl := hx.unique hx'
    exact locGn_near hρ hρ1 hρ2 hv hle hq' h6 hnr
  refine ⟨st, e, ?_, h6.converged rfl, hwhy.imp id And.left, h1, fun r hr => ?_, by rw [h5]; exact hye (by linarith)⟩
  · unfold Output.succeeded
    rcases hwhy with h | ⟨h, -⟩ <;> rw [h] <;> decide
  · obtain ⟨i, hi⟩ := List.getElem?_of_mem hr
    exact (h2 i r hi).2.1

/-- **C120, the criterion.** From a start between `2e-7` and `|z| / 2` away from `z` the run takes exactly 2 iterations and ends because of the error (`kMinError`), at `z`: the third case of
tests/basic.cpp (72-87) for all these starts. -/
theorem C120_two (h : LocTest P z) {c : ℚ} (hz : Val z c) (hc1 : 1 / 10 ^ 5 ≤ |c|) (hc : |c| ≤ 10 ^ 150) {t : ℚ} (ht : Val tol t) (ht2 : t < 1 / 2) (b : Bool) {x0 : Vec F64 1} {q0 : ℚ}
    (hx0 : Val (x0 0) q0) (hlo : 2 / 10 ^ 7 ≤ |q0 - c|) (hhi : |q0 - c| ≤ |c| / 2) (g : Vec F64 (P.dims.getD 0)) (H : Mat F64 (P.dims.getD 0)) (fuel : Nat) (w : W) :
    ∃ st, optimizeAcc (gnEnv (defaultSolverOpts litD) (eigenLinAlg tol inv) P) (testOptsD b) (fuel + 1) (-1) w (gnFresh P g H) x0 = .ok st ∧
      st.out.stop = .kMinError ∧ st.trace.length = 2 ∧ st.x 0 = z := by
  have h0 := abs_nonneg (q0 - c)
  have hfar : |q0 - c| ≤ 10 ^ 150 := by linarith
  obtain ⟨st, e, h1, h2, r, d, hlast, h4, h5, hnr, h6⟩ := locGn_run (inv := inv) h hz hc1 hc ht ht2 b hx0 hfar (k := 1) (by norm_num) (by norm_num; linarith) g H fuel w
  obtain ⟨sv, hsv, hs1, hs2⟩ := lit_step
  have h151 : (10 : ℚ) ^ 150 ≤ 10 ^ 151 := big_ten (by norm_num)
  have hp := run_path e
  have hpos : 0 < st.trace.length := by
    rcases Nat.eq_zero_or_pos st.trace.length with h0 | h0
    · rw [List.eq_nil_of_length_eq_zero h0] at hlast; simp at hlast
    · exact h0
  obtain ⟨⟨q, hx, hq, -⟩, -, d', h7, hT, -⟩ := h2 _ _ hlast
  rw [h4] at h7
  obtain rfl := Option.some.inj h7
  have hq' := hq.trans h151
  obtain ⟨ρ, hρ, hρ1, hρ2⟩ := loc_cost hz hx (hq'.trans (big_ten (by norm_num)))
  obtain ⟨hsmall, hwhy⟩ : |q - c| ≤ 11 / 10 ^ 8 ∧ (st.out.stop = .kMinError ∨ st.out.stop = .kMinDeltaNorm ∧ lt (absF (sub (r.x 0) z)) (litD (1 / 10 ^ 12)) = false) := by
    obtain ⟨q', v, δ, hx', rfl, hv, hle, -⟩ := hT
    obtain rfl := hx.unique hx'
    exact locGn_near hρ hρ1 hρ2 hv hle hq' h6 hnr
  have hlen2 : 2 ≤ st.trace.length := by
    by_contra hn
    rw [show st.trace.length - 1 = 0 by omega] at hlast
    have hr0 : r.x = x0 := hp.head hlast
    rw [hr0] at hx
    rw [hx.unique hx0] at hsmall
    linarith
  have hr0 := List.getElem?_eq_getElem (l := st.trace) (i := 0) (by omega)
  have hr1 := List.getElem?_eq_getElem (l := st.trace) (i := 1) (by omega)
  have hx1 : (st.trace[1]).x 0 = z := by
    obtain ⟨⟨qu, hxu, hqu, -⟩, -, du, k1, k2, k3, k4⟩ := h2 _ _ hr0
    have hu0 : (st.trace[0]).x = x0 := hp.head hr0
    rw [hu0] at hxu k2 k3
    obtain ⟨y, hy, hyl, hye⟩ := locGn_next h hz hc hxu (hqu.trans h151) k2
    rw [hp.next hr0 hr1, k3]
    exact hye (by rw [hxu.unique hx0]; exact hhi)
  have hlen : st.trace.length = 2 := by
    by_contra hn
    obtain ⟨⟨qu, hxu, hqu, -⟩, -, du, k1, k2, k3, k4⟩ := h2 _ _ hr1
    obtain ⟨-, -, -, -, -, -, hbig⟩ := locGn_lower h hz hc hxu (hqu.trans h151) k2 (k4 (by omega))
    rw [hx1] at hxu
    rw [hxu.unique hz, sub_self, abs_zero] at hbig
    norm_num at hbig
  have hr : r.x 0 = z := by
    rw [hlen] at hlast
    rw [hr1] at hlast
    rw [← Option.some.inj hlast]; exact hx1
  refine ⟨st, e, ?_, hlen, ?_⟩
  · rcases hwhy with h | ⟨-, h⟩
    · exact h
    · exfalso
      obtain ⟨ev, hev, he1, he2⟩ := lit_err
      rw [hr, (val_self hz).absF.lt hev, decide_eq_false_iff_not, abs_zero] at h
      exact h (by linarith)
  · obtain ⟨y, hy, hyl, hye⟩ := locGn_next h hz hc hx hq' hT
    rw [h5]; exact hye (by linarith)

/-- the third case of tests/basic.cpp: `x = 1`, `z = 2` -/
example (inv : (n : Nat) → Mat F64 n → Mat F64 n) (fuel : Nat) :
    ∃ st, optimizeAcc (gnEnv (defaultSolverOpts litD) (eigenLinAlg (Fl.mk (1 / 2 ^ 1022)) inv) (simpleTest (ofInt 2))) (testOptsD false) (fuel + 1) (-1) 0
        (gnFresh (simpleTest (ofInt 2)) (fun _ => ofInt 0) fun _ _ => ofInt 0) (fun _ => ofInt 1) = .ok st ∧
      st.out.stop = .kMinError ∧ st.trace.length = 2 ∧ st.x 0 = ofInt 2 := by
  obtain ⟨t, ht, ht2⟩ := val_tol
  have h150 : (2 : ℚ) ≤ 10 ^ 150 := le_trans (by norm_num : (2 : ℚ) ≤ 10 ^ 1) (big_ten (by norm_num))
  exact C120_two (inv := inv) (simpleTest_loc (ofInt 2)) val_two (by norm_num) (by rw [abs_of_pos (by norm_num)]; exact h150) ht ht2 false (x0 := fun _ => ofInt 1) val_one (by norm_num) (by norm_num)
    (fun _ => ofInt 0) (fun _ _ => ofInt 0) fuel 0

/-- from a quintillion the same run ends at 2, to the last bit, after at most 4 iterations -/
example (inv : (n : Nat) → Mat F64 n → Mat F64 n) (fuel : Nat) :
    ∃ st, optimizeAcc (gnEnv (defaultSolverOpts litD) (eigenLinAlg (Fl.mk (1 / 2 ^ 1022)) inv) (simpleTest (ofInt 2))) (testOptsD false) (fuel + 1) (-1) 0
        (gnFresh (simpleTest (ofInt 2)) (fun _ => ofInt 0) fun _ _ => ofInt 0) (fun _ => Fl.mk (10 ^ 18)) = .ok st ∧
      st.out.converged = true ∧ st.trace.length ≤ 4 ∧ st.x 0 = ofInt 2 := by
  obtain ⟨t, ht, ht2⟩ := val_tol
  have h150 : (2 : ℚ) ≤ 10 ^ 150 := le_trans (by norm_num : (2 : ℚ) ≤ 10 ^ 1) (big_ten (by norm_num))
  have h18 : |(10 ^ 18 : ℚ)| ≤ 10 ^ 308 := by
    rw [abs_of_pos (by norm_num)]; exact big_ten (by norm_num)
  have hb : |rndBin 53 (-1074) (10 ^ 18) - 2| ≤ 10 ^ 18 := by decide +kernel
  obtain ⟨st, e, -, h1, -, h2, -, h3⟩ := C120_gn_exact (inv := inv) (simpleTest_loc (ofInt 2)) val_two (by norm_num) (by rw [abs_of_pos (by norm_num)]; exact h150) ht ht2 false
    (x0 := fun _ => Fl.mk (10 ^ 18)) (val_of_le h18) (hb.trans (big_ten (by norm_num))) (k := 2) (by norm_num) (hb.trans (by norm_num)) (fun _ => ofInt 0) (fun _ _ => ofInt 0) fuel 0
  exact ⟨st, e, h1, h2, h3⟩

end
end Verif
