import Verif.Lemmas.LltRound
import Verif.Props.LdltFloat
import Verif.Props.GnQuadratic
/-!
# C115: whitening with rounding errors

`MahaWhitened(res, cov)` (mahalanobis.h:139-144) in an arithmetic with a relative rounding error.
-/

set_option linter.unusedSectionVars false

namespace Verif
open FloatOps

section
variable {n : Nat}

/-- a triangular matrix without zeros on the diagonal has a trivial kernel -/
theorem lower_inj {M : Mat ℝ n} (hd : ∀ i, M i i ≠ 0) {v : Vec ℝ n} (h : mv (lowerR M) v = 0) : v = 0 := by
  have : ∀ (d : Nat) (i : Fin n), i.val = d → v i = 0 := by
    intro d
    induction d using Nat.strong_induction_on with
    | _ d ih =>
      intro i hi
      have := congrFun h i
      unfold mv at this
      rw [Finset.sum_eq_single i] at this
      · simp only [lowerR, le_refl, if_true, Pi.zero_apply] at this
        exact (mul_eq_zero.1 this).resolve_left (hd i)
      · intro j _ hj
        by_cases hij : j ≤ i
        · have hlt : j < i := lt_of_le_of_ne hij hj
          rw [Fin.lt_def] at hlt
          rw [ih j.val (by omega) j rfl, mul_zero]
        · simp only [lowerR, if_neg hij, zero_mul]
      · simp
  funext i
  exact this _ i rfl

/-- the product with the transpose -/
def outer (L : Mat ℝ n) : Mat ℝ n := fun i j => ∑ l, L i l * L j l

theorem mv_outer (L : Mat ℝ n) (v : Vec ℝ n) : mv (outer L) v = mv L (tmv L v) := by
  funext i
  unfold mv outer tmv
  simp only [Finset.sum_mul, Finset.mul_sum]
  rw [Finset.sum_comm]
  exact Finset.sum_congr rfl fun l _ => Finset.sum_congr rfl fun j _ => by ring

theorem outer_quad (L : Mat ℝ n) (v : Vec ℝ n) : dotR v (mv (outer L) v) = nrm (tmv L v) ^ 2 := by
  rw [nrm_sq, mv_outer, dotR_tmv, dotR_comm]

/-- an error of the coefficients, measured by the diagonal, in a quadratic form -/
theorem quad_err {S M : Mat ℝ n} (hS : ∀ i, 0 < S i i) {ε : ℝ} (hε : 0 ≤ ε) (h : ∀ i j, |S i j - M i j| ≤ ε * (√(S i i) * √(S j j))) (v : Vec ℝ n) :
    |dotR v (mv S v) - dotR v (mv M v)| ≤ ε * (n * diagNorm S v) := by
  have e : dotR v (mv S v) - dotR v (mv M v) = ∑ i, ∑ j, v i * ((S i j - M i j) * v j) := by
    unfold dotR mv
    rw [← Finset.sum_sub_distrib]
    refine Finset.sum_congr rfl fun i _ => ?_
    rw [Finset.mul_sum, Finset.mul_sum, ← Finset.sum_sub_distrib]
    exact Finset.sum_congr rfl fun j _ => by ring
  rw [e]
  have h1 : |∑ i, ∑ j, v i * ((S i j - M i j) * v j)| ≤ ∑ i, ∑ j, ε * ((√(S i i) * |v i|) * (√(S j j) * |v j|)) := by
    refine (Finset.abs_sum_le_sum_abs _ _).trans (Finset.sum_le_sum fun i _ => (Finset.abs_sum_le_sum_abs _ _).trans (Finset.sum_le_sum fun j _ => ?_))
    rw [abs_mul, abs_mul]
    have := mul_le_mul_of_nonneg_right (h i j) (mul_nonneg (abs_nonneg (v i)) (abs_nonneg (v j)))
    linarith
  refine h1.trans ?_
  simp only [← Finset.mul_sum, ← Finset.sum_mul]
  have := diagSum_sq hS v
  rw [sq] at this
  exact mul_le_mul_of_nonneg_left this hε

set_option maxHeartbeats 1000000 in
/-- The norm of a whitened vector, with errors of the factor and of the substitution. -/
theorem whiten_accuracy {S L : Mat ℝ n} {μ G : ℝ} (hS : Coercive μ S) (hG : 0 ≤ G) (hμ0 : 0 < μ) (hμ1 : μ ≤ 1) (hs : 32 * n * G ≤ μ)
    (hfac : ∀ i j, |S i j - outer L i j| ≤ G * (√(outer L i i) * √(outer L j j))) (hinj : ∀ z, mv L z = 0 → z = 0) (hker : ∀ z, tmv L z = 0 → z = 0)
    {b w y : Vec ℝ n} (hw : ∀ i, |b i - mv L w i| ≤ G * ∑ l, |L i l| * |w l|) (hy : mv S y = b) :
    |nrm w - √(dotR y b)| ≤ 4 * (n * G / μ) * √(dotR y b) := by
  rcases Nat.eq_zero_or_pos n with rfl | hpos
  · simp [nrm, dotR]
  have hn : (1 : ℝ) ≤ n := by exact_mod_cast hpos
  have hG1 : G ≤ 1 / 32 := by nlinarith
  have hM0 : ∀ i, 0 ≤ outer L i i := fun i => Finset.sum_nonneg fun l _ => mul_self_nonneg _
  have hMS : ∀ i, outer L i i ≤ (11 / 10) ^ 2 * S i i := by
    intro i
    have h1 := hfac i i
    rw [Real.mul_self_sqrt (hM0 i)] at h1
    have h2 := (abs_le.1 h1).1
    have h3 := mul_le_mul_of_nonneg_right hG1 (hM0 i)
    have := hS.diag i
    nlinarith
  have hMS' : ∀ i, √(outer L i i) ≤ 11 / 10 * √(S i i) := by
    intro i
    rw [Real.sqrt_le_left (by positivity), mul_pow, Real.sq_sqrt (hS.diag i).le]
    exact hMS i
  have hE : ∀ i j, |S i j - outer L i j| ≤ (121 / 100 * G) * (√(S i i) * √(S j j)) := by
    intro i j
    refine (hfac i j).trans ?_
    have := mul_le_mul (hMS' i) (hMS' j) (Real.sqrt_nonneg _) (by positivity)
    have := mul_le_mul_of_nonneg_left this hG
    linarith
  have hε : 0 ≤ 121 / 100 * G := by positivity
  -- the exact value
  set q := dotR y b with hq
  have hD : μ * diagNorm S y ≤ q := by
    have := hS.bound y
    rw [hy] at this
    exact this
  have hD0 := diagNorm_nonneg hS.diag y
  have hq0 : 0 ≤ q := le_trans (mul_nonneg hμ0.le hD0) hD
  set Q := √q with hQ
  have hQ0 : 0 ≤ Q := Real.sqrt_nonneg _
  have hQq : Q * Q = q := Real.mul_self_sqrt hq0
  -- the condition number
  set s := √(n / μ) with hs'
  have hnμ : 1 ≤ n / μ := by rw [le_div_iff₀ hμ0]; linarith
  have hs1 : 1 ≤ s := by
    rw [hs']; exact Real.one_le_sqrt.2 hnμ
  have hss : s * s = n / μ := Real.mul_self_sqrt (by positivity)
  set κ := n * G / μ with hκ
  have hκs : κ = G * (s * s) := by rw [hss, hκ]; ring
  have hκ0 : 0 ≤ κ := by positivity
  have hκ1 : κ ≤ 1 / 32 := by
    rw [hκ, div_le_iff₀ hμ0]; linarith
  have hGs : G * s ≤ κ := by
    rw [hκs]
    have := mul_le_mul_of_nonneg_left hs1 (show 0 ≤ s by linarith)
    have := mul_le_mul_of_nonneg_left this hG
    linarith
  have hnD : √(n * diagNorm S y) ≤ s * Q := by
    rw [Real.sqrt_le_left (by positivity)]
    have : (s * Q) ^ 2 = n / μ * q := by rw [mul_pow, sq, sq, hss, hQq]
    rw [this, div_mul_eq_mul_div, le_div_iff₀ hμ0]
    have := mul_le_mul_of_nonneg_left hD (show (0 : ℝ) ≤ n by linarith)
    linarith
  -- the norm of Lᵀ y
  set a := nrm (tmv L y) with ha
  have ha0 : 0 ≤ a := nrm_nonneg _
  have haq : |a - Q| ≤ 121 / 100 * κ * Q := by
    have h1 := quad_err hS.diag hε hE y
    rw [outer_quad, hy, ← hq, ← ha] at h1
    have h2 : 121 / 100 * G * (n * diagNorm S y) ≤ 121 / 100 * κ * (Q * Q) := by
      rw [hQq, hκ]
      have : G * (n * diagNorm S y) ≤ n * G / μ * q := by
        rw [div_mul_eq_mul_div, le_div_iff₀ hμ0]
        have := mul_le_mul_of_nonneg_left hD (show 0 ≤ n * G by positivity)
        linarith
      linarith
    have h3 : |a - Q| * (a + Q) ≤ 121 / 100 * κ * (Q * Q) := by
      have e : |a - Q| * (a + Q) = |q - a ^ 2| := by
        rw [← abs_of_nonneg (add_nonneg ha0 hQ0), ← abs_mul, abs_sub_comm q]
        congr 1
        rw [← hQq]; ring
      rw [e]; exact h1.trans h2
    rcases hQ0.eq_or_lt with h0 | h0
    · rw [← h0] at h3 ⊢
      have : a = 0 := by
        rw [sub_zero, abs_of_nonneg ha0] at h3
        nlinarith
      rw [this]; simp
    · have h4 : |a - Q| * Q ≤ 121 / 100 * κ * Q * Q := by
        have := mul_le_mul_of_nonneg_left (show Q ≤ a + Q by linarith) (abs_nonneg (a - Q))
        linarith
      exact le_of_mul_le_mul_right h4 h0
  -- the error
  set d : Vec ℝ n := w - tmv L y with hd
  have hPD : PD (outer L) := by
    refine ⟨fun i j => Finset.sum_congr rfl fun l _ => mul_comm _ _, fun v hv => ?_⟩
    rw [outer_quad]
    exact pow_pos (nrm_pos fun e => hv (hker v e)) 2
  obtain ⟨t, ht⟩ := pd_surj hPD (mv L d)
  have htd : tmv L t = d := by
    have : mv L (tmv L t - d) = 0 := by rw [mv_sub, ← mv_outer, ht, sub_self]
    exact sub_eq_zero.1 (hinj _ this)
  have hdd : nrm d ^ 2 = dotR t (mv L d) := by rw [← htd, ← outer_quad, mv_outer]
  -- the right hand side of the error
  set K := G * (11 / 10 * nrm w + 121 / 100 * (s * Q)) with hK
  have hw0 := nrm_nonneg w
  have hK0 : 0 ≤ K := by positivity
  have hf : ∀ i, |mv L d i| ≤ √(S i i) * K := by
    intro i
    have e1 : mv L d i = -(b i - mv L w i) + (mv S y i - mv (outer L) y i) := by
      rw [hd, mv_sub, mv_outer, hy]
      simp only [Pi.sub_apply]; ring
    have h1 : ∑ l, |L i l| * |w l| ≤ √(outer L i i) * nrm w := by
      have := dotR_le_nrm (fun l => |L i l|) (fun l => |w l|)
      have e2 : nrm (fun l => |L i l|) = √(outer L i i) := by
        unfold nrm dotR outer
        congr 1
        exact Finset.sum_congr rfl fun l _ => abs_mul_abs_self _
      have e3 : nrm (fun l => |w l|) = nrm w := by
        unfold nrm dotR
        congr 1
        exact Finset.sum_congr rfl fun l _ => abs_mul_abs_self _
      rw [e2, e3] at this
      exact this
    have h2 : |b i - mv L w i| ≤ √(S i i) * (G * (11 / 10 * nrm w)) := by
      refine (hw i).trans ?_
      have := h1.trans (mul_le_mul_of_nonneg_right (hMS' i) hw0)
      have := mul_le_mul_of_nonneg_left this hG
      linarith
    have h3 : |mv S y i - mv (outer L) y i| ≤ √(S i i) * (G * (121 / 100 * (s * Q))) := by
      have e : mv S y i - mv (outer L) y i = ∑ j, (S i j - outer L i j) * y j := by
        unfold mv
        rw [← Finset.sum_sub_distrib]
        exact Finset.sum_congr rfl fun j _ => by ring
      rw [e]
      have h4 : |∑ j, (S i j - outer L i j) * y j| ≤ ∑ j, (121 / 100 * G * √(S i i)) * (√(S j j) * |y j|) := by
        refine (Finset.abs_sum_le_sum_abs _ _).trans (Finset.sum_le_sum fun j _ => ?_)
        rw [abs_mul]
        have := mul_le_mul_of_nonneg_right (hE i j) (abs_nonneg (y j))
        linarith
      rw [← Finset.mul_sum] at h4
      have h5 := (diagSum_le hS.diag y).trans hnD
      have h6 := mul_le_mul_of_nonneg_left h5 (show 0 ≤ 121 / 100 * G * √(S i i) by positivity)
      linarith
    rw [e1]
    refine (abs_add_le _ _).trans ?_
    rw [abs_neg, hK]
    linarith
  -- its size
  have hT0 := diagNorm_nonneg hS.diag t
  have hco : 9 / 10 * μ * diagNorm S t ≤ nrm d ^ 2 := by
    have h1 := quad_err hS.diag hε hE t
    rw [outer_quad, htd] at h1
    have h2 := hS.bound t
    have h3 : 121 / 100 * G * (n * diagNorm S t) ≤ 1 / 10 * μ * diagNorm S t := by
      have : 121 / 100 * G * n ≤ 1 / 10 * μ := by nlinarith
      have := mul_le_mul_of_nonneg_right this hT0
      linarith
    have h4 := (abs_le.1 h1).2
    have h5 : μ * diagNorm S t ≤ dotR t (mv S t) := h2
    linarith
  have hd0 := nrm_nonneg d
  have hup : nrm d ^ 2 ≤ √(n * diagNorm S t) * K := by
    rw [hdd]
    have h1 : dotR t (mv L d) ≤ ∑ i, (√(S i i) * |t i|) * K := by
      unfold dotR
      refine Finset.sum_le_sum fun i _ => ?_
      have h2 : t i * mv L d i ≤ |t i| * |mv L d i| := by rw [← abs_mul]; exact le_abs_self _
      have := mul_le_mul_of_nonneg_left (hf i) (abs_nonneg (t i))
      linarith
    rw [← Finset.sum_mul] at h1
    exact h1.trans (mul_le_mul_of_nonneg_right (diagSum_le hS.diag t) hK0)
  have hnt : √(n * diagNorm S t) ≤ 53 / 50 * (s * nrm d) := by
    rw [Real.sqrt_le_left (by positivity)]
    have : (53 / 50 * (s * nrm d)) ^ 2 = (53 / 50) ^ 2 * (n / μ) * nrm d ^ 2 := by rw [← hss]; ring
    rw [this, mul_div_assoc', div_mul_eq_mul_div, le_div_iff₀ hμ0]
    have h6 := mul_le_mul_of_nonneg_left hco (show (0 : ℝ) ≤ n by linarith)
    have h7 : 0 ≤ n * nrm d ^ 2 := by positivity
    linarith
  have hdK : nrm d ≤ 53 / 50 * s * K := by
    have h1 : nrm d ^ 2 ≤ 53 / 50 * (s * nrm d) * K := hup.trans (mul_le_mul_of_nonneg_right hnt hK0)
    rcases hd0.eq_or_lt with h0 | h0
    · rw [← h0]; positivity
    · have h2 : nrm d * nrm d ≤ 53 / 50 * s * K * nrm d := by nlinarith
      exact le_of_mul_le_mul_right h2 h0
  have hd' : nrm d ≤ 117 / 100 * κ * nrm w + 13 / 10 * κ * Q := by
    have e : 53 / 50 * s * K = 583 / 500 * (G * s) * nrm w + 6413 / 5000 * (G * (s * s)) * Q := by rw [hK]; ring
    rw [e, ← hκs] at hdK
    have h1 := mul_le_mul_of_nonneg_right hGs hw0
    have h2 : 0 ≤ κ * Q := by positivity
    have h3 : 0 ≤ κ * nrm w := by positivity
    linarith
  -- the result
  have htri : |nrm w - a| ≤ nrm d := by
    have h1 : nrm w ≤ nrm d + a := by
      have := nrm_add_le d (tmv L y)
      rw [hd, sub_add_cancel] at this
      exact this
    have h2 : a ≤ nrm w + nrm d := by
      have := nrm_sub_le w d
      rw [hd, sub_sub_cancel] at this
      rw [hd]
      exact this
    rw [abs_le]; constructor <;> linarith
  have h1 := (abs_le.1 htri)
  have h2 := (abs_le.1 haq)
  have hκQ : κ * Q ≤ 1 / 32 * Q := mul_le_mul_of_nonneg_right hκ1 hQ0
  have hκw : κ * nrm w ≤ 1 / 32 * nrm w := mul_le_mul_of_nonneg_right hκ1 hw0
  have hwQ : nrm w ≤ 6 / 5 * Q := by linarith
  have hκwQ : κ * nrm w ≤ κ * (6 / 5 * Q) := mul_le_mul_of_nonneg_left hwQ hκ0
  have hκQ0 : 0 ≤ κ * Q := by positivity
  rw [abs_le]
  constructor <;> linarith

end

section
variable {n : Nat} {u : ℝ} {r : Rnd u} {μ : ℝ}

/-- **C115**, with rounding: the decomposition of a covariance that is not too badly conditioned succeeds, the factor has a positive diagonal, and its product with its transpose is the covariance up
to an error of each coefficient of a few roundings, measured by the diagonal. -/
theorem C115_factor_rounded (hu : 0 ≤ u) (hu2 : u ≤ 1 / 2) {A : Mat (Rd r) n} (hA : Coercive μ (matV A)) (hμ : 32 * n * lltErr u n ≤ μ) (hμ0 : 0 < μ) (hμ1 : μ ≤ 1) :
    (eigenLlt A).2 = none ∧ (∀ i, 0 < ((eigenLlt A).1 i i).v) ∧
    ∀ i j, |(A i j).v - outer (lowerR (matV (eigenLlt A).1)) i j| ≤ 121 / 100 * lltErr u n * (√(A i i).v * √(A j j).v) := by
  rcases Nat.eq_zero_or_pos n with rfl | hpos
  · exact ⟨rfl, fun i => i.elim0, fun i => i.elim0⟩
  have hn : (1 : ℝ) ≤ n := by exact_mod_cast hpos
  have hG0 := lltErr_nonneg hu n
  obtain ⟨h1, h2⟩ := eigenLlt_rounded hu hu2 hA (by nlinarith) hμ0 hμ1
  refine ⟨h1, fun i => h2.pos i i.isLt, fun i j => ?_⟩
  have e : ∀ i j, ldM (lcols (matV (eigenLlt A).1) n) i j = outer (lowerR (matV (eigenLlt A).1)) i j := fun i j => (lcols_all _ i j).1
  have hM0 : ∀ i, 0 ≤ outer (lowerR (matV (eigenLlt A).1)) i i := fun i => Finset.sum_nonneg fun l _ => mul_self_nonneg _
  have hG1 : lltErr u n ≤ 1 / 32 := by nlinarith
  have hMS : ∀ i, √(outer (lowerR (matV (eigenLlt A).1)) i i) ≤ 11 / 10 * √(A i i).v := by
    intro i
    have hd : 0 < (A i i).v := hA.diag i
    rw [Real.sqrt_le_left (by positivity), mul_pow, Real.sq_sqrt hd.le]
    have h3 := h2.near i i (Or.inl i.isLt)
    rw [ldM_diag (lcols_pos _ _), e] at h3
    have h4 := (abs_le.1 h3).1
    have h5 := mul_le_mul_of_nonneg_right hG1 (hM0 i)
    have h6 : matV A i i = (A i i).v := rfl
    nlinarith
  have h3 := (h2.near i j (Or.inl i.isLt)).trans (mul_le_mul_of_nonneg_left (ldAbs_cs (lcols_pos _ _) i j) hG0)
  rw [e, e, e] at h3
  have h4 := mul_le_mul_of_nonneg_left (mul_le_mul (hMS i) (hMS j) (Real.sqrt_nonneg _) (by positivity)) hG0
  have h5 : matV A i j = (A i j).v := rfl
  rw [h5] at h3
  linarith

/-- **C115**, with rounding: the norm of the whitened residual has a small relative error, of the size of the rounding error times the number of rows and divided by the condition `μ`. The exact
value is `√(rᵀ S⁻¹ r)`, written with the solution `y` of `S y = r`; `S` is read from its upper triangle. -/
theorem C115_whitens_rounded (hu : 0 ≤ u) (hu2 : u ≤ 1 / 2) {S : Mat (Rd r) n} (hS : Coercive μ (fun i j => if j ≤ i then (S j i).v else (S i j).v)) (hμ : 32 * n * lltErr u n ≤ μ)
    (hμ0 : 0 < μ) (hμ1 : μ ≤ 1) (b : Vec (Rd r) n) {y : Vec ℝ n} (hy : mv (fun i j => if j ≤ i then (S j i).v else (S i j).v) y = vecV b) :
    |nrm (vecV (whitenLlt S b)) - √(dotR y (vecV b))| ≤ 4 * (n * lltErr u n / μ) * √(dotR y (vecV b)) := by
  rcases Nat.eq_zero_or_pos n with rfl | hpos
  · simp [nrm, dotR]
  have hn : (1 : ℝ) ≤ n := by exact_mod_cast hpos
  have hG0 := lltErr_nonneg hu n
  set A : Mat (Rd r) n := fun i j => if j ≤ i then S j i else S i j with hAdef
  have hAv : matV A = fun i j => if j ≤ i then (S j i).v else (S i j).v := by
    funext i j
    simp only [hAdef, matV]
    split <;> rfl
  rw [← hAv] at hS hy
  obtain ⟨h1, h2⟩ := eigenLlt_rounded hu hu2 hS (by nlinarith) hμ0 hμ1
  have hd : ∀ i, (matV (eigenLlt A).1) i i ≠ 0 := fun i => (h2.pos i i.isLt).ne'
  have e : ∀ i j, ldM (lcols (matV (eigenLlt A).1) n) i j = outer (lowerR (matV (eigenLlt A).1)) i j := fun i j => (lcols_all _ i j).1
  refine whiten_accuracy (L := lowerR (matV (eigenLlt A).1)) hS hG0 hμ0 hμ1 hμ (fun i j => ?_) (fun z hz => lower_inj hd hz) (fun z hz => ?_) (fun i => ?_) hy
  · have h3 := (h2.near i j (Or.inl i.isLt)).trans (mul_le_mul_of_nonneg_left (ldAbs_cs (lcols_pos _ _) i j) hG0)
    rw [e, e, e] at h3
    exact h3
  · exact lower_kernel hd fun l => congrFun hz l
  · exact fwdSolve_rounded hu hu2 (M := (eigenLlt A).1) hd b i

/-- the hypotheses of `C115_factor_rounded` and `C115_whitens_rounded`: `double`, a covariance with correlation of which the lower triangle is never read -/
example (r : Rnd (1 / 2 ^ 53)) : ∃ (S : Mat (Rd r) 2) (b : Vec (Rd r) 2), (S 1 0).v ≠ (S 0 1).v ∧ Coercive (1 / 2) (fun i j => if j ≤ i then (S j i).v else (S i j).v) ∧
    32 * (2 : ℕ) * lltErr (1 / 2 ^ 53) 2 ≤ 1 / 2 ∧ mv (fun i j => if j ≤ i then (S j i).v else (S i j).v) ![1, 1] = vecV b ∧
    |nrm (vecV (whitenLlt S b)) - √8| ≤ 1 / 10 ^ 12 * √8 := by
  have hc : Coercive (1 / 2) (fun i j : Fin 2 => if j ≤ i then ((![![⟨4⟩, ⟨1⟩], ![⟨7⟩, ⟨2⟩]] : Mat (Rd r) 2) j i).v else ((![![⟨4⟩, ⟨1⟩], ![⟨7⟩, ⟨2⟩]] : Mat (Rd r) 2) i j).v) := by
    refine ⟨fun i j => ?_, fun i => ?_, fun v => ?_⟩
    · fin_cases i <;> fin_cases j <;> simp
    · fin_cases i <;> simp
    · simp [dotR, mv, Fin.sum_univ_two]
      nlinarith [sq_nonneg (v 0 + v 1), sq_nonneg (v 0)]
  have hμ : 32 * (2 : ℕ) * lltErr (1 / 2 ^ 53) 2 ≤ 1 / 2 := by unfold lltErr; norm_num
  have hy : mv (fun i j : Fin 2 => if j ≤ i then ((![![⟨4⟩, ⟨1⟩], ![⟨7⟩, ⟨2⟩]] : Mat (Rd r) 2) j i).v else ((![![⟨4⟩, ⟨1⟩], ![⟨7⟩, ⟨2⟩]] : Mat (Rd r) 2) i j).v) ![1, 1] =
      vecV (![⟨5⟩, ⟨3⟩] : Vec (Rd r) 2) := by
    funext i; fin_cases i <;> simp [mv, vecV, Fin.sum_univ_two] <;> norm_num
  refine ⟨_, _, ?_, hc, hμ, hy, ?_⟩
  · simp
  · have := C115_whitens_rounded (by norm_num) (by norm_num) hc hμ (by norm_num) (by norm_num) _ hy
    have e : dotR ![1, 1] (vecV (![⟨5⟩, ⟨3⟩] : Vec (Rd r) 2)) = 8 := by simp [dotR, vecV, Fin.sum_univ_two]; norm_num
    rw [e] at this
    refine this.trans (mul_le_mul_of_nonneg_right ?_ (Real.sqrt_nonneg _))
    unfold lltErr; norm_num

end
end Verif
