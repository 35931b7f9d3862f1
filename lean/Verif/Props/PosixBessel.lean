import Verif.Model.PosixBessel
import Verif.Props.NestedJet
/-!
# Bessel functions of jets with the functions of POSIX (C130)
-/

namespace Verif
namespace Loss

open Filter Topology

/-! ### The functions -/

theorem seriesJ_eq (n : ℕ) (x : ℝ) : seriesJ n x = besselJ n x := by
  unfold seriesJ besselJ
  rw [Real.rpow_natCast, ← tsum_mul_left]
  refine tsum_congr fun k => ?_
  have h : Real.Gamma ((k : ℝ) + n + 1) = ((k + n).factorial : ℝ) := by
    have := Real.Gamma_nat_eq_factorial (k + n)
    rwa [Nat.cast_add] at this
  rw [h, pow_add, pow_mul, sq]
  ring

theorem posixJ_nat (n : ℕ) (x : ℝ) : posixJ n x = besselJ n x := by
  unfold posixJ
  rw [if_pos (Int.natCast_nonneg n), Int.toNat_natCast, seriesJ_eq]

theorem posixJ_neg (n : ℕ) (x : ℝ) : posixJ (-n) x = (-1) ^ n * besselJ n x := by
  rcases Nat.eq_zero_or_pos n with rfl | h
  · simpa using posixJ_nat 0 x
  · unfold posixJ
    rw [if_neg (by omega), Int.natAbs_neg, Int.natAbs_natCast, seriesJ_eq]

/-- the recurrence of three orders, for natural orders -/
theorem besselJ_rec (n : ℕ) (x : ℝ) : 2 * ((n : ℝ) + 1) * besselJ (n + 1 : ℕ) x = x * (besselJ n x + besselJ (n + 2 : ℕ) x) := by
  have h := besselS_rec (v := (n : ℝ) + 1) (by linarith [(n.cast_nonneg : (0 : ℝ) ≤ n)]) ((x / 2) * (x / 2))
  rw [add_sub_cancel_right, show (n : ℝ) + 1 + 1 = ((n + 2 : ℕ) : ℝ) by push_cast; ring, show (n : ℝ) + 1 = ((n + 1 : ℕ) : ℝ) by push_cast; ring] at h
  rw [show (n : ℝ) + 1 = ((n + 1 : ℕ) : ℝ) by push_cast; ring, besselJ_eq, besselJ_eq, besselJ_eq, Real.rpow_natCast, Real.rpow_natCast, Real.rpow_natCast, pow_succ, pow_add _ n 2]
  linear_combination x * (x / 2) ^ n * h

/-- the recurrence for all integer orders -/
theorem posixJ_rec (n : ℤ) (x : ℝ) : 2 * (n : ℝ) * posixJ n x = x * (posixJ (n - 1) x + posixJ (n + 1) x) := by
  obtain ⟨m, rfl | rfl⟩ := n.eq_nat_or_neg
  · rcases m with _ | m
    · have h1 : posixJ (((0 : ℕ) : ℤ) - 1) x = -besselJ (1 : ℕ) x := by
        have := posixJ_neg 1 x
        simpa using this
      have h2 : posixJ (((0 : ℕ) : ℤ) + 1) x = besselJ (1 : ℕ) x := by simpa using posixJ_nat 1 x
      rw [h1, h2]
      simp
    · rw [show ((m + 1 : ℕ) : ℤ) - 1 = (m : ℕ) by push_cast; ring, show ((m + 1 : ℕ) : ℤ) + 1 = (m + 2 : ℕ) by push_cast; ring, posixJ_nat, posixJ_nat, posixJ_nat]
      have := besselJ_rec m x
      push_cast at this ⊢
      exact this
  · rcases m with _ | m
    · have h1 : posixJ (-((0 : ℕ) : ℤ) - 1) x = -besselJ (1 : ℕ) x := by
        have := posixJ_neg 1 x
        simpa using this
      have h2 : posixJ (-((0 : ℕ) : ℤ) + 1) x = besselJ (1 : ℕ) x := by simpa using posixJ_nat 1 x
      rw [h1, h2]
      simp
    · rw [show -((m + 1 : ℕ) : ℤ) - 1 = -(m + 2 : ℕ) by push_cast; ring, show -((m + 1 : ℕ) : ℤ) + 1 = -(m : ℕ) by push_cast; ring, posixJ_neg, posixJ_neg, posixJ_neg]
      have := besselJ_rec m x
      rw [pow_succ, pow_add _ m 2]
      push_cast at this ⊢
      linear_combination (-1) ^ m * this

theorem besselJ_deriv_nat (n : ℕ) (x : ℝ) : HasDerivAt (besselJ (n + 1 : ℕ)) (1 / 2 * (besselJ n x - besselJ (n + 2 : ℕ) x)) x := by
  have h := hasDerivAt_besselJ (v := ((n + 1 : ℕ) : ℝ)) (x := x) (by push_cast; linarith [(n.cast_nonneg : (0 : ℝ) ≤ n)]) (Or.inl ⟨n + 1, rfl⟩)
  rwa [show ((n + 1 : ℕ) : ℝ) - 1 = (n : ℝ) by push_cast; ring, show ((n + 1 : ℕ) : ℝ) + 1 = ((n + 2 : ℕ) : ℝ) by push_cast; ring] at h

/-- **C130**, formula: the derivative that the code uses is the derivative, for all integer orders and all real arguments. -/
theorem posixJ_deriv (n : ℤ) (x : ℝ) : HasDerivAt (posixJ n) (1 / 2 * (posixJ (n - 1) x - posixJ (n + 1) x)) x := by
  have h0 : HasDerivAt (posixJ 0) (1 / 2 * (posixJ (0 - 1) x - posixJ (0 + 1) x)) x := by
    have e1 : posixJ (0 - 1) x = -besselJ 1 x := by simpa using posixJ_neg 1 x
    have e2 : posixJ (0 + 1) x = besselJ 1 x := by simpa using posixJ_nat 1 x
    have e3 : posixJ 0 = besselJ 0 := by funext y; simpa using posixJ_nat 0 y
    rw [e1, e2, e3]
    exact (hasDerivAt_besselJ_zero x).congr_deriv (by ring)
  obtain ⟨m, rfl | rfl⟩ := n.eq_nat_or_neg
  · rcases m with _ | m
    · simpa using h0
    · rw [show ((m + 1 : ℕ) : ℤ) - 1 = (m : ℕ) by push_cast; ring, show ((m + 1 : ℕ) : ℤ) + 1 = (m + 2 : ℕ) by push_cast; ring, posixJ_nat, posixJ_nat,
        show posixJ ((m + 1 : ℕ) : ℤ) = besselJ (m + 1 : ℕ) from funext fun y => posixJ_nat _ y]
      exact besselJ_deriv_nat m x
  · rcases m with _ | m
    · simpa using h0
    · rw [show -((m + 1 : ℕ) : ℤ) - 1 = -(m + 2 : ℕ) by push_cast; ring, show -((m + 1 : ℕ) : ℤ) + 1 = -(m : ℕ) by push_cast; ring, posixJ_neg, posixJ_neg,
        show posixJ (-((m + 1 : ℕ) : ℤ)) = fun y => (-1) ^ (m + 1) * besselJ (m + 1 : ℕ) y from funext fun y => posixJ_neg _ y]
      refine ((besselJ_deriv_nat m x).const_mul _).congr_deriv ?_
      rw [pow_succ, pow_add _ m 2]
      ring

theorem posixJ_deriv0 (x : ℝ) : HasDerivAt (posixJ 0) (-posixJ 1 x) x := by
  have h := posixJ_deriv 0 x
  have h1 := posixJ_neg 1 x
  have h2 := posixJ_nat 1 x
  refine h.congr_deriv ?_
  rw [show (0 : ℤ) - 1 = -((1 : ℕ) : ℤ) by norm_num, show (0 : ℤ) + 1 = ((1 : ℕ) : ℤ) by norm_num, show (1 : ℤ) = ((1 : ℕ) : ℤ) by norm_num, h1, h2]
  ring

/-- **C130**, functions: `jn` as modelled solves the differential equation of Bessel, for all integer orders and all real arguments (zero and negative ones included), is 1 at zero for the order 0
and 0 for the others, has the symmetry in the order and in the argument, and agrees with `cyl_bessel_j` where that is defined. -/
theorem C130_functions (n : ℤ) (x : ℝ) :
    x ^ 2 * deriv (deriv (posixJ n)) x + x * deriv (posixJ n) x + (x ^ 2 - (n : ℝ) ^ 2) * posixJ n x = 0 ∧ posixJ n 0 = (if n = 0 then 1 else 0) ∧
    posixJ (-n) x = posixJ n (-x) ∧ (0 ≤ n → posixJ n x = besselJ n x) := by
  have hd : ∀ m : ℤ, deriv (posixJ m) = fun x => 1 / 2 * (posixJ (m - 1) x - posixJ (m + 1) x) := fun m => funext fun y => (posixJ_deriv m y).deriv
  refine ⟨?_, ?_, ?_, fun h => ?_⟩
  · have h2 : deriv (deriv (posixJ n)) x = 1 / 2 * (1 / 2 * (posixJ (n - 1 - 1) x - posixJ (n - 1 + 1) x) - 1 / 2 * (posixJ (n + 1 - 1) x - posixJ (n + 1 + 1) x)) := by
      rw [hd n]
      exact (((posixJ_deriv (n - 1) x).sub (posixJ_deriv (n + 1) x)).const_mul (1 / 2)).deriv
    have r0 := posixJ_rec n x
    have r1 := posixJ_rec (n - 1) x
    have r2 := posixJ_rec (n + 1) x
    rw [h2, hd n]
    rw [sub_add_cancel] at r1 ⊢
    rw [add_sub_cancel_right] at r2 ⊢
    push_cast at r1 r2
    linear_combination (-(n : ℝ) / 2) * r0 - x / 4 * r1 - x / 4 * r2
  · obtain ⟨m, rfl | rfl⟩ := n.eq_nat_or_neg
    · rw [posixJ_nat, besselJ_at_zero (Nat.cast_nonneg m)]
      simp
    · rw [posixJ_neg, besselJ_at_zero (Nat.cast_nonneg m)]
      rcases m with _ | m <;> simp
      rw [if_neg (by positivity), if_neg (by omega)]
  · have hp : ∀ m : ℕ, besselJ m (-x) = (-1) ^ m * besselJ m x := by
      intro m
      rw [besselJ_eq, besselJ_eq, Real.rpow_natCast, Real.rpow_natCast, show -x / 2 = -1 * (x / 2) by ring, mul_pow, show -1 * (x / 2) * (-1 * (x / 2)) = x / 2 * (x / 2) by ring]
      ring
    obtain ⟨m, rfl | rfl⟩ := n.eq_nat_or_neg
    · rw [posixJ_neg, posixJ_nat, hp]
    · rw [neg_neg, posixJ_neg, posixJ_nat, hp, ← mul_assoc, ← mul_pow]
      simp
  · obtain ⟨m, rfl⟩ := Int.eq_ofNat_of_zero_le h
    rw [posixJ_nat]
    simp

/-! ### Jets -/

/-- the order -/
def BFun.ord : BFun → ℤ
  | .j0 => 0 | .j1 => 1 | .jn n => n

/-- the orders that `k` derivatives ask for fit in `int` -/
def BFun.fits (o : BFun) (k : ℕ) : Prop := -2 ^ 31 ≤ o.ord - k ∧ o.ord + k < 2 ^ 31

variable {n : Nat}

/-- a jet with a value and a factor for the infinitesimal part -/
theorem rep_chain {x : RVec n} {k : Nat} {J : Tower n (k + 1)} {g : RVec n → ℝ} (h : TowerRep x (k + 1) J g) {φ φ' : ℝ → ℝ} (hφ : ∀ t, HasDerivAt φ (φ' t) t) {A D : Tower n k}
    (hA : TowerRep x k A fun y => φ (g y)) (hD : TowerRep x k D fun y => φ' (g y)) :
    TowerRep x (k + 1) (⟨A, fun i => JOps.mul D ((J : NJet (Tower n k) n).v i)⟩ : NJet (Tower n k) n) fun y => φ (g y) := by
  refine ⟨hA, h.2.1.mono fun y hy => (hφ (g y)).differentiableAt.comp y hy, fun i => (hD.mul (h.2.2 i)).congr (h.2.1.mono fun y hy => ?_)⟩
  exact (((hasGrad_partialD hy).comp_deriv (hφ (g y))).partialD_eq i).symm

theorem besselPosix_jn (k : Nat) (m : ℤ) (f : NJet (Tower n k) n) : besselPosix (N := n) (k + 1) (.jn m) f =
    (besselPosix k (.jn m) f.a).bind fun a => (toInt (m - 1)).bind fun down => (besselPosix k (.jn down) f.a).bind fun b => (toInt (m + 1)).bind fun up =>
      (besselPosix k (.jn up) f.a).bind fun c => some (⟨a, fun i => JOps.mul (JOps.mul (JOps.const 0.5) (JOps.sub b c)) (f.v i)⟩ : NJet (Tower n k) n) := rfl

theorem posix_rep {x : RVec n} (k : Nat) (o : BFun) (J : Tower n k) (g : RVec n → ℝ) (hf : o.fits k) (h : TowerRep x k J g) :
    ∃ K, besselPosix k o J = some K ∧ TowerRep x k K fun y => posixJ o.ord (g y) := by
  induction k generalizing o with
  | zero =>
    have h : J = g x := h
    subst h
    cases o <;> exact ⟨_, rfl, rfl⟩
  | succ k ih =>
    unfold BFun.fits at hf
    push_cast at hf
    cases o with
    | j0 =>
      simp only [BFun.ord] at hf
      obtain ⟨A, a1, a2⟩ := ih .j0 _ (by simp only [BFun.fits, BFun.ord]; omega) h.1
      obtain ⟨B, b1, b2⟩ := ih .j1 _ (by simp only [BFun.fits, BFun.ord]; omega) h.1
      refine ⟨_, ?_, rep_chain h posixJ_deriv0 a2 b2.neg⟩
      show (besselPosix k .j0 (NJet.a J)).bind _ = _
      rw [a1, Option.bind_some, b1]
      rfl
    | j1 =>
      simp only [BFun.ord] at hf
      obtain ⟨A, a1, a2⟩ := ih .j1 _ (by simp only [BFun.fits, BFun.ord]; omega) h.1
      obtain ⟨B, b1, b2⟩ := ih .j0 _ (by simp only [BFun.fits, BFun.ord]; omega) h.1
      obtain ⟨C, c1, c2⟩ := ih (.jn 2) _ (by simp only [BFun.fits, BFun.ord]; omega) h.1
      refine ⟨_, ?_, rep_chain h (φ := posixJ 1) (φ' := fun t => 0.5 * (posixJ 0 t - posixJ 2 t)) (fun t => (posixJ_deriv 1 t).congr_deriv ?_) a2 ((rep_const x k 0.5).mul (b2.sub c2))⟩
      · show (besselPosix k .j1 (NJet.a J)).bind _ = _
        rw [a1, Option.bind_some, b1, Option.bind_eq_bind, Option.bind_some, c1]
        rfl
      · norm_num
    | jn m =>
      simp only [BFun.ord] at hf
      obtain ⟨A, a1, a2⟩ := ih (.jn m) _ (by simp only [BFun.fits, BFun.ord]; omega) h.1
      obtain ⟨B, b1, b2⟩ := ih (.jn (m - 1)) _ (by simp only [BFun.fits, BFun.ord]; omega) h.1
      obtain ⟨C, c1, c2⟩ := ih (.jn (m + 1)) _ (by simp only [BFun.fits, BFun.ord]; omega) h.1
      have hd : toInt (m - 1) = some (m - 1) := if_pos ⟨by omega, by omega⟩
      have hu : toInt (m + 1) = some (m + 1) := if_pos ⟨by omega, by omega⟩
      refine ⟨_, ?_, rep_chain h (φ := posixJ m) (φ' := fun t => 0.5 * (posixJ (m - 1) t - posixJ (m + 1) t)) (fun t => (posixJ_deriv m t).congr_deriv ?_) a2 ((rep_const x k 0.5).mul (b2.sub c2))⟩
      · refine (besselPosix_jn k m J).trans ?_
        rw [a1, hd, Option.bind_some, Option.bind_some, b1, hu, Option.bind_some, Option.bind_some, c1]
        rfl
      · norm_num

theorem rep_coeff {x : RVec n} (k : Nat) (J : Tower n k) (f : RVec n → ℝ) (hr : TowerRep x k J f) (p : List (Option (Fin n))) (hp : p.length ≤ k) :
    Tower.coeff k J p = partials (p.filterMap id) f x := by
  induction k generalizing f p with
  | zero =>
    obtain rfl : p = [] := List.length_eq_zero_iff.1 (Nat.le_zero.1 hp)
    exact hr
  | succ k ih =>
    match p, hp with
    | [], _ => exact ih J.a f hr.1 [] (Nat.zero_le _)
    | none :: p, hp => exact ih J.a f hr.1 p (Nat.le_of_succ_le_succ hp)
    | some i :: p, hp => exact ih (J.v i) _ (hr.2.2 i) p (Nat.le_of_succ_le_succ hp)

/-- **C130**, derivatives: `BesselJ0`, `BesselJ1` and `BesselJn` of the jet (of jets …, `k` times) of any code inside the domains of its operations carry the value and every partial derivative up to
order `k`, for all integer orders and all arguments, if the orders asked for fit in `int`. -/
theorem C130_derivatives (o : BFun) (e : NExpr n) (x : RVec n) (h : e.InDom x) (k : Nat) (ho : o.fits k) :
    ∃ J, (e.eval (Tower.seed x k)).bind (besselPosix k o) = some J ∧
      ∀ p : List (Option (Fin n)), p.length ≤ k → Tower.coeff k J p = partials (p.filterMap id) (fun y => posixJ o.ord (e.value y)) x := by
  obtain ⟨J, h1, h2⟩ := eval_rep (closed x k) (rep_seed x k) e h
  obtain ⟨K, k1, k2⟩ := posix_rep k o J _ ho h2
  refine ⟨K, by rw [h1, Option.bind_some, k1], fun p hp => rep_coeff k K _ k2 p hp⟩

/-- **C130**, jets of numbers: value and chain rule; the largest and the smallest `int` as the order overflow in the computation of the derivative, although the function is differentiable. -/
theorem C130_jet (f : NJet ℝ n) :
    besselPosix (N := n) 1 .j0 f = some (⟨posixJ 0 f.a, fun i => deriv (posixJ 0) f.a * f.v i⟩ : NJet ℝ n) ∧
    besselPosix (N := n) 1 .j1 f = some (⟨posixJ 1 f.a, fun i => deriv (posixJ 1) f.a * f.v i⟩ : NJet ℝ n) ∧
    (∀ m : ℤ, -2 ^ 31 < m → m < 2 ^ 31 - 1 → besselPosix (N := n) 1 (.jn m) f = some (⟨posixJ m f.a, fun i => deriv (posixJ m) f.a * f.v i⟩ : NJet ℝ n)) ∧
    besselPosix (N := n) 1 (.jn (2 ^ 31 - 1)) f = none ∧ besselPosix (N := n) 1 (.jn (-2 ^ 31)) f = none ∧ ∀ m, Differentiable ℝ (posixJ m) := by
  refine ⟨?_, ?_, fun m h1 h2 => ?_, ?_, ?_, fun m x => (posixJ_deriv m x).differentiableAt⟩
  · rw [(posixJ_deriv0 f.a).deriv]
    rfl
  · rw [(posixJ_deriv 1 f.a).deriv]
    refine congrArg some ?_
    refine congrArg (fun w => (⟨posixJ 1 f.a, w⟩ : NJet ℝ n)) (funext fun i => ?_)
    show (0.5 : ℝ) * (posixJ 0 f.a - posixJ 2 f.a) * f.v i = _
    norm_num
  · have hd : toInt (m - 1) = some (m - 1) := if_pos ⟨by omega, by omega⟩
    have hu : toInt (m + 1) = some (m + 1) := if_pos ⟨by omega, by omega⟩
    rw [(posixJ_deriv m f.a).deriv]
    refine (besselPosix_jn 0 m f).trans ?_
    rw [hd, hu]
    refine congrArg some ?_
    refine congrArg (fun w => (⟨posixJ m f.a, w⟩ : NJet ℝ n)) (funext fun i => ?_)
    show (0.5 : ℝ) * (posixJ (m - 1) f.a - posixJ (m + 1) f.a) * f.v i = _
    norm_num
  · refine (besselPosix_jn 0 _ f).trans ?_
    rw [show toInt (2 ^ 31 - 1 + 1) = none from by decide, show toInt (2 ^ 31 - 1 - 1) = some (2 ^ 31 - 1 - 1) from by decide]
    rfl
  · refine (besselPosix_jn 0 _ f).trans ?_
    rw [show toInt (-2 ^ 31 - 1) = none from by decide]
    rfl

/-- `BesselJ0` of a jet with the negative scalar part -3, which the C++17 branch refuses (`C91_bessel_fails`): the derivative is `J₁(3)` -/
example : besselPosix (N := 1) 1 .j0 (⟨-3, fun _ => 1⟩ : NJet ℝ 1) = some (⟨posixJ 0 3, fun _ => posixJ 1 3⟩ : NJet ℝ 1) ∧
    SJet.op1 (.bessel (0 : ℕ)) (⟨-3, fun _ => 1⟩ : SJet 1) = .nonfinite := by
  refine ⟨?_, ((C91_bessel_fails _).2 0 (by norm_num)).1⟩
  rw [(C130_jet _).1]
  have h1 : posixJ 0 (-3) = posixJ 0 3 := by simpa using ((C130_functions 0 3).2.2.1).symm
  have h2 : deriv (posixJ 0) (-3) = posixJ 1 3 := by
    rw [(posixJ_deriv0 (-3)).deriv, ← (C130_functions 1 3).2.2.1]
    have a := posixJ_neg 1 3
    have b := posixJ_nat 1 3
    rw [show (1 : ℤ) = ((1 : ℕ) : ℤ) from rfl, a, b]
    ring
  simp only [h1, h2, mul_one]
  rfl

/-- second derivatives of `jn(-2, x₀ x₁)` at a point with a negative product: the hypotheses of `C130_derivatives` -/
example : ∃ J, ((NExpr.mul (.var 0) (.var 1) : NExpr 2).eval (Tower.seed ![-1, 2] 2)).bind (besselPosix 2 (.jn (-2))) = some J ∧
    Tower.coeff 2 J [some 0, some 1] = partialD 1 (partialD 0 fun y => posixJ (-2) (y 0 * y 1)) ![-1, 2] := by
  obtain ⟨J, h1, h2⟩ := C130_derivatives (.jn (-2)) (NExpr.mul (.var 0) (.var 1) : NExpr 2) ![-1, 2] ⟨trivial, trivial⟩ 2 ⟨by decide, by decide⟩
  exact ⟨J, h1, h2 [some 0, some 1] le_rfl⟩

end Loss
end Verif
