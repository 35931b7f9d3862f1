import Verif.Num.Round
import Verif.Props.Position
import Verif.Examples.Solver1
/-!
# C05, C06: rolling back in floating point

The optimizer undoes a rejected step by adding `-dx` (optimizer.h:283-288). In floating point this does not give back the old `x`.
-/

set_option linter.unusedSectionVars false

namespace Verif
open FloatOps

/-! ### The witness -/

/-- one parameter in double precision; cost `(x - 2)^2`, gradient `2 (x - 2)` -/
def quad64 : Problem (Fl Fmt.binary64) (Fl Fmt.binary64) Nat (Fl Fmt.binary64) where
  acc :=
    { full := fun w x _ g H =>
        (({ cost := mul (sub x (ofInt 2)) (sub x (ofInt 2)), num := 1, inlier := ofInt 1 },
          fun i => add (g i) (mul (ofInt 2) (sub x (ofInt 2))), H), w + 1)
      eval := fun w x => ({ cost := mul (sub x (ofInt 2)) (sub x (ofInt 2)), num := 1, inlier := ofInt 1 }, w) }
  dims := some 1
  dynDims := fun _ => 1
  plusEq := fun x d => if h : 0 < d.n then add x (d.v ⟨0, h⟩) else x
  clock := fun w => (ofInt 1, w)
  alloc := fun w _ => (some (fun _ => ofInt 7, fun _ _ => ofInt 7), w)
  ratio1 := ofInt 1

/-- solver options for double precision; the learning rate is `2^60` -/
def soptsGd64 : SolverOpts (Fl Fmt.binary64) where
  useSquaredNorm := true
  downscaleBy2 := false
  normalize := false
  gradClip := ofInt 0
  useLdlt := true
  hIsFull := true
  checkMinHDiag := ofInt 0
  dampInit := ofInt 0
  dampLo := ofInt 0
  dampHi := ofInt 1
  goodFactor := ofInt 1
  badFactor := ofInt 2
  lr := ofInt (2 ^ 60)

/-- optimizer options for double precision: stop at the first failure -/
def optsGd64 : Options (Fl Fmt.binary64) Nat (DVec (Fl Fmt.binary64)) where
  checkFinalCost := false
  useStepQuality := false
  saveLast := false
  maxIters := 10
  minError := ofInt 0
  minRerrDec := ofInt 0
  minStepNorm2 := ofInt 0
  minGradNorm2 := ofInt 0
  maxTotalFailures := 0
  maxConsecFailures := 1
  maxDurationMs := ofInt 0
  stopCallback := none
  stopCallback2 := none

/-- the cost of the witness -/
def quadCost64 (x : Fl Fmt.binary64) : Fl Fmt.binary64 := mul (sub x (ofInt 2)) (sub x (ofInt 2))

theorem Fl.eq_of_eq {f : Fmt} {a b : Fl f} (h : FloatOps.eq a b = true) : a = b := by
  cases a <;> cases b <;> first
    | rfl
    | cases h
    | (rename_i p hp q hq
       have : p = q := of_decide_eq_true h
       subst this; rfl)

theorem Fl.eq_self {f : Fmt} {a b : Fl f} (h : a = b) (hb : FloatOps.finite b = true) : FloatOps.eq a b = true := by
  subst h
  obtain ⟨q, hq, rfl⟩ := (finite_iff a).1 hb
  exact decide_eq_true rfl

/-- **C05 and C06 are violated** in double precision: Gradient Descent on `(x - 2)^2` from `x = 1` proposes the step
`2^61`, the cost increases, the step is rolled back and the run ends with `kMaxConsecNoDecr` and `final_cost = 1`, but
`x = (1 + 2^61) - 2^61 = 0`, a point that was never evaluated and has cost 4. -/
theorem C05_rollback_rounds : ∃ st, optimizeAcc (gdEnv soptsGd64 quad64) optsGd64 10 (-1) 0
      (gnFresh quad64 (fun _ => ofInt 0) (fun _ _ => ofInt 0)) (ofInt 1) = .ok st ∧
    st.out.stop = .kMaxConsecNoDecr ∧ st.out.finalCost.cost = ofInt 1 ∧ st.x = ofInt 0 ∧
    quadCost64 st.x = ofInt 4 ∧ (∀ r ∈ st.trace, r.x ≠ st.x) ∧
    ¬ AtBestOrOneStep (gdEnv soptsGd64 quad64) (ofInt 1) st.trace st.out.finalCost st.x := by
  have := Res.exists_of_holds (r := optimizeAcc (gdEnv soptsGd64 quad64) optsGd64 10 (-1) 0
      (gnFresh quad64 (fun _ => ofInt 0) (fun _ _ => ofInt 0)) (ofInt 1))
    (p := fun st => decide (st.out.stop = .kMaxConsecNoDecr) && eq st.out.finalCost.cost (ofInt 1) && eq st.x (ofInt 0) &&
      eq (quadCost64 st.x) (ofInt 4) && st.trace.all (fun r => !eq r.x (ofInt 0)) &&
      st.trace.any (fun r => r.dx.isSome) && st.trace.all (fun r => match r.dx with
        | some d => decide (d.n = 1) && (!eq (quad64.plusEq (ofInt 1) d) (ofInt 0)) && (!eq (quad64.plusEq (ofInt (2 ^ 61)) d) (ofInt 0))
        | none => true) &&
      st.trace.all (fun r => eq r.x (ofInt 1) || eq r.x (ofInt (2 ^ 61))))
    (by decide +kernel)
  obtain ⟨st, h1, h2⟩ := this
  simp only [Bool.and_eq_true, decide_eq_true_eq, List.all_eq_true, List.any_eq_true, Bool.or_eq_true] at h2
  obtain ⟨⟨⟨⟨⟨⟨⟨e1, e2⟩, e3⟩, e4⟩, e5⟩, e6⟩, e7⟩, e8⟩ := h2
  have hx := Fl.eq_of_eq e3
  have hfin : FloatOps.finite (ofInt 0 : Fl Fmt.binary64) = true := by decide +kernel
  have hne : ∀ y : Fl Fmt.binary64, (!FloatOps.eq y (ofInt 0)) = true → y ≠ ofInt 0 := fun y h he => by
    rw [Fl.eq_self he hfin] at h; cases h
  have hpts : ∀ r ∈ st.trace, r.x ≠ st.x := fun r hr => by rw [hx]; exact hne _ (e5 r hr)
  refine ⟨st, h1, e1, Fl.eq_of_eq e2, hx, Fl.eq_of_eq e4, hpts, ?_⟩
  rintro (⟨-, h⟩ | ⟨p, ⟨r, hr, rfl⟩, -, h | ⟨d, ⟨r', hr', hd⟩, h⟩⟩)
  · obtain ⟨r, hr, hs⟩ := e6
    rw [h r hr] at hs; cases hs
  · exact hpts r hr h.symm
  · have := e7 r' hr'
    rw [hd] at this
    simp only [Bool.and_eq_true] at this
    rw [hx] at h
    rcases e8 r hr with hp | hp
    · rw [Fl.eq_of_eq hp] at h
      exact hne _ this.1.2 h.symm
    · rw [Fl.eq_of_eq hp] at h
      exact hne _ this.2 h.symm

/-! ### How far off the rolled back point is -/

section
variable {p : ℕ} {hp : p ≠ 0} {emin : ℤ} {hem : emin ≤ -emin - 2 * p + 3} {ep : ℚ}

theorem Fl.add_fin {f : Fmt} {a b : Fl f} {q : ℚ} {h} (e : FloatOps.add a b = .fin q h) :
    ∃ qa ha qb hb, a = .fin qa ha ∧ b = .fin qb hb ∧ q = f.rnd (qa + qb) := by
  cases a <;> cases b <;> try (exfalso; cases e; done)
  rename_i a ha b hb
  refine ⟨a, ha, b, hb, rfl, rfl, ?_⟩
  change Fl.mk (a + b) = _ at e
  unfold Fl.mk Fl.ofGrid at e
  split at e
  · injection e with e; exact e.symm
  · split at e <;> cases e

/-- one trip forth and back -/
theorem roundTrip_err {y d : Fl (Fmt.ieee p hp emin hem ep)} {q : ℚ} {h}
    (e : FloatOps.add (FloatOps.add y d) (FloatOps.neg d) = .fin q h) :
    ∃ a ha b hb, y = .fin a ha ∧ d = .fin b hb ∧ |q - a| ≤ ((1 + 1 / 2 ^ p) ^ 2 - 1) * (|a| + |b|) := by
  obtain ⟨s, hs, nb, hnb, e1, e2, rfl⟩ := Fl.add_fin e
  obtain ⟨a, ha, b, hb, rfl, rfl, rfl⟩ := Fl.add_fin e1
  refine ⟨a, ha, b, hb, rfl, rfl, ?_⟩
  have e3 : nb = -b := by
    change Fl.fin (-b) _ = _ at e2
    injection e2 with e2; exact e2.symm
  subst e3
  have g1 : |rndBin p emin (a + b) - (a + b)| ≤ |a + b| / 2 ^ p := rndBin_add_err ha.1 hb.1
  have g2 : |rndBin p emin (rndBin p emin (a + b) + -b) - (rndBin p emin (a + b) + -b)| ≤ |rndBin p emin (a + b) + -b| / 2 ^ p :=
    rndBin_add_err (rndBin_grid hp _) (gridBin_neg hb.1)
  show |rndBin p emin (rndBin p emin (a + b) + -b) - a| ≤ _
  generalize rndBin p emin (a + b) = s at *
  generalize rndBin p emin (s + -b) = t at *
  set u : ℚ := 1 / 2 ^ p with hu
  have hu0 : 0 ≤ u := by positivity
  rw [div_eq_mul_one_div, ← hu] at g1 g2
  have k1 : |t - a| ≤ |t - (s + -b)| + |s - (a + b)| := by
    have e : t - a = (t - (s + -b)) + (s - (a + b)) := by ring
    rw [e]; exact abs_add_le _ _
  have k2 : |s + -b| ≤ |s - (a + b)| + |a| := by
    have e : s + -b = (s - (a + b)) + a := by ring
    rw [e]; exact abs_add_le _ _
  have k3 := abs_add_le a b
  have k4 := abs_nonneg a
  have k5 := abs_nonneg b
  have m1 : |s - (a + b)| ≤ (|a| + |b|) * u := g1.trans (mul_le_mul_of_nonneg_right k3 hu0)
  have m2 : |s + -b| * u ≤ ((|a| + |b|) * u + |a|) * u := mul_le_mul_of_nonneg_right (by linarith) hu0
  have m3 : 0 ≤ |b| * u := by positivity
  nlinarith

variable {R W S X V M : Type} {E : Env (Fl (Fmt.ieee p hp emin hem ep)) R W S X V M}
  {o : Options (Fl (Fmt.ieee p hp emin hem ep)) W V}

/-- `π` is a coordinate of the parameters that is updated by floating point addition of the coordinate `δ` of the step
(a scalar, or a coefficient of a vector or matrix) -/
structure Coord (E : Env (Fl (Fmt.ieee p hp emin hem ep)) R W S X V M) (π : X → Fl (Fmt.ieee p hp emin hem ep))
    (δ : V → Fl (Fmt.ieee p hp emin hem ep)) : Prop where
  plus : ∀ x d, π (E.plusEq x d) = FloatOps.add (π x) (δ d)
  neg : ∀ d, δ (E.negV d) = FloatOps.neg (δ d)

/-- `k` trips forth and back by steps bounded by `B` -/
theorem RoundTrips.err {π : X → Fl (Fmt.ieee p hp emin hem ep)} {δ : V → Fl (Fmt.ieee p hp emin hem ep)} (hc : Coord E π δ)
    {A : V → Prop} {B : ℚ} (hB : ∀ d, A d → ∀ b h, δ d = .fin b h → |b| ≤ B) {x0 : X} {x : X} {k : Nat}
    (h : RoundTrips E A x0 x k) {q : ℚ} {hq} (e : π x = .fin q hq) :
    ∃ a ha, π x0 = .fin a ha ∧ |q - a| ≤ ((1 + 1 / 2 ^ p) ^ (2 * k) - 1) * (|a| + B) := by
  induction h generalizing q with
  | refl => exact ⟨q, hq, e, by simp⟩
  | @back y d k hr hd ih =>
    rw [hc.plus, hc.plus, hc.neg] at e
    obtain ⟨a', ha', b, hb, ey, ed, hbd⟩ := roundTrip_err e
    obtain ⟨a, ha, ex, hbd'⟩ := ih ey
    refine ⟨a, ha, ex, ?_⟩
    have hbB := hB d hd b hb ed
    set v : ℚ := (1 + 1 / 2 ^ p) ^ 2 with hv
    have hv1 : 1 ≤ v := one_le_pow₀ (by have : (0 : ℚ) ≤ 1 / 2 ^ p := by positivity
                                        linarith)
    have ek : (1 + 1 / 2 ^ p : ℚ) ^ (2 * (k + 1)) = v ^ k * v := by rw [hv, pow_mul, pow_succ]
    have ek' : (1 + 1 / 2 ^ p : ℚ) ^ (2 * k) = v ^ k := by rw [hv, pow_mul]
    rw [ek'] at hbd'
    rw [ek]
    have t1 : |q - a| ≤ |q - a'| + |a' - a| := abs_sub_le q a' a
    have t2 : |a'| ≤ |a' - a| + |a| := by
      have e : a' = (a' - a) + a := by ring
      conv_lhs => rw [e]
      exact abs_add_le _ _
    have t3 : (v - 1) * (|a'| + |b|) ≤ (v - 1) * (v ^ k * (|a| + B)) := mul_le_mul_of_nonneg_left (by linarith) (by linarith)
    nlinarith

/-- **C05, floating point**: if the run ends because a step failed, then (unless nothing was evaluated) every finite
coordinate of the returned point is that of the best point up to `((1 + u)^(2k) - 1) (|a| + B)`, where `u = 2^-p` (`p = 53`
for `double`), `k` is less than the number of iterations, `a` is the coordinate of the best point and `B` a bound of the
proposed steps. -/
theorem C05_returned_x_float {fuel : Nat} {mi : Int} (hmi : budget o mi ≤ 65536)
    {w : W} {s : S} {x : X} {st : LoopSt (Fl (Fmt.ieee p hp emin hem ep)) R W S X V M}
    (h : optimizeAcc E o fuel mi w s x = .ok st)
    (hstop : st.out.stop.code < 0 ∨ st.out.stop = .kMaxNoDecr ∨ st.out.stop = .kMaxConsecNoDecr)
    {π : X → Fl (Fmt.ieee p hp emin hem ep)} {δ : V → Fl (Fmt.ieee p hp emin hem ep)} (hc : Coord E π δ)
    {B : ℚ} (hB : ∀ r ∈ st.trace, ∀ d, r.dx = some d → ∀ b h, δ d = .fin b h → |b| ≤ B) :
    (st.x = x ∧ ∀ r ∈ st.trace, r.dx = none) ∨
    ∃ best, (∃ r ∈ st.trace, r.x = best) ∧ MeasuredAt E best st.out.finalCost ∧
      ∃ k, k < st.trace.length ∧ ∀ q hq, π st.x = .fin q hq →
        ∃ a ha, π best = .fin a ha ∧ |q - a| ≤ ((1 + 1 / 2 ^ p) ^ (2 * k) - 1) * (|a| + B) := by
  rcases (C05_returned_x_roundtrips hmi h).2 hstop with h | ⟨best, h1, h2, k, hr, hk⟩
  · exact Or.inl h
  · exact Or.inr ⟨best, h1, h2, k, hk, fun q hq e => hr.err hc (fun d ⟨r, hr, hd⟩ b h => hB r hr d hd b h) e⟩

end

theorem Fl.add_zero' {f : Fmt} (a : Fl f) : FloatOps.add a (ofInt 0) = a := by
  rw [Fl.ofInt_zero]
  cases a with
  | fin q h =>
    show Fl.mk (q + 0) = _
    unfold Fl.mk Fl.ofGrid
    simp only [_root_.add_zero, f.rnd_id q h.1]
    rw [dif_pos h.2]
  | _ => rfl

theorem Fl.neg_zero' {f : Fmt} : FloatOps.neg (ofInt 0 : Fl f) = ofInt 0 := by
  rw [Fl.ofInt_zero]
  show Fl.fin (-0) _ = Fl.fin 0 _
  simp only [neg_zero]

/-- the parameter of the witness is a coordinate, so `C05_returned_x_float` applies to its run -/
example : Coord (gdEnv soptsGd64 quad64) (fun x => x) (fun d => if h : 0 < d.n then d.v ⟨0, h⟩ else ofInt 0) where
  plus x d := by
    show (if h : 0 < d.n then FloatOps.add x (d.v ⟨0, h⟩) else x) = _
    by_cases h : 0 < d.n
    · rw [dif_pos h, dif_pos h]; rfl
    · rw [dif_neg h, dif_neg h]; exact (Fl.add_zero' x).symm
  neg d := by
    show (if h : 0 < d.n then (negVec d.v) ⟨0, h⟩ else ofInt 0) = _
    by_cases h : 0 < d.n
    · rw [dif_pos h, dif_pos h]; rfl
    · rw [dif_neg h, dif_neg h]; exact Fl.neg_zero'.symm

end Verif
