import Verif.Props.Rollback
/-!
# C68: finite parameters stay finite

`Step` refuses steps whose squared norm is not finite (optimizer.h:378-386). The coefficients of the other steps are so much
smaller than the largest finite number that adding them never overflows.
-/

set_option linter.unusedSectionVars false

namespace Verif
open FloatOps

/-! ### What holds for `x` throughout a run -/

section
variable {F R W S X V M : Type} [FloatOps F] [FloatLaws F]
variable {E : Env F R W S X V M} {o : Options F W V}

/-- A property of the parameters that is preserved by adding steps of finite squared norm, and by undoing them, holds for all points of a run. -/
theorem run_points {Q : X → Prop} (hadd : ∀ x d, Q x → finite (E.normSq d) = true → Q (E.plusEq x d))
    (hsub : ∀ x d, Q x → finite (E.normSq d) = true → Q (E.plusEq x (E.negV d)))
    {fuel : Nat} {mi : Int} {w : W} {s : S} {x : X} {st : LoopSt F R W S X V M} (hx : Q x)
    (h : optimizeAcc E o fuel mi w s x = .ok st) :
    Q st.x ∧ ∀ r ∈ st.trace, Q r.x ∧ Q r.xNext := by
  have hI0 : Q (initSt E w s x).x ∧ (∀ d, (initSt E w s x).lastDx = some d → finite (E.normSq d) = true) ∧
      ∀ r ∈ (initSt E w s x).trace, Q r.x ∧ Q r.xNext := ⟨hx, fun _ e => (nomatch e), fun _ e => (nomatch e)⟩
  let I : LoopSt F R W S X V M → Prop := fun st =>
    Q st.x ∧ (∀ d, st.lastDx = some d → finite (E.normSq d) = true) ∧ ∀ r ∈ st.trace, Q r.x ∧ Q r.xNext
  obtain ⟨m, st0, -, hj, -, -, hst⟩ := run_inv (I := I) (J := I)
    (fun last st st' _ hI hb => by
      obtain ⟨hQ, hl, hT⟩ := hI
      obtain ⟨succ, mdx, w1, s1, out1, ms, hs⟩ := body_spec hb
      have hd : ∀ d, mdx = some d → finite (E.normSq d) = true := by
        intro d hd
        rcases hs.step.push with ⟨_, e, _⟩ | ⟨c, dx, g, _, _, _, _, hdf, _, _, _, _, hp⟩
        · rw [hd] at e; cases e
        · rcases hp with hp | ⟨hp, _⟩
          · change mdx = _ at hp; rw [hd] at hp; injection hp with hp; rw [hp]; exact hdf
          · change mdx = _ at hp; rw [hd] at hp; cases hp
      have hx' : Q st'.x ∧ ∀ d, st'.lastDx = some d → finite (E.normSq d) = true := by
        have hu := hs.upd
        generalize st'.x = x' at hu ⊢
        generalize st'.lastDx = l' at hu ⊢
        generalize st'.lastSucc = b' at hu
        cases hu with
        | succ dx => exact ⟨hadd _ _ hQ (hd _ rfl), fun d e => by injection e with e; exact e ▸ hd _ rfl⟩
        | roll d _ h => exact ⟨hsub _ _ hQ (hl _ h), fun _ e => nomatch e⟩
        | adv dx _ => exact ⟨hadd _ _ hQ (hd _ rfl), fun d e => by injection e with e; exact e ▸ hd _ rfl⟩
        | stay _ => exact ⟨hQ, fun _ e => nomatch e⟩
      have : I st' := ⟨hx'.1, hx'.2, fun r hr => by
        rw [hs.trace] at hr
        rcases List.mem_append.1 hr with hr | hr
        · exact hT r hr
        · rw [List.mem_singleton.1 hr]; exact ⟨hQ, hx'.1⟩⟩
      exact ⟨fun _ => this, this⟩) hI0 hI0 h
  rw [hst]
  exact ⟨hj.1, hj.2.2⟩

end

/-! ### Overflow -/

section
variable {p : ℕ} {hp : p ≠ 0} {emin : ℤ} {hem : emin ≤ -emin - 2 * p + 3} {ep : ℚ}

/-- less than half a unit in the last place above the largest number rounds to the largest number -/
theorem rndBin_below_overflow (hp : p ≠ 0) (hem : emin ≤ -emin - 2 * p + 3) {q : ℚ}
    (hq : q < (2 ^ p - 1 : ℤ) * 2 ^ (-emin - 2 * (p : ℤ) + 3) + 2 ^ (-emin - 2 * (p : ℤ) + 3) / 2) :
    rndBin p emin q ≤ (2 ^ p - 1 : ℤ) * 2 ^ (-emin - 2 * (p : ℤ) + 3) := by
  set e : ℤ := -emin - 2 * (p : ℤ) + 3 with he
  set mx : ℚ := ((2 ^ p - 1 : ℤ) : ℚ) * 2 ^ e with hmx
  have hgrid : GridBin p emin mx := by
    have h1 : (1 : ℤ) ≤ 2 ^ p := one_le_pow₀ (by norm_num)
    exact ⟨2 ^ p - 1, _, by rw [abs_of_nonneg (by omega)]; omega, hem, rfl⟩
  rcases le_or_gt q mx with h | h
  · have := rndBin_mono (emin := emin) hp h
    rwa [rndBin_id hgrid] at this
  · have h2p : (1 : ℤ) < 2 ^ p := one_lt_pow₀ (by norm_num) hp
    have hmx0 : 0 < mx := by
      have : (0 : ℚ) < ((2 ^ p - 1 : ℤ) : ℚ) := by exact_mod_cast (by omega : (0 : ℤ) < 2 ^ p - 1)
      exact mul_pos this (two_zpow_pos _)
    have hq0 : 0 < q := hmx0.trans h
    have hpe : (2 : ℚ) ^ (p + e) = 2 ^ p * 2 ^ e := by rw [zpow_add₀ (by norm_num), zpow_natCast]
    have hmx' : mx = (2 ^ p - 1) * 2 ^ e := by rw [hmx]; push_cast; ring
    have hlt : q < 2 ^ (p + e) := by
      have := two_zpow_pos e
      rw [hpe]; linarith
    have hge : (2 : ℚ) ^ (p - 1 + e : ℤ) ≤ q := by
      refine le_trans ?_ h.le
      have e1 : (2 : ℚ) ^ (p - 1 + e : ℤ) = 2 ^ p * 2 ^ e / 2 := by
        rw [← hpe, show (p : ℤ) - 1 + e = p + e - 1 by ring, zpow_sub₀ (by norm_num), zpow_one]
      have e2 : (2 : ℚ) ≤ 2 ^ p := by exact_mod_cast (by omega : (2 : ℤ) ≤ 2 ^ p)
      rw [e1, hmx']
      have := two_zpow_pos e
      nlinarith
    have hlog : Int.log 2 q = p - 1 + e := by
      apply le_antisymm
      · have := (Int.lt_zpow_iff_log_lt (b := 2) (by norm_num) hq0).1 (by exact_mod_cast hlt)
        omega
      · exact (Int.zpow_le_iff_le_log (b := 2) (by norm_num) hq0).1 (by exact_mod_cast hge)
    have hu : ulpExp p emin q = e := by
      unfold ulpExp
      rw [abs_of_pos hq0, hlog]
      have : (p : ℤ) - 1 + e - (p - 1) = e := by ring
      rw [this]; exact max_eq_right hem
    unfold rndBin
    rw [hu, hmx]
    have hd : q / 2 ^ e < (2 ^ p - 1 : ℤ) + 1 / 2 := by
      rw [div_lt_iff₀ (two_zpow_pos e)]
      calc q < mx + 2 ^ e / 2 := hq
        _ = _ := by rw [hmx]; ring
    have hr : rne (q / 2 ^ e) ≤ 2 ^ p - 1 := by
      have hn := rne_near (q / 2 ^ e)
      rw [abs_le] at hn
      have : (rne (q / 2 ^ e) : ℚ) < ((2 ^ p - 1 : ℤ) : ℚ) + 1 := by linarith [hn.2]
      have : rne (q / 2 ^ e) < 2 ^ p - 1 + 1 := by exact_mod_cast this
      omega
    have : (rne (q / 2 ^ e) : ℚ) ≤ ((2 ^ p - 1 : ℤ) : ℚ) := by exact_mod_cast hr
    exact mul_le_mul_of_nonneg_right this (two_zpow_pos e).le

/-- a number with a finite square is less than half a unit in the last place of the largest number -/
theorem small_of_sq_finite (h3 : 3 * (p : ℤ) ≤ 1 - emin) {d : Fl (Fmt.ieee p hp emin hem ep)} (h : finite (mul d d) = true) :
    ∃ b hb, d = .fin b hb ∧ |b| < 2 ^ (-emin - 2 * (p : ℤ) + 3) / 2 := by
  obtain ⟨q, hq, e⟩ := (Fl.finite_iff _).1 h
  cases d with
  | nan => cases e
  | pinf => cases e
  | ninf => cases e
  | fin b hb =>
    refine ⟨b, hb, rfl, ?_⟩
    change Fl.mk (b * b) = _ at e
    unfold Fl.mk Fl.ofGrid at e
    split at e
    next h' =>
      change |rndBin p emin (b * b)| ≤ (2 ^ p - 1 : ℤ) * 2 ^ (-emin - 2 * (p : ℤ) + 3) at h'
      clear e h hq hb
      generalize hE : -emin - 2 * (p : ℤ) + 3 = e at h' ⊢
      by_contra hc
      push Not at hc
      have hE2 : (p : ℤ) + 2 ≤ e := by omega
      have h1 : (2 : ℚ) ^ ((p : ℤ) + e) ≤ b * b := by
        have h0 : (0 : ℚ) ≤ 2 ^ e / 2 := by have := two_zpow_pos e; linarith
        calc (2 : ℚ) ^ ((p : ℤ) + e) ≤ 2 ^ (e - 1 + (e - 1)) := zpow_le_zpow_right₀ (by norm_num) (by omega)
          _ = (2 ^ e / 2) * (2 ^ e / 2) := by rw [zpow_add₀ (by norm_num), zpow_sub₀ (by norm_num), zpow_one]
          _ ≤ |b| * |b| := mul_self_le_mul_self h0 hc
          _ = b * b := abs_mul_abs_self b
      have h2 := rndBin_mono (emin := emin) hp h1
      have hg : GridBin p emin ((2 : ℚ) ^ ((p : ℤ) + e)) :=
        ⟨1, p + e, by rw [abs_one]; exact one_lt_pow₀ (by norm_num) hp, by omega, by simp⟩
      rw [rndBin_id hg] at h2
      have h4 := (le_abs_self _).trans h'
      have h5 : ((2 ^ p - 1 : ℤ) : ℚ) * 2 ^ e < 2 ^ ((p : ℤ) + e) := by
        rw [zpow_add₀ (by norm_num), zpow_natCast]
        push_cast
        have := two_zpow_pos e
        nlinarith
      linarith
    · split at e <;> cases e

/-- adding a number with a finite square to a finite number does not overflow -/
theorem Fl.add_finite (h3 : 3 * (p : ℤ) ≤ 1 - emin) {a d : Fl (Fmt.ieee p hp emin hem ep)} (ha : finite a = true) (h : finite (mul d d) = true) :
    finite (add a d) = true := by
  obtain ⟨b, hb, rfl, hb2⟩ := small_of_sq_finite h3 h
  obtain ⟨q, hq, rfl⟩ := (Fl.finite_iff _).1 ha
  rw [Fl.finite_iff]
  change ∃ c hc, Fl.mk (q + b) = _
  have hle : |(Fmt.ieee p hp emin hem ep).rnd (q + b)| ≤ (Fmt.ieee p hp emin hem ep).max := by
    have hq2 : |q| ≤ (2 ^ p - 1 : ℤ) * 2 ^ (-emin - 2 * (p : ℤ) + 3) := hq.2
    rw [abs_lt] at hb2
    rw [abs_le] at hq2
    show |rndBin p emin (q + b)| ≤ (2 ^ p - 1 : ℤ) * 2 ^ (-emin - 2 * (p : ℤ) + 3)
    rw [abs_le]
    constructor
    · have := rndBin_below_overflow hp hem (q := -(q + b)) (by linarith [hq2.1, hb2.1])
      rw [rndBin_neg] at this; linarith
    · exact rndBin_below_overflow hp hem (by linarith [hq2.2, hb2.2])
  unfold Fl.mk Fl.ofGrid
  rw [dif_pos hle]
  exact ⟨_, _, rfl⟩

/-- ditto for subtracting -/
theorem Fl.mul_neg_neg {f : Fmt} (d : Fl f) (h : finite (mul d d) = true) : finite (mul (neg d) (neg d)) = true := by
  cases d with
  | fin b hb =>
    change finite (Fl.mk (-b * -b)) = true
    change finite (Fl.mk (b * b)) = true at h
    rwa [neg_mul_neg]
  | _ => cases h

variable {R W S X V M : Type} {E : Env (Fl (Fmt.ieee p hp emin hem ep)) R W S X V M}
  {o : Options (Fl (Fmt.ieee p hp emin hem ep)) W V}

/-- **C68.** In `float` and `double` (any IEEE format with `3 p ≤ 1 - emin`): a coordinate of the parameters that is finite at the start of
`Optimize` is finite at every point where the user's function is called and in the returned `x`, whatever the function and the solver do. -/
theorem C68_coordinate_finite (h3 : 3 * (p : ℤ) ≤ 1 - emin) {π : X → Fl (Fmt.ieee p hp emin hem ep)} {δ : V → Fl (Fmt.ieee p hp emin hem ep)}
    (hc : Coord E π δ) (hn : ∀ d, finite (E.normSq d) = true → finite (mul (δ d) (δ d)) = true)
    {fuel : Nat} {mi : Int} {w : W} {s : S} {x : X} {st : LoopSt (Fl (Fmt.ieee p hp emin hem ep)) R W S X V M}
    (hx : finite (π x) = true) (h : optimizeAcc E o fuel mi w s x = .ok st) :
    finite (π st.x) = true ∧ ∀ r ∈ st.trace, finite (π r.x) = true ∧ finite (π r.xNext) = true :=
  run_points (Q := fun x => finite (π x) = true)
    (fun x d hx hd => by rw [hc.plus]; exact Fl.add_finite h3 hx (hn d hd))
    (fun x d hx hd => by rw [hc.plus, hc.neg]; exact Fl.add_finite h3 hx (Fl.mul_neg_neg _ (hn d hd))) hx h

/-- **C05, floating point, from a finite start**: `C05_returned_x_float` without its restriction to finite coordinates. -/
theorem C05_returned_x_bound (h3 : 3 * (p : ℤ) ≤ 1 - emin) {fuel : Nat} {mi : Int} (hmi : budget o mi ≤ 65536)
    {w : W} {s : S} {x : X} {st : LoopSt (Fl (Fmt.ieee p hp emin hem ep)) R W S X V M}
    (h : optimizeAcc E o fuel mi w s x = .ok st)
    (hstop : st.out.stop.code < 0 ∨ st.out.stop = .kMaxNoDecr ∨ st.out.stop = .kMaxConsecNoDecr)
    {π : X → Fl (Fmt.ieee p hp emin hem ep)} {δ : V → Fl (Fmt.ieee p hp emin hem ep)} (hc : Coord E π δ)
    (hn : ∀ d, finite (E.normSq d) = true → finite (mul (δ d) (δ d)) = true) (hx : finite (π x) = true)
    {B : ℚ} (hB : ∀ r ∈ st.trace, ∀ d, r.dx = some d → ∀ b h, δ d = .fin b h → |b| ≤ B) :
    (st.x = x ∧ ∀ r ∈ st.trace, r.dx = none) ∨
    ∃ best, (∃ r ∈ st.trace, r.x = best) ∧ MeasuredAt E best st.out.finalCost ∧
      ∃ k q hq a ha, k < st.trace.length ∧ π st.x = .fin q hq ∧ π best = .fin a ha ∧
        |q - a| ≤ ((1 + 1 / 2 ^ p) ^ (2 * k) - 1) * (|a| + B) := by
  obtain ⟨q, hq, e⟩ := (Fl.finite_iff _).1 (C68_coordinate_finite h3 hc hn hx h).1
  rcases C05_returned_x_float hmi h hstop hc hB with h | ⟨best, h1, h2, k, hk, hr⟩
  · exact Or.inl h
  · obtain ⟨a, ha, e2, hr⟩ := hr q hq e
    exact Or.inr ⟨best, h1, h2, k, q, hq, a, ha, hk, e, e2, hr⟩

end

/-! ### Vectors of parameters with the three solvers -/

section
variable {f : Fmt}

/-- all terms of a finite sum are finite -/
theorem sumF_finite {n : Nat} {v : Vec (Fl f) n} (h : finite (sumF v) = true) (i : Fin n) : finite (v i) = true := by
  induction n with
  | zero => exact i.elim0
  | succ n ih =>
    obtain ⟨q, hq, e⟩ := (Fl.finite_iff _).1 h
    obtain ⟨a, ha, b, hb, e1, e2, -⟩ := Fl.add_fin e
    refine Fin.lastCases ?_ (fun j => ?_) i
    · rw [e2]; rfl
    · exact ih (v := fun i => v i.castSucc) (by rw [e1]; rfl) j

/-- the coefficient `i` of a step; steps of another size do not move the coefficients beyond their end -/
def stepCoef (i : Nat) (d : DVec (Fl f)) : Fl f := if h : i < d.n then d.v ⟨i, h⟩ else ofInt 0

theorem stepCoef_sq {i : Nat} {d : DVec (Fl f)} (h : finite (sqNorm d.v) = true) : finite (mul (stepCoef i d) (stepCoef i d)) = true := by
  unfold stepCoef
  split
  next hi => exact sumF_finite (v := fun j => mul (d.v j) (d.v j)) h ⟨i, hi⟩
  · rw [Fl.ofInt_zero]
    show finite (Fl.mk (0 * 0)) = true
    have : (Fl.mk (0 * 0) : Fl f) = ofInt 0 := by
      show _ = Fl.mk ((0 : ℤ) : ℚ)
      simp
    rw [this, Fl.ofInt_zero]; rfl

end

section
variable {p : ℕ} {hp : p ≠ 0} {emin : ℤ} {hem : emin ≤ -emin - 2 * p + 3} {ep : ℚ}
variable {R W S : Type} {n : Nat} {P : Problem (Fl (Fmt.ieee p hp emin hem ep)) R W (Vec (Fl (Fmt.ieee p hp emin hem ep)) n)}
  {o : Options (Fl (Fmt.ieee p hp emin hem ep)) W (DVec (Fl (Fmt.ieee p hp emin hem ep)))}

/-- **C68** for vectors of parameters and any solver on dense vectors (Gauss-Newton, Levenberg-Marquardt, Gradient Descent): if all coefficients of
`x` are finite at the start then they are finite at every point of the run and on return. -/
theorem C68_x_finite (h3 : 3 * (p : ℤ) ≤ 1 - emin) (hP : ∀ x d i, P.plusEq x d i = add (x i) (stepCoef i d))
    {sol : SolverI (Fl (Fmt.ieee p hp emin hem ep)) R W S (Vec (Fl (Fmt.ieee p hp emin hem ep)) n) (DVec (Fl (Fmt.ieee p hp emin hem ep)))
      (DMat (Fl (Fmt.ieee p hp emin hem ep)))} {fo : Bool}
    {fuel : Nat} {mi : Int} {w : W} {s : S} {x : Vec (Fl (Fmt.ieee p hp emin hem ep)) n}
    {st} (hx : ∀ i, finite (x i) = true) (h : optimizeAcc (envOf P sol fo) o fuel mi w s x = .ok st) :
    (∀ i, finite (st.x i) = true) ∧ ∀ r ∈ st.trace, ∀ i, finite (r.x i) = true := by
  have hc : ∀ i, Coord (envOf P sol fo) (fun x => x i) (stepCoef i) := fun i =>
    { plus := fun x d => hP x d i
      neg := fun d => by
        show stepCoef i ⟨d.n, negVec d.v⟩ = _
        unfold stepCoef
        by_cases hi : (i : Nat) < d.n
        · rw [dif_pos hi, dif_pos hi]; rfl
        · rw [dif_neg hi, dif_neg hi]; exact Fl.neg_zero'.symm }
  have := fun i => C68_coordinate_finite (o := o) h3 (hc i) (fun d hd => stepCoef_sq hd) (hx i) h
  exact ⟨fun i => (this i).1, fun r hr i => ((this i).2 r hr).1⟩

end

/-- the formats of `double` and `float` meet the condition -/
example : 3 * ((53 : ℕ) : ℤ) ≤ 1 - (-1074) ∧ 3 * ((24 : ℕ) : ℤ) ≤ 1 - (-149) := by norm_num

/-- `C05_rollback_rounds` is a run to which `C68_coordinate_finite` applies: the step `2^61` is taken and rolled back. -/
example : (∀ d : DVec (Fl Fmt.binary64), finite ((gdEnv soptsGd64 quad64).normSq d) = true →
      finite (mul (stepCoef 0 d) (stepCoef 0 d)) = true) ∧ finite (ofInt 1 : Fl Fmt.binary64) = true :=
  ⟨fun _ h => stepCoef_sq h, by decide +kernel⟩

/-- the bound is tight to the format: at the largest finite number a step of half a unit in the last place would overflow, but its square is infinite -/
example : finite (add (maxVal : Fl Fmt.binary64) (ofInt (2 ^ 970))) = false ∧
    finite (mul (ofInt (2 ^ 970)) (ofInt (2 ^ 970)) : Fl Fmt.binary64) = false ∧
    finite (add (maxVal : Fl Fmt.binary64) (ofInt (2 ^ 511))) = true := by decide +kernel

/-- two parameters in double precision; cost `(x0 - 2)^2`, gradient `2 (x0 - 2)` in the first and `1` in the second -/
def quadVec64 : Problem (Fl Fmt.binary64) (Fl Fmt.binary64) Nat (Vec (Fl Fmt.binary64) 2) where
  acc :=
    { full := fun w x _ g H =>
        (({ cost := mul (sub (x 0) (ofInt 2)) (sub (x 0) (ofInt 2)), num := 1, inlier := ofInt 1 },
          fun i => add (g i) (if i.val = 0 then mul (ofInt 2) (sub (x 0) (ofInt 2)) else ofInt 1), H), w + 1)
      eval := fun w x => ({ cost := mul (sub (x 0) (ofInt 2)) (sub (x 0) (ofInt 2)), num := 1, inlier := ofInt 1 }, w) }
  dims := some 2
  dynDims := fun _ => 2
  plusEq := fun x d i => add (x i) (stepCoef i d)
  clock := fun w => (ofInt 1, w)
  alloc := fun w _ => (some (fun _ => ofInt 7, fun _ _ => ofInt 7), w)
  ratio1 := ofInt 1

/-- `C68_x_finite` applies to a run that starts at the largest finite number, moves and is rolled back -/
example : (∀ x d i, quadVec64.plusEq x d i = add (x i) (stepCoef i d)) ∧
    ∃ st, optimizeAcc (gdEnv soptsGd64 quadVec64) optsGd64 10 (-1) 0
      (gnFresh quadVec64 (fun _ => ofInt 0) (fun _ _ => ofInt 0)) (fun i => if i = 0 then ofInt 1 else maxVal) = .ok st ∧
    (decide (st.out.stop = .kMaxConsecNoDecr) && decide (st.trace.length = 2) && eq (st.x 0) (ofInt 0) && eq (st.x 1) maxVal) = true :=
  ⟨fun _ _ _ => rfl, Res.exists_of_holds (by decide +kernel)⟩

end Verif
