import Verif.Props.Landscape
import Verif.Props.Newton
import Verif.Props.Circle
/-!
# C137: Gauss-Newton with the derivatives of tests/optimize_easy.cpp on Powell's and Rosenbrock's functions

The user's functions of the tests write the exact gradient and Hessian (C122), so that Gauss-Newton is Newton's method. Exact arithmetic, any `optimize` options.
-/

namespace Verif.Landscape
open Loss FloatOps

section
variable {R W : Type} {so : SolverOpts ℝ} {LA : LinAlg ℝ} {o : Options ℝ W (DVec ℝ)} {m : Nat}

theorem UserQuad.mono {n : Nat} {P : Problem ℝ R W (Vec ℝ n)} {Ω Ω' : Vec ℝ n → Prop} {f : Vec ℝ n → ℝ} {G : Vec ℝ n → Vec ℝ n} {Q : Vec ℝ n → Mat ℝ n}
    (h : UserQuad P Ω f G Q m) (hs : ∀ x, Ω' x → Ω x) : UserQuad P Ω' f G Q m where
  toVecParams := h.toVecParams
  pos := h.pos
  psd x hx := h.psd x (hs x hx)
  full w x hx := h.full w x (hs x hx)
  eval w x hx := h.eval w x (hs x hx)

theorem powT_add (x d : Vec ℝ 4) (i : Fin 4) : powT (x + d) i = powT x i + powT d i := by
  fin_cases i <;> simp [powT] <;> ring

theorem powT_inj {d : Vec ℝ 4} (h : ∀ i, powT d i = 0) : d = 0 := by
  have h0 := h 0
  have h1 := h 1
  have h2 := h 2
  have h3 := h 3
  simp only [powT, Fin.isValue, Matrix.cons_val] at h0 h1 h2 h3
  funext i
  fin_cases i
  · show d 0 = 0; linarith
  · show d 1 = 0; linarith
  · show d 2 = 0; linarith
  · show d 3 = 0; linarith

theorem powellH_form (x v : Vec ℝ 4) : dotR v (mv (powellH x) v) =
    2 * powT v 0 ^ 2 + 10 * powT v 1 ^ 2 + 12 * powT x 2 ^ 2 * powT v 2 ^ 2 + 120 * powT x 3 ^ 2 * powT v 3 ^ 2 := by
  simp only [dotR, mv, powellH, Fin.sum_univ_four]
  generalize powT x 2 = a
  generalize powT x 3 = b
  simp [powT]
  ring

theorem powellH_symm (x : Vec ℝ 4) : SymR (powellH x) := by
  intro i j
  fin_cases i <;> fin_cases j <;> simp [powellH]

theorem powellH_pd {x : Vec ℝ 4} (h2 : powT x 2 ≠ 0) (h3 : powT x 3 ≠ 0) : PD (powellH x) := by
  refine ⟨powellH_symm x, fun v hv => ?_⟩
  rw [powellH_form]
  by_contra hc
  apply hv
  have k2 : 0 < powT x 2 ^ 2 := by positivity
  have k3 : 0 < powT x 3 ^ 2 := by positivity
  have p0 := sq_nonneg (powT v 0)
  have p1 := sq_nonneg (powT v 1)
  have p2 : 0 ≤ powT x 2 ^ 2 * powT v 2 ^ 2 := by positivity
  have p3 : 0 ≤ powT x 3 ^ 2 * powT v 3 ^ 2 := by positivity
  have e0 : powT v 0 ^ 2 = 0 := by linarith
  have e1 : powT v 1 ^ 2 = 0 := by linarith
  have e2 : powT x 2 ^ 2 * powT v 2 ^ 2 = 0 := by linarith
  have e3 : powT x 3 ^ 2 * powT v 3 ^ 2 = 0 := by linarith
  apply powT_inj
  intro i
  fin_cases i
  · show powT v 0 = 0; exact pow_eq_zero_iff (two_ne_zero) |>.1 e0
  · show powT v 1 = 0; exact pow_eq_zero_iff (two_ne_zero) |>.1 e1
  · show powT v 2 = 0; exact pow_eq_zero_iff (two_ne_zero) |>.1 ((mul_eq_zero.1 e2).resolve_left k2.ne')
  · show powT v 3 = 0; exact pow_eq_zero_iff (two_ne_zero) |>.1 ((mul_eq_zero.1 e3).resolve_left k3.ne')

/-- a Newton step of Powell's function -/
theorem powell_step {x d : Vec ℝ 4} (h2 : powT x 2 ≠ 0) (h3 : powT x 3 ≠ 0) (hd : mv (powellH x) d = -powellG x) :
    powT (x + d) 0 = 0 ∧ powT (x + d) 1 = 0 ∧ powT (x + d) 2 = 2 / 3 * powT x 2 ∧ powT (x + d) 3 = 2 / 3 * powT x 3 := by
  have k2 : powT x 2 ^ 2 ≠ 0 := by positivity
  have k3 : powT x 3 ^ 2 ≠ 0 := by positivity
  have e0 := congrFun hd 0
  have e1 := congrFun hd 1
  have e2 := congrFun hd 2
  have e3 := congrFun hd 3
  simp only [mv, powellH, powellG, Fin.sum_univ_four, Pi.neg_apply, Matrix.cons_val, Fin.isValue] at e0 e1 e2 e3
  rw [powT_add, powT_add, powT_add, powT_add]
  have d0 : powT d 0 = d 0 + 10 * d 1 := rfl
  have d1 : powT d 1 = d 2 - d 3 := rfl
  have d2 : powT d 2 = d 1 - 2 * d 2 := rfl
  have d3 : powT d 3 = d 0 - d 3 := rfl
  generalize powT x 0 = t0 at *
  generalize powT x 1 = t1 at *
  generalize powT x 2 = t2 at *
  generalize powT x 3 = t3 at *
  have a0 : powT d 0 = -t0 := by rw [d0]; linear_combination 1 / 42 * (e0 + e3 + e2 + 2 * e1)
  have a1 : powT d 1 = -t1 := by rw [d1]; linear_combination 1 / 10 * (e2 + 2 * e1) - 2 / 21 * (e0 + e3 + e2 + 2 * e1)
  have a2 : powT d 2 = -(1 / 3) * t2 := by
    apply mul_left_cancel₀ k2
    rw [d2]; linear_combination 1 / 12 * e1 - 10 / 252 * (e0 + e3 + e2 + 2 * e1)
  have a3 : powT d 3 = -(1 / 3) * t3 := by
    apply mul_left_cancel₀ k3
    rw [d3]; linear_combination 1 / 120 * e0 - 1 / 2520 * (e0 + e3 + e2 + 2 * e1)
  rw [a0, a1, a2, a3]
  refine ⟨by ring, by ring, by ring, by ring⟩

/-- **C137**, Powell's function: from every start with `x1 ≠ 2 x2` and `x0 ≠ x3` the run accepts every step. After `k ≥ 1` of them `x0 + 10 x1` and `x2 - x3` are zero and
`x1 - 2 x2`, `x0 - x3` are exactly `(2/3)^k` times those of the start: linear convergence, with the cost falling by `16/81` per iteration. -/
theorem C137_powell {P : Problem ℝ R W (Vec ℝ 4)} (h : UserQuad P (fun x => powT x 2 ≠ 0 ∧ powT x 3 ≠ 0) powellF powellG powellH m) (hL : ExactLinAlg LA)
    (hmin : so.checkMinHDiag ≤ 2) (hclip : so.gradClip = 0) (s : GNState ℝ R) (hs : P.dims = none ∨ s.n = 4) (fuel : Nat) (mi k : Int)
    (hk : loopBound o mi = some k) (w : W) (x0 : Vec ℝ 4) (h2 : x0 1 ≠ 2 * x0 2) (h3 : x0 0 ≠ x0 3) (hc0 : nCost so m (powellF x0) < maxVal) :
    ∃ st, optimizeAcc (gnEnv so LA P) o (fuel + 1) mi w s x0 = .ok st ∧ (∀ t ∈ st.trace, t.succ = true) ∧
      st.x 1 - 2 * st.x 2 = (2 / 3) ^ st.trace.length * (x0 1 - 2 * x0 2) ∧ st.x 0 - st.x 3 = (2 / 3) ^ st.trace.length * (x0 0 - x0 3) ∧
      (st.trace ≠ [] → st.x 0 + 10 * st.x 1 = 0 ∧ st.x 2 - st.x 3 = 0 ∧
        powellF st.x = (16 / 81) ^ st.trace.length * ((x0 1 - 2 * x0 2) ^ 4 + 10 * (x0 0 - x0 3) ^ 4)) := by
  have hG : ∀ x : Vec ℝ 4, powT x 2 ≠ 0 → powT x 3 ≠ 0 → powellG x ≠ 0 := by
    intro x k2 k3 e
    have e0 := congrFun e 0
    have e1 := congrFun e 1
    have e2 := congrFun e 2
    have e3 := congrFun e 3
    simp only [powellG, Pi.zero_apply, Matrix.cons_val, Fin.isValue] at e0 e1 e2 e3
    exact k3 ((pow_eq_zero_iff (three_ne_zero)).1 (by linarith))
  obtain ⟨st, e, ht⟩ := gn_quad_run (o := o) h (Or.inr fun x _ => by
      unfold powellF
      have := mul_self_nonneg (powT x 0)
      have := mul_self_nonneg (powT x 1)
      have : 0 ≤ powT x 2 ^ 4 := by positivity
      have : 0 ≤ powT x 3 ^ 4 := by positivity
      linarith) hL (fun x hx => powellH_pd hx.1 hx.2)
    (fun x _ => by
      rcases h.size with h1 | ⟨h1, -⟩
      · exact Or.inr (Or.inl (by rw [h1]; rfl))
      · exact Or.inr (Or.inl (by rw [h1]; rfl)))
    (fun x _ => Or.inr fun i => hmin.trans (by
      have : (2 : ℝ) ≤ powellH x i i := by
        have p2 := mul_self_nonneg (powT x 2)
        have p3 := mul_self_nonneg (powT x 3)
        fin_cases i
        · show (2 : ℝ) ≤ 2 + 120 * powT x 3 * powT x 3; linarith
        · show (2 : ℝ) ≤ 200 + 12 * powT x 2 * powT x 2; linarith
        · show (2 : ℝ) ≤ 10 + 4 * (12 * powT x 2 * powT x 2); linarith
        · show (2 : ℝ) ≤ 10 + 120 * powT x 3 * powT x 3; linarith
      exact this.trans (le_abs_self _))) hclip
    (fun x d hx _ hd => by
      obtain ⟨q0, q1, q2, q3⟩ := powell_step hx.1 hx.2 hd
      refine ⟨⟨by rw [q2]; exact mul_ne_zero (by norm_num) hx.1, by rw [q3]; exact mul_ne_zero (by norm_num) hx.2⟩, ?_⟩
      unfold powellF
      rw [q0, q1, q2, q3]
      have := mul_self_nonneg (powT x 0)
      have := mul_self_nonneg (powT x 1)
      have k2 := hx.1
      have k3 := hx.2
      have : 0 < powT x 2 ^ 4 := by positivity
      have : 0 < powT x 3 ^ 4 := by positivity
      nlinarith) s hs fuel mi k hk w x0 ⟨fun e => h2 (by have : x0 1 - 2 * x0 2 = 0 := e; linarith), fun e => h3 (by have : x0 0 - x0 3 = 0 := e; linarith)⟩ hc0
  have hrow : ∀ t ∈ st.trace, powT t.xNext 0 = 0 ∧ powT t.xNext 1 = 0 ∧ powT t.xNext 2 = 2 / 3 * powT t.x 2 ∧ powT t.xNext 3 = 2 / 3 * powT t.x 3 := by
    intro t htt
    obtain ⟨r1, r2, -⟩ := ht t htt
    have := powell_step r1.1 r1.2 r2
    rwa [add_sub_cancel] at this
  have hfin : powT st.x 2 = (2 / 3) ^ st.trace.length * powT x0 2 ∧ powT st.x 3 = (2 / 3) ^ st.trace.length * powT x0 3 ∧
      (st.trace ≠ [] → powT st.x 0 = 0 ∧ powT st.x 1 = 0) := by
    have hp := run_path e
    clear ht h2 h3 hc0 e
    generalize st.x = y at hp ⊢
    generalize st.trace = tr at hp hrow ⊢
    generalize x0 = x at hp ⊢
    induction tr generalizing x with
    | nil => simp only [Path] at hp; subst hp; simp
    | cons t tr ih =>
      obtain ⟨q1, q2⟩ := hp
      obtain ⟨i1, i2, i3⟩ := ih (fun t ht => hrow t (List.mem_cons_of_mem _ ht)) t.xNext q2
      obtain ⟨r0, r1, r2, r3⟩ := hrow t List.mem_cons_self
      rw [q1] at r2 r3
      refine ⟨?_, ?_, fun _ => ?_⟩
      · rw [i1, r2, List.length_cons, pow_succ]; ring
      · rw [i2, r3, List.length_cons, pow_succ]; ring
      · cases tr with
        | nil => simp only [Path] at q2; rw [q2]; exact ⟨r0, r1⟩
        | cons a l => exact i3 (by simp)
  refine ⟨st, e, fun t htt => ?_, hfin.1, hfin.2.1, fun hne => ⟨(hfin.2.2 hne).1, (hfin.2.2 hne).2, ?_⟩⟩
  · obtain ⟨r1, -, r3⟩ := ht t htt
    exact r3 (hG _ r1.1 r1.2)
  · unfold powellF
    rw [(hfin.2.2 hne).1, (hfin.2.2 hne).2, hfin.1, hfin.2.1]
    have e2 : powT x0 2 = x0 1 - 2 * x0 2 := rfl
    have e3 : powT x0 3 = x0 0 - x0 3 := rfl
    rw [e2, e3, mul_pow, mul_pow, ← pow_mul, mul_comm _ 4, pow_mul]
    norm_num
    ring

/-- a Newton step of Rosenbrock's function, with `s = 200 (x0² - x1)`: it ends on or below the parabola -/
theorem rosen_step {x d : Vec ℝ 2} (hd : mv (rosenH x) d = -rosenG x) :
    (1 + 200 * (x 0 ^ 2 - x 1)) * d 0 = 1 - x 0 ∧ (x + d) 1 - (x + d) 0 ^ 2 = -(d 0) ^ 2 := by
  have e0 := congrFun hd 0
  have e1 := congrFun hd 1
  simp only [mv, rosenH, rosenG, Fin.sum_univ_two, Pi.neg_apply, Fin.isValue, if_true, if_neg (by decide : ¬ (0 : Fin 2) = 1),
    if_neg (by decide : ¬ (1 : Fin 2) = 0)] at e0 e1
  refine ⟨by linear_combination 1 / 2 * e0 + x 0 * e1, ?_⟩
  simp only [Pi.add_apply]
  linear_combination 1 / 200 * e1

theorem rosen_decrease {x d : Vec ℝ 2} (hx : |1 - x 0| < 1 / 10) (hb : x 1 ≤ x 0 ^ 2) (hne : x ≠ ![1, 1]) (hd : mv (rosenH x) d = -rosenG x) :
    rosen (x + d) < rosen x := by
  obtain ⟨h1, h2⟩ := rosen_step hd
  have e0 : (x + d) 0 = x 0 + d 0 := rfl
  unfold rosen
  rw [h2, e0]
  obtain ⟨s, hs⟩ : ∃ s, s = 200 * (x 0 ^ 2 - x 1) := ⟨_, rfl⟩
  rw [← hs] at h1
  have hs0 : 0 ≤ s := by rw [hs]; linarith
  have ea : 1 - x 0 = (1 + s) * d 0 := h1.symm
  have eb : x 1 - x 0 ^ 2 = -s / 200 := by rw [hs]; ring
  have e1 : 1 - (x 0 + d 0) = s * d 0 := by linear_combination ea
  rw [e1, eb, ea]
  have hsq : (1 - x 0) ^ 2 < 1 / 100 := by
    rw [← sq_abs]; nlinarith [abs_nonneg (1 - x 0)]
  rw [ea] at hsq
  have hdd : d 0 ^ 2 < 1 / 100 := by nlinarith [sq_nonneg (d 0), mul_nonneg hs0 (sq_nonneg (d 0)), mul_nonneg (mul_nonneg hs0 hs0) (sq_nonneg (d 0))]
  rcases eq_or_ne (d 0) 0 with h0 | h0
  · have : s ≠ 0 := by
      intro h00
      apply hne
      rw [h0] at ea
      rw [h00] at eb
      have a0 : x 0 = 1 := by linarith
      have a1 : x 1 = 1 := by rw [a0] at eb; linarith
      rw [vec2 x, a0, a1]
    rw [h0]
    have : 0 < s ^ 2 := by positivity
    nlinarith
  · have k : 0 < d 0 ^ 2 := by positivity
    have : 100 * (d 0 ^ 2) ^ 2 < d 0 ^ 2 := by nlinarith
    nlinarith [mul_nonneg hs0 k.le, sq_nonneg s]

theorem rosen_shrink {a d s : ℝ} (hs : 0 ≤ s) (h : (1 + s) * d = a) : |a - d| ≤ |a| ∧ |d| ≤ |a| ∧ (s ≤ 2 → |a - d| ≤ 2 / 3 * |a|) := by
  have e : a - d = s * d := by linear_combination -h
  have hd := abs_nonneg d
  rw [e, ← h, abs_mul, abs_mul, abs_of_nonneg hs, abs_of_nonneg (show 0 ≤ 1 + s by linarith)]
  have := mul_nonneg hs hd
  refine ⟨by linarith, by linarith, fun h2 => ?_⟩
  have := mul_le_mul_of_nonneg_right h2 hd
  linarith

theorem rosen_newton_ready {P : Problem ℝ R W (Vec ℝ 2)} (h : VecParams P) (hmin : so.checkMinHDiag ≤ 2) (x : Vec ℝ 2) (hx : x 1 ≤ x 0 ^ 2) :
    PD (rosenH x) ∧ Solves so (P.dims == some 1) (rosenH x) ∧ DiagOk so (rosenH x) := by
  refine ⟨(C136_rosenbrock x).2.2.2.2 (by linarith), ?_, Or.inr fun i => hmin.trans ?_⟩
  · rcases h.size with h1 | ⟨h1, -⟩
    · exact Or.inr (Or.inl (by rw [h1]; rfl))
    · exact Or.inr (Or.inl (by rw [h1]; rfl))
  · have : (2 : ℝ) ≤ rosenH x i i := by
      have := sq_nonneg (x 0)
      fin_cases i
      · show (2 : ℝ) ≤ 2 - 400 * x 1 + 1200 * x 0 ^ 2; linarith
      · show (2 : ℝ) ≤ 200; norm_num
    exact this.trans (le_abs_self _)

theorem rosen_nonneg (x : Vec ℝ 2) : 0 ≤ rosen x := by unfold rosen; positivity

theorem rosen_path {R V M : Type} {y : Vec ℝ 2} (tr : List (Rec ℝ R (Vec ℝ 2) V M)) : ∀ (x : Vec ℝ 2), (∀ t ∈ tr, |1 - t.xNext 0| ≤ |1 - t.x 0| ∧
    200 * (t.xNext 0 ^ 2 - t.xNext 1) ≤ 2 ∧ t.xNext 1 ≤ t.xNext 0 ^ 2 ∧ (200 * (t.x 0 ^ 2 - t.x 1) ≤ 2 → |1 - t.xNext 0| ≤ 2 / 3 * |1 - t.x 0|)) →
    Path x tr y → x 1 ≤ x 0 ^ 2 → 200 * (x 0 ^ 2 - x 1) ≤ 2 → |1 - y 0| ≤ (2 / 3) ^ tr.length * |1 - x 0| ∧ y 1 ≤ y 0 ^ 2 := by
  induction tr with
  | nil => intro x _ hp hb _; simp only [Path] at hp; subst hp; simpa using hb
  | cons t tr ih =>
    intro x hr hp hb h2
    obtain ⟨q1, q2⟩ := hp
    obtain ⟨r1, r2, r3, r4⟩ := hr t List.mem_cons_self
    obtain ⟨i1, i2⟩ := ih t.xNext (fun t ht => hr t (List.mem_cons_of_mem _ ht)) q2 r3 r2
    refine ⟨i1.trans ?_, i2⟩
    rw [q1] at r4
    have := mul_le_mul_of_nonneg_left (r4 h2) (show (0 : ℝ) ≤ (2 / 3) ^ tr.length by positivity)
    rw [List.length_cons, pow_succ]
    linarith

/-- **C137**, Rosenbrock's function: from every start on or below the parabola `x1 = x0²`, however far below, and with `|1 - x0| < 1/10`, the run ends normally, every step that
does not start at the minimum is accepted and lowers the cost, and obeys the recursion below. All iterates stay in that region and `|1 - x0|` shrinks from the second iteration on
by a factor of at most 2/3 per iteration. -/
theorem C137_rosenbrock {P : Problem ℝ R W (Vec ℝ 2)} (h : UserQuad P (fun x => x 1 ≤ x 0 ^ 2) rosen rosenG rosenH m) (hL : ExactLinAlg LA)
    (hmin : so.checkMinHDiag ≤ 2) (hclip : so.gradClip = 0) (s : GNState ℝ R) (hs : P.dims = none ∨ s.n = 2) (fuel : Nat) (mi k : Int)
    (hk : loopBound o mi = some k) (w : W) (x0 : Vec ℝ 2) (ha : |1 - x0 0| < 1 / 10) (hb : x0 1 ≤ x0 0 ^ 2) (hc0 : nCost so m (rosen x0) < maxVal) :
    ∃ st, optimizeAcc (gnEnv so LA P) o (fuel + 1) mi w s x0 = .ok st ∧
      (∀ t ∈ st.trace, (t.x ≠ ![1, 1] → t.succ = true ∧ rosen t.xNext < rosen t.x) ∧
        (1 + 200 * (t.x 0 ^ 2 - t.x 1)) * (t.xNext 0 - t.x 0) = 1 - t.x 0 ∧ t.xNext 0 ^ 2 - t.xNext 1 = (t.xNext 0 - t.x 0) ^ 2) ∧
      |1 - st.x 0| ≤ (2 / 3) ^ (st.trace.length - 1) * |1 - x0 0| ∧ st.x 1 ≤ st.x 0 ^ 2 := by
  obtain ⟨st, e, ht⟩ := gn_quad_run (o := o) (UserQuad.mono (Ω' := fun x => |1 - x 0| < 1 / 10 ∧ x 1 ≤ x 0 ^ 2) h fun x hx => hx.2)
    (Or.inr fun x _ => rosen_nonneg x) hL (fun x hx => (rosen_newton_ready h.toVecParams hmin x hx.2).1) (fun x hx => (rosen_newton_ready h.toVecParams hmin x hx.2).2.1)
    (fun x hx => (rosen_newton_ready h.toVecParams hmin x hx.2).2.2) hclip
    (fun x d hx hg hd => by
      obtain ⟨h1, h2⟩ := rosen_step hd
      refine ⟨⟨?_, ?_⟩, rosen_decrease hx.1 hx.2 (fun e => hg ((C136_rosenbrock x).2.1.2 e)) hd⟩
      · have := (rosen_shrink (by linarith [hx.2]) h1).1
        have e0 : 1 - (x + d) 0 = 1 - x 0 - d 0 := by simp only [Pi.add_apply]; ring
        rw [e0]; exact lt_of_le_of_lt this hx.1
      · have := sq_nonneg (d 0); linarith) s hs fuel mi k hk w x0 ⟨ha, hb⟩ hc0
  have hrow : ∀ t ∈ st.trace, (|1 - t.x 0| < 1 / 10 ∧ t.x 1 ≤ t.x 0 ^ 2) ∧
      (1 + 200 * (t.x 0 ^ 2 - t.x 1)) * (t.xNext 0 - t.x 0) = 1 - t.x 0 ∧ t.xNext 0 ^ 2 - t.xNext 1 = (t.xNext 0 - t.x 0) ^ 2 := by
    intro t htt
    obtain ⟨r1, r2, -⟩ := ht t htt
    obtain ⟨h1, h2⟩ := rosen_step r2
    rw [add_sub_cancel] at h2
    simp only [Pi.sub_apply] at h1 h2
    exact ⟨r1, h1, by linarith⟩
  have hsh : ∀ t ∈ st.trace, |1 - t.xNext 0| ≤ |1 - t.x 0| ∧ 200 * (t.xNext 0 ^ 2 - t.xNext 1) ≤ 2 ∧ t.xNext 1 ≤ t.xNext 0 ^ 2 ∧
      (200 * (t.x 0 ^ 2 - t.x 1) ≤ 2 → |1 - t.xNext 0| ≤ 2 / 3 * |1 - t.x 0|) := by
    intro t htt
    obtain ⟨r1, r2, r3⟩ := hrow t htt
    obtain ⟨p1, p2, p3⟩ := rosen_shrink (by linarith [r1.2]) r2
    have e0 : 1 - t.xNext 0 = 1 - t.x 0 - (t.xNext 0 - t.x 0) := by ring
    rw [← e0] at p1 p3
    refine ⟨p1, ?_, ?_, p3⟩
    · rw [r3, ← sq_abs]
      have := abs_nonneg (t.xNext 0 - t.x 0)
      nlinarith [r1.1]
    · have := sq_nonneg (t.xNext 0 - t.x 0); linarith
  refine ⟨st, e, fun t htt => ⟨fun hne => ⟨(ht t htt).2.2 (fun e => hne ((C136_rosenbrock _).2.1.1 e)), ?_⟩, (hrow t htt).2⟩, ?_⟩
  · have := rosen_decrease (hrow t htt).1.1 (hrow t htt).1.2 hne (ht t htt).2.1
    rwa [add_sub_cancel] at this
  · have hp := run_path e
    clear ht hc0 e hrow ha
    generalize st.x = y at hp ⊢
    generalize st.trace = tr at hp hsh ⊢
    cases tr with
    | nil => simp only [Path] at hp; subst hp; simpa using hb
    | cons t tr =>
      obtain ⟨q1, q2⟩ := hp
      obtain ⟨r1, r2, r3, -⟩ := hsh t List.mem_cons_self
      obtain ⟨i1, i2⟩ := rosen_path tr t.xNext (fun t ht => hsh t (List.mem_cons_of_mem _ ht)) q2 r3 r2
      refine ⟨i1.trans ?_, i2⟩
      rw [q1] at r1
      simp only [List.length_cons, Nat.add_sub_cancel]
      exact mul_le_mul_of_nonneg_left r1 (by positivity)

/-- **C137**, Rosenbrock's function, the bound 1/10 is sharp: from a start on the parabola with `|1 - x0| ≥ 1/10`, a point of the flat valley, the first Newton step does not
lower the cost, all iterations after the first one fail, and the result, the start or the point `(1, 1 - (1 - x0)²)` after that step, is never better than the start. -/
theorem C137_rosenbrock_far {P : Problem ℝ R W (Vec ℝ 2)} (h : UserQuad P (fun x => x 1 ≤ x 0 ^ 2) rosen rosenG rosenH m) (hdet : Deterministic P 2) (hL : ExactLinAlg LA)
    (hmin : so.checkMinHDiag ≤ 2) (hclip : so.gradClip = 0) (s : GNState ℝ R) (hs : P.dims = none ∨ s.n = 2) (fuel : Nat) (mi : Int) (hmi : budget o mi ≤ 65536)
    (w : W) (x0 : Vec ℝ 2) (ha : 1 / 10 ≤ |1 - x0 0|) (hb : x0 1 = x0 0 ^ 2) (hc0 : nCost so m (100 * (1 - x0 0) ^ 4) < maxVal) (st)
    (hr : optimizeAcc (gnEnv so LA P) o fuel mi w s x0 = .ok st) :
    (∀ t ∈ st.trace.tail, t.succ = false) ∧ (∀ t ∈ st.trace, t.x = x0 ∨ t.x = ![1, 1 - (1 - x0 0) ^ 2]) ∧
      (st.x = x0 ∨ st.x = ![1, 1 - (1 - x0 0) ^ 2]) ∧ rosen x0 ≤ rosen st.x := by
  have hV := h.toVecParams
  have hk : KeepsDims P := fun x v => by rw [hV.dyn, hV.dyn]
  have hsz : SizeOk P s := by
    intro d hd
    rcases hs with h | h
    · rw [h] at hd; cases hd
    · rcases hV.size with h1 | ⟨h1, -⟩
      · rw [h1] at hd; rw [h]; exact Option.some.inj hd
      · rw [h1] at hd; cases hd
  have hf1 : rosen ![1, 1 - (1 - x0 0) ^ 2] = 100 * (1 - x0 0) ^ 4 := by simp [rosen]; ring
  have hf0 : rosen x0 = (1 - x0 0) ^ 2 := by rw [rosen, hb]; ring
  have hworse : rosen x0 ≤ rosen ![1, 1 - (1 - x0 0) ^ 2] := by
    rw [hf0, hf1]
    have h1 : 1 / 100 ≤ (1 - x0 0) ^ 2 := by rw [← sq_abs]; nlinarith
    nlinarith
  have hle : nCost so m (rosen x0) ≤ nCost so m (rosen ![1, 1 - (1 - x0 0) ^ 2]) := by
    by_contra hc
    push Not at hc
    rw [Verif.nCost_lt (rosen_nonneg _) (rosen_nonneg _)] at hc
    linarith
  have hc1 : nCost so m (rosen ![1, 1 - (1 - x0 0) ^ 2]) < maxVal := by rwa [hf1]
  obtain ⟨hpd, hone, hdg⟩ := rosen_newton_ready (so := so) hV hmin x0 hb.le
  have hb1 : (![1, 1 - (1 - x0 0) ^ 2] : Vec ℝ 2) 1 ≤ (![1, 1 - (1 - x0 0) ^ 2] : Vec ℝ 2) 0 ^ 2 := by
    show 1 - (1 - x0 0) ^ 2 ≤ (1 : ℝ) ^ 2
    have := sq_nonneg (1 - x0 0); linarith
  obtain ⟨-, -, hdg1⟩ := rosen_newton_ready (so := so) hV hmin _ hb1
  obtain ⟨c, w1, hb0, hc, hv⟩ := quad_build h hclip w (sizedState P 2) rfl x0 hb.le hdg (lt_of_le_of_lt hle hc1).ne
  obtain ⟨v, h1, h2⟩ := gnSolve_pd (so := so) hL (P.dims == some 1) ⟨2, rosenG x0, rosenH x0, c⟩ hv hpd hone
  have hland : x0 + v = ![1, 1 - (1 - x0 0) ^ 2] := by
    obtain ⟨p1, p2⟩ := rosen_step h2
    have e0 : v 0 = 1 - x0 0 := by rw [hb] at p1; linarith
    have e1 : (x0 + v) 0 = 1 := by show x0 0 + v 0 = 1; rw [e0]; ring
    rw [e1, e0] at p2
    rw [vec2 (x0 + v), e1, show (x0 + v) 1 = 1 - (1 - x0 0) ^ 2 by linarith]
  have hplus : P.plusEq x0 ⟨2, v⟩ = ![1, 1 - (1 - x0 0) ^ 2] := by rw [hV.plus, hland]
  obtain ⟨c1, w2, hb1', hcc1, hv1⟩ := quad_build h hclip w (sizedState P 2) rfl ![1, 1 - (1 - x0 0) ^ 2] hb1 hdg1 hc1.ne
  have hF := run_first_bad (gn_memoryless (so := so) (L := LA) hdet hk w) (C := fun x => (buildSystem so P w (sizedState P 2) x).2.1.cost.cost)
    (D := fun x => gnSolve so LA (P.dims == some 1) (buildSystem so P w (sizedState P 2) x).2.1)
    (fun x s h => by rw [h.1]; exact ⟨rfl, rfl⟩) (fun a => by simp) hmi (hV.dyn x0) hsz (d := ⟨2, v⟩) (by rw [hb0]; exact h1)
    (by
      show P.plusEq (P.plusEq x0 ⟨2, v⟩) ⟨2, negVec v⟩ = x0
      rw [hV.plus, hV.plus]
      funext i; simp [negVec])
    (by
      show lt (sub (buildSystem so P w (sizedState P 2) (P.plusEq x0 ⟨2, v⟩)).2.1.cost.cost _) _ = false
      rw [hplus, hb0, hb1']
      simp only [hc, hcc1]
      simpa using hle) hr
  have hplus' : (gnEnv so LA P).plusEq x0 ⟨2, v⟩ = ![1, 1 - (1 - x0 0) ^ 2] := hplus
  rw [hplus'] at hF
  refine ⟨hF.succ, hF.rows, hF.x, ?_⟩
  rcases hF.x with h | h
  · rw [h]
  · rw [h]; exact hworse

end

/-- the problem of tests/optimize_easy.cpp:205-210: `Vec4` parameters, the function writes the gradient and the Hessian and returns the cost -/
noncomputable def powellProb : Problem ℝ ℝ Unit (Vec ℝ 4) where
  acc :=
    { full := fun w x _ g H => (({ cost := powellF x, num := 1, inlier := 1 },
        fun i => if h : i.1 < 4 then powellG x ⟨i.1, h⟩ else g i,
        fun i j => if h : i.1 < 4 ∧ j.1 < 4 then powellH x ⟨i.1, h.1⟩ ⟨j.1, h.2⟩ else H i j), w)
      eval := fun w x => ({ cost := powellF x, num := 1, inlier := 1 }, w) }
  dims := some 4
  dynDims := fun _ => 4
  plusEq := fun x d => fun i => if h : i.1 < d.n then x i + d.v ⟨i.1, h⟩ else x i
  clock := fun w => (1, w)
  alloc := fun w _ => (some (fun _ => 7, fun _ _ => 7), w)
  ratio1 := 1

/-- hypotheses of `C137_powell`: the problem and the start (3, -1, 0, 1) of the test, default options -/
example : UserQuad powellProb (fun x => powT x 2 ≠ 0 ∧ powT x 3 ≠ 0) powellF powellG powellH 1 ∧ ExactLinAlg someLinAlg ∧
    (defaultSolverOpts realLit).checkMinHDiag ≤ 2 ∧ (defaultSolverOpts realLit).gradClip = 0 ∧ (![3, -1, 0, 1] : Vec ℝ 4) 1 ≠ 2 * (![3, -1, 0, 1] : Vec ℝ 4) 2 ∧
    (![3, -1, 0, 1] : Vec ℝ 4) 0 ≠ (![3, -1, 0, 1] : Vec ℝ 4) 3 ∧ nCost (defaultSolverOpts realLit) 1 (powellF ![3, -1, 0, 1]) < maxVal := by
  refine ⟨⟨⟨fun _ => rfl, Or.inl rfl, fun x v => ?_⟩, one_pos, fun x hx => (powellH_pd hx.1 hx.2).psd, fun w x _ => ?_, fun w x _ => ⟨rfl, rfl⟩⟩, someLinAlg_exact,
    by simp [defaultSolverOpts, realLit], by simp [defaultSolverOpts, realLit], by simp, by simp, ?_⟩
  · funext i
    simp only [powellProb, i.2, dite_true, Pi.add_apply]
  · refine ⟨{ cost := powellF x, num := 1, inlier := 1 }, w, ?_, rfl, rfl⟩
    simp only [powellProb, Fin.is_lt, dite_true, and_self]
  · refine lt_of_le_of_lt (b := 215) ?_ (lt_of_lt_of_le (by norm_num : (215 : ℝ) < 2 ^ 30) (pow_le_pow_right₀ (by norm_num) (by norm_num)))
    simp [nCost, normalizeCost, defaultSolverOpts, realLit, powellF, powT]
    norm_num

/-- hypotheses of `C137_rosenbrock`: the problem of the test from (1.09, -1000); and of `C137_rosenbrock_far`: from (0, 0) -/
example : UserQuad rosenProb (fun x => x 1 ≤ x 0 ^ 2) rosen rosenG rosenH 1 ∧ Deterministic rosenProb 2 ∧ |1 - (![1.09, -1000] : Vec ℝ 2) 0| < 1 / 10 ∧
    (![1.09, -1000] : Vec ℝ 2) 1 ≤ (![1.09, -1000] : Vec ℝ 2) 0 ^ 2 ∧ nCost (defaultSolverOpts realLit) 1 (rosen ![1.09, -1000]) < maxVal ∧
    1 / 10 ≤ |1 - (![0, 0] : Vec ℝ 2) 0| ∧ (![0, 0] : Vec ℝ 2) 1 = (![0, 0] : Vec ℝ 2) 0 ^ 2 ∧ nCost (defaultSolverOpts realLit) 1 (100 * (1 - (![0, 0] : Vec ℝ 2) 0) ^ 4) < maxVal := by
  refine ⟨⟨⟨fun _ => rfl, Or.inl rfl, fun x v => ?_⟩, one_pos, fun x hx => ((C136_rosenbrock x).2.2.2.2 (by linarith)).psd, fun w x _ => ?_, fun w x _ => ⟨rfl, rfl⟩⟩, ?_,
    by simp; rw [abs_lt]; norm_num, by simp; norm_num, ?_, by simp; norm_num, by simp, ?_⟩
  · funext i
    simp only [rosenProb, i.2, dite_true, Pi.add_apply]
  · refine ⟨{ cost := rosen x, num := 1, inlier := 1 }, w, ?_, rfl, rfl⟩
    simp only [rosenProb, Fin.is_lt, dite_true, and_self]
  · intro w w' x; rfl
  · refine lt_of_le_of_lt (b := 110000000) ?_ (lt_of_lt_of_le (by norm_num : (110000000 : ℝ) < 2 ^ 30) (pow_le_pow_right₀ (by norm_num) (by norm_num)))
    simp [nCost, normalizeCost, defaultSolverOpts, realLit, rosen]
    norm_num
  · refine lt_of_le_of_lt (b := 100) ?_ (lt_of_lt_of_le (by norm_num : (100 : ℝ) < 2 ^ 30) (pow_le_pow_right₀ (by norm_num) (by norm_num)))
    simp [nCost, normalizeCost, defaultSolverOpts, realLit]

end Verif.Landscape
