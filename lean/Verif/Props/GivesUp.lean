import Verif.Lemmas.FailedTries
import Verif.Lemmas.QuadRun
import Verif.Props.Sqrt
import Verif.Props.GdRuns
/-!
# C138: when Levenberg-Marquardt gives up at the start, and the square root from small starts

The damping grows only with every rejected iteration, every second iteration only evaluates the start again, and the run gives up after `max_consec_failures` of them.
-/

namespace Verif
open FloatOps Loss

section
variable {R W : Type} {n : Nat} {so : SolverOpts ℝ} {LA : LinAlg ℝ} {P : Problem ℝ R W (Vec ℝ n)} {o : Options ℝ W (DVec ℝ)}
variable {Ω : Vec ℝ n → Prop} {f : Vec ℝ n → ℝ} {G : Vec ℝ n → Vec ℝ n} {Q : Vec ℝ n → Mat ℝ n} {m : Nat}

/-- the damping of iteration `i` if all iterations after the first are rejected -/
noncomputable def lamTry (so : SolverOpts ℝ) (l0 : ℝ) : Nat → ℝ
  | 0 => l0
  | 1 => l0
  | i + 2 => max so.dampLo (min (lamTry so l0 (i + 1) * so.badFactor ^ (i + 1)) so.dampHi)

theorem lmBad_real (hr0 : so.dampLo ≤ so.dampHi) (s : LMState ℝ R) :
    lmBad so s = .ok { s with prev := s.lambda, lambda := max so.dampLo (min (s.lambda * s.badF) so.dampHi), badF := s.badF * so.badFactor } := by
  unfold lmBad
  rw [stdClamp_real hr0]
  rfl

/-- a `Build` with a rebuilt system, and the step -/
theorem try_rebuild (h : UserQuad P Ω f G Q m) (hL : ExactLinAlg LA) (hr0 : so.dampLo ≤ so.dampHi) (hclip : so.gradClip = 0) (w : W) (s : LMState ℝ R)
    (hs : P.dims = none ∨ s.gn.n = n) (x : Vec ℝ n) (hΩ : Ω x) (hreb : s.rebuild = true) (hl0 : 0 ≤ s.lambda) (hpd : PD (dampedR s.lambda (Q x)))
    (hone : Solves so (P.dims == some 1) (dampedR s.lambda (Q x))) (hmin : DiagOk so (Q x)) (hx : nCost so m (f x) ≠ maxVal) {v : Vec ℝ n}
    (hv : mv (dampedR s.lambda (Q x)) v = -G x) :
    ∃ c, Delivers (lmEnv so LA P) w s x { s with gn := ⟨n, G x, dampedR s.lambda (Q x), c⟩ } ⟨n, v⟩ ∧ c.cost = nCost so m (f x) := by
  have hgood : ∀ (s2 : LMState ℝ R) q, ∃ s', lmGood so s2 q = .ok s' := by
    intro s2 q; unfold lmGood; rw [stdClamp_real hr0]; exact ⟨_, rfl⟩
  have hbad : ∀ (s2 : LMState ℝ R), ∃ s', lmBad so s2 = .ok s' := by
    intro s2; unfold lmBad; rw [stdClamp_real hr0]; exact ⟨_, rfl⟩
  obtain ⟨g1, w1, hr, hn1, -⟩ := resize_works h.toVecParams w s.gn hs
  obtain ⟨c, w2, hb, hc, hvalid⟩ := quad_build h hclip w1 g1 hn1 x hΩ hmin hx
  have hr' : (lmSolver so LA P).resize w s n = (.done { s with gn := g1 }, w1) := by
    simp only [lmSolver, hr]
  have hb' : lmBuild so P w1 { s with gn := g1 } x = (true, { s with gn := ⟨n, G x, dampedR s.lambda (Q x), c⟩ }, w2) := by
    unfold lmBuild
    simp only [hreb, if_true]
    rw [hb]
    simp only [if_true]
    have := lmDamp_ls (R := R) (s := s) hreb hl0 (g := G x) (H := Q x) (c := c)
    rw [hreb] at this
    rw [this]
  obtain ⟨v', h1, h2⟩ := gnSolve_pd (so := so) hL (P.dims == some 1) ⟨n, G x, dampedR s.lambda (Q x), c⟩ hvalid hpd hone
  obtain rfl : v' = v := pd_inj hpd (h2.trans hv.symm)
  exact ⟨c, ⟨⟨_, w1, w2, resizeIfNeeded_works h.toVecParams hr', hb'⟩, h1, rfl, rfl, fun q => hgood _ q, hbad _⟩, hc⟩

/-- a `Build` that only evaluates the cost at `x` and keeps the system of `b`, and the step -/
theorem try_eval (h : UserQuad P Ω f G Q m) (hL : ExactLinAlg LA) (hr0 : so.dampLo ≤ so.dampHi) (w : W) (s : LMState ℝ R)
    (b x : Vec ℝ n) (hΩ : Ω x) (hreb : s.rebuild = false) (hl0 : 0 < s.lambda) (hp0 : 0 ≤ s.prev) {c0 : Cost ℝ R} (hgn : s.gn = ⟨n, G b, dampedR s.prev (Q b), c0⟩)
    (hpd : PD (dampedR s.lambda (Q b))) (hone : Solves so (P.dims == some 1) (dampedR s.lambda (Q b))) (hx : nCost so m (f x) ≠ maxVal) {v : Vec ℝ n}
    (hv : mv (dampedR s.lambda (Q b)) v = -G b) :
    ∃ c, Delivers (lmEnv so LA P) w s x { s with gn := ⟨n, G b, dampedR s.lambda (Q b), c⟩ } ⟨n, v⟩ ∧ c.cost = nCost so m (f x) := by
  have hgood : ∀ (s2 : LMState ℝ R) q, ∃ s', lmGood so s2 q = .ok s' := by
    intro s2 q; unfold lmGood; rw [stdClamp_real hr0]; exact ⟨_, rfl⟩
  have hbad : ∀ (s2 : LMState ℝ R), ∃ s', lmBad so s2 = .ok s' := by
    intro s2; unfold lmBad; rw [stdClamp_real hr0]; exact ⟨_, rfl⟩
  have hn : s.gn.n = n := by rw [hgn]
  obtain ⟨g1, w1, hr, hn1, hid⟩ := resize_works h.toVecParams w s.gn (Or.inr hn)
  have := hid hn
  subst this
  have hr' : (lmSolver so LA P).resize w s n = (.done s, w1) := by
    simp only [lmSolver, hr]
  rcases hev : P.acc.eval w1 x with ⟨c, w2⟩
  have hE := h.eval w1 x hΩ
  rw [hev] at hE
  have hcost : (normalizeCost so c).cost = nCost so m (f x) := by rw [normalizeCost_eq c hE.2, hE.1]
  have hvalid : (normalizeCost so c).isValid = true := by
    have h1 : eq (normalizeCost so c).cost maxVal = false := by rw [RealOps.eq_eq_false, hcost]; exact hx
    have h2 := h.pos
    unfold Cost.isValid ne
    rw [h1, normalizeCost_num, hE.2]
    simpa using h2
  have hdamp : lmDamp { s with gn := { s.gn with cost := normalizeCost so c } } = { s with gn := ⟨n, G b, dampedR s.lambda (Q b), normalizeCost so c⟩ } := by
    have hk : (1 + s.lambda) / (1 + s.prev) * (1 + s.prev) - 1 = s.lambda := by
      rw [div_mul_cancel₀ _ (by linarith)]; ring
    rw [hgn]
    unfold lmDamp
    simp only [hreb, Bool.false_eq_true, if_false]
    rw [if_pos (by simpa using hl0)]
    rw [← hk, ← scale_damped]
    simp [hk]
  have hb' : lmBuild so P w1 s x = (true, { s with gn := ⟨n, G b, dampedR s.lambda (Q b), normalizeCost so c⟩ }, w2) := by
    unfold lmBuild lmEvaluate
    rw [if_neg (by rw [hreb]; decide), hev]
    simp only [hvalid, if_true]
    rw [hdamp]
  obtain ⟨v', h1, h2⟩ := gnSolve_pd (so := so) hL (P.dims == some 1) ⟨n, G b, dampedR s.lambda (Q b), normalizeCost so c⟩ hvalid hpd hone
  obtain rfl : v' = v := pd_inj hpd (h2.trans hv.symm)
  exact ⟨normalizeCost so c, ⟨⟨_, w1, w2, resizeIfNeeded_works h.toVecParams hr', hb'⟩, h1, rfl, rfl, fun q => hgood _ q, hbad _⟩, hcost⟩

/-- what is known of the solver before iteration `i` -/
def TryOk (so : SolverOpts ℝ) (P : Problem ℝ R W (Vec ℝ n)) (G : Vec ℝ n → Vec ℝ n) (Q : Vec ℝ n → Mat ℝ n) (l0 : ℝ) (x0 : Vec ℝ n) (i : Nat) (s : LMState ℝ R) : Prop :=
  s.lambda = lamTry so l0 i ∧ s.badF = so.badFactor ^ (max i 1) ∧
    (if i ≤ 2 then s.rebuild = true ∧ (P.dims = none ∨ s.gn.n = n)
     else s.rebuild = false ∧ s.prev = lamTry so l0 (i - 1) ∧ ∃ c, s.gn = ⟨n, G x0, dampedR (lamTry so l0 (i - 1)) (Q x0), c⟩)

theorem lamTry_pos (hlo : 0 < so.dampLo) (l0 : ℝ) (i : Nat) : 0 < lamTry so l0 (i + 2) := lt_of_lt_of_le hlo (le_max_left _ _)

theorem lamTry_nonneg (hlo : 0 < so.dampLo) {l0 : ℝ} (h0 : 0 ≤ l0) : ∀ i, 0 ≤ lamTry so l0 i
  | 0 => h0
  | 1 => h0
  | i + 2 => (lamTry_pos hlo l0 i).le

theorem TryOk.next (hr0 : so.dampLo ≤ so.dampHi) {l0 : ℝ} {x0 : Vec ℝ n} {i : Nat} (hi : 0 < i) {s s3 : LMState ℝ R} (hl : s.lambda = lamTry so l0 i)
    (hb : s.badF = so.badFactor ^ (max i 1)) (hn : s.gn.n = n) (hg : 2 ≤ i → ∃ c, s.gn = ⟨n, G x0, dampedR (lamTry so l0 i) (Q x0), c⟩)
    (e : lmBad so s = .ok s3) : TryOk so P G Q l0 x0 (i + 1) { s3 with rebuild := (i == 1) } := by
  rw [lmBad_real hr0] at e
  injection e with e
  subst e
  obtain ⟨j, rfl⟩ : ∃ j, i = j + 1 := ⟨i - 1, by omega⟩
  have hmax : max (j + 1) 1 = j + 1 := by omega
  rw [hmax] at hb
  refine ⟨?_, ?_, ?_⟩
  · show max so.dampLo (min (s.lambda * s.badF) so.dampHi) = _
    rw [hl, hb]; rfl
  · show s.badF * so.badFactor = _
    rw [hb, ← pow_succ]; congr 1
  · split
    next h => exact ⟨by simp; omega, Or.inr hn⟩
    next h => exact ⟨by simp; omega, hl, hg (by omega)⟩

/-- **C138**: Levenberg-Marquardt gives up at the start if none of the steps it tries there, with the growing damping, lowers the cost. With `N = max_consec_failures`
these are only about `N / 2` steps, with the dampings `lamTry 0, lamTry 2, lamTry 4, ...` below `N`: after `N + 1` iterations the run ends at the start as `kMaxConsecNoDecr`. -/
theorem C138_gives_up (h : UserQuad P Ω f G Q m) (hsq : so.useSquaredNorm = true ∨ ∀ x, Ω x → 0 ≤ f x) (hL : ExactLinAlg LA) (hlo : 0 < so.dampLo) (hr0 : so.dampLo ≤ so.dampHi)
    (hclip : so.gradClip = 0) (ho : Unwatched o) (ht : o.maxTotalFailures = 0) (hf0 : 0 < o.maxConsecFailures) (hf1 : o.maxConsecFailures < 256)
    (s : LMState ℝ R) (hs : P.dims = none ∨ s.gn.n = n) (hreb : s.rebuild = true) (hl0 : 0 ≤ s.lambda) (hbf : s.badF = so.badFactor)
    (x0 : Vec ℝ n) (d : Nat → Vec ℝ n)
    (hd : ∀ i, i ≠ 1 → mv (dampedR (lamTry so s.lambda i) (Q x0)) (d i) = -G x0) (hd1 : mv (dampedR s.lambda (Q (x0 + d 0))) (d 1) = -G (x0 + d 0))
    (hpd : ∀ i, PD (dampedR (lamTry so s.lambda i) (Q x0)) ∧ Solves so (P.dims == some 1) (dampedR (lamTry so s.lambda i) (Q x0)))
    (hpd1 : PD (dampedR s.lambda (Q (x0 + d 0))) ∧ Solves so (P.dims == some 1) (dampedR s.lambda (Q (x0 + d 0))))
    (hmin : DiagOk so (Q x0)) (hmin1 : DiagOk so (Q (x0 + d 0)))
    (hΩ : Ω x0) (hx0 : nCost so m (f x0) < maxVal)
    (hworse : ∀ i, i % 2 = 0 → i < o.maxConsecFailures → Ω (x0 + d i) ∧ f x0 ≤ f (x0 + d i) ∧ nCost so m (f (x0 + d i)) ≠ maxVal)
    (herr : 0 < o.minError → o.minError ≤ nCost so m (f x0))
    (hstep : 0 < o.minStepNorm2 → ∀ i, i ≤ o.maxConsecFailures → o.minStepNorm2 ≤ dotR (d i) (d i))
    (hgrad : 0 < o.minGradNorm2 → o.minGradNorm2 ≤ dotR (G x0) (G x0) ∧ o.minGradNorm2 ≤ dotR (G (x0 + d 0)) (G (x0 + d 0)))
    {fuel : Nat} {mi k : Int} (hk : loopBound o mi = some k) (hN : (o.maxConsecFailures : Int) < k) (w : W) :
    ∃ st, optimizeAcc (lmEnv so LA P) o (fuel + 1) mi w s x0 = .ok st ∧ st.trace.length = o.maxConsecFailures + 1 ∧ st.x = x0 ∧ st.out.stop = .kMaxConsecNoDecr ∧
      st.out.finalCost.cost = nCost so m (f x0) ∧
      ∀ i r, st.trace[i]? = some r → r.x = (if i % 2 = 0 then x0 else x0 + d (i - 1)) ∧ (0 < i → r.succ = false) := by
  have hplus : ∀ x v, (lmEnv so LA P).plusEq x ⟨n, v⟩ = x + v := fun x v => h.plus x v
  have hpt : ∀ i, tryPt (lmEnv so LA P) (fun i => (⟨n, d i⟩ : DVec ℝ)) x0 i = (if i % 2 = 0 then x0 else x0 + d (i - 1)) := fun i => by
    unfold tryPt; rw [hplus]
  have hpt' : ∀ i, i ≤ o.maxConsecFailures → Ω (if i % 2 = 0 then x0 else x0 + d (i - 1)) ∧
      nCost so m (f (if i % 2 = 0 then x0 else x0 + d (i - 1))) ≠ maxVal ∧ nCost so m (f x0) ≤ nCost so m (f (if i % 2 = 0 then x0 else x0 + d (i - 1))) := by
    intro i hi
    split
    · exact ⟨hΩ, hx0.ne, le_refl _⟩
    · obtain ⟨a, b, c⟩ := hworse (i - 1) (by omega) (by omega)
      refine ⟨a, c, ?_⟩
      by_contra hc
      push Not at hc
      rw [nCost_mono h.pos (by
        rcases hsq with h1 | h1
        · exact Or.inl h1
        · exact Or.inr ⟨h1 _ a, h1 _ hΩ⟩)] at hc
      linarith
  have hlam0 : ∀ i, 0 ≤ lamTry so s.lambda i := lamTry_nonneg hlo hl0
  obtain ⟨st, e, a1, a2, a3, a4, a5⟩ := tries_run (E := lmEnv so LA P) (o := o) (Ok := TryOk so P G Q s.lambda x0) (D := fun i => (⟨n, d i⟩ : DVec ℝ))
    (C := fun x => nCost so m (f x)) (g2 := fun i => if i = 1 then dotR (G (x0 + d 0)) (G (x0 + d 0)) else dotR (G x0) (G x0)) ho ht hf0 hf1 (x0 := x0)
    (fun best err hb => by
      rw [RealOps.lt_eq_false] at hb ⊢
      simp at hb
      unfold relDerr
      split
      next hc =>
        simp at hc
        simp only [RealOps.div_eq, RealOps.sub_eq, RealOps.ofInt_eq]
        have : (0 : ℝ) < best := lt_trans (by show (0 : ℝ) < 1 / 10 ^ 7; norm_num) hc.1
        have := div_nonpos_of_nonpos_of_nonneg (by linarith : best - err ≤ 0) this.le
        simpa using this
      · exact le_refl _)
    (fun err => by simp [relDerr]) (fun a => by simp) (by simpa using hx0)
    (fun i hi w' s' hok => by
      rw [hpt]
      obtain ⟨o1, o2, o3⟩ := hok
      obtain ⟨p1, p2, -⟩ := hpt' i hi
      split at o3
      next hle =>
        obtain ⟨o3, o4⟩ := o3
        have hcase : i = 1 ∨ i % 2 = 0 := by omega
        rcases hcase with rfl | hev
        · simp only [Nat.one_mod, one_ne_zero, if_false, Nat.sub_self, if_true] at p1 p2 ⊢
          have o1' : s'.lambda = s.lambda := o1
          obtain ⟨c, hc, hcc⟩ := try_rebuild h hL hr0 hclip w' s' o4 (x0 + d 0) p1 o3 (by rw [o1']; exact hl0) (by rw [o1']; exact hpd1.1) (by rw [o1']; exact hpd1.2)
            hmin1 p2 (v := d 1) (by rw [o1']; exact hd1)
          refine ⟨_, hc, hcc, sqNorm_eq _, fun h => by simp at h, fun _ s3 hb => ?_⟩
          exact TryOk.next (s := { s' with gn := ⟨n, G (x0 + d 0), dampedR s'.lambda (Q (x0 + d 0)), c⟩ }) hr0 one_pos o1 o2 rfl (fun h => absurd h (by decide)) hb
        · have hne : i ≠ 1 := by omega
          rw [if_pos hev] at p1 p2 ⊢
          rw [if_neg hne]
          obtain ⟨c, hc, hcc⟩ := try_rebuild h hL hr0 hclip w' s' o4 x0 p1 o3 (by rw [o1]; exact hlam0 i) (by rw [o1]; exact (hpd i).1) (by rw [o1]; exact (hpd i).2)
            hmin p2 (v := d i) (by rw [o1]; exact hd i hne)
          refine ⟨_, hc, hcc, sqNorm_eq _, fun h => ?_, fun hpos s3 hb => ?_⟩
          · subst h
            exact ⟨o1, o2, by rw [if_pos (by decide)]; exact ⟨rfl, Or.inr rfl⟩⟩
          · exact TryOk.next (s := { s' with gn := ⟨n, G x0, dampedR s'.lambda (Q x0), c⟩ }) hr0 hpos o1 o2 rfl (fun h => ⟨c, by rw [← o1]⟩) hb
      next hgt =>
        obtain ⟨o3, o4, c0, o5⟩ := o3
        have hne : i ≠ 1 := by omega
        have hpos : 0 < s'.lambda := by
          obtain ⟨j, rfl⟩ : ∃ j, i = j + 2 := ⟨i - 2, by omega⟩
          rw [o1]; exact lamTry_pos hlo _ _
        rw [if_neg hne]
        obtain ⟨c, hc, hcc⟩ := try_eval h hL hr0 w' s' x0 _ p1 o3 hpos (by rw [o4]; exact hlam0 _) (c0 := c0) (by rw [o5, o4]) (by rw [o1]; exact (hpd i).1)
          (by rw [o1]; exact (hpd i).2) p2 (v := d i) (by rw [o1]; exact hd i hne)
        refine ⟨_, hc, hcc, sqNorm_eq _, fun h => by omega, fun hp s3 hb => ?_⟩
        exact TryOk.next (s := { s' with gn := ⟨n, G x0, dampedR s'.lambda (Q x0), c⟩ }) hr0 hp o1 o2 rfl (fun h => ⟨c, by rw [← o1]⟩) hb)
    (fun i hi => by
      refine ⟨fun h0 => ?_, fun h0 => ?_, fun h0 => ?_⟩
      · rw [hpt]
        have := herr (by simpa using h0)
        have := (hpt' i hi).2.2
        simp only [RealOps.lt_eq_false]
        linarith
      · have := hstep (by simpa using h0) i hi
        rw [RealOps.lt_eq_false]
        show o.minStepNorm2 ≤ sqNorm (d i)
        rw [sqNorm_eq]; exact this
      · have := hgrad (by simpa using h0)
        rw [RealOps.lt_eq_false]
        split
        · exact this.2
        · exact this.1)
    (fun i => by
      show (lmEnv so LA P).plusEq ((lmEnv so LA P).plusEq x0 ⟨n, d i⟩) ⟨n, negVec (d i)⟩ = x0
      rw [hplus, hplus]
      funext j; simp [negVec])
    (fun i hi hlt => by
      have := (hpt' (i + 1) (by omega)).2.2
      rw [if_neg (by omega), Nat.add_sub_cancel] at this
      rw [hplus]
      simpa using this) hk hN (w := w) (s := s) ⟨rfl, by rw [hbf]; simp, by rw [if_pos (by decide)]; exact ⟨hreb, hs⟩⟩
  exact ⟨st, e, a1, a2, a3, a4, fun i r hr => by rw [← hpt]; exact a5 i r hr⟩

end
/-! ## The square root -/

/-- the step of the residual `x ^ 2 - a` with damping `l` -/
noncomputable def sqrtTry (a l x : ℝ) : ℝ := (a - x ^ 2) / (2 * x * (1 + l))

theorem sqrtTry_sq {a l x : ℝ} (hx : x ≠ 0) (hl : 0 ≤ l) :
    (x + sqrtTry a l x) ^ 2 = x ^ 2 + (a - x ^ 2) / (1 + l) + (a - x ^ 2) ^ 2 / (4 * x ^ 2 * (1 + l) ^ 2) := by
  have : (1 + l) ≠ 0 := by positivity
  unfold sqrtTry
  field_simp
  ring

/-- from a small start every step with a small damping overshoots: the next point is further off (in the cost) on the other side of the root -/
theorem sqrt_overshoots {a l x : ℝ} (ha : 0 < a) (hx : x ≠ 0) (hx2 : x ^ 2 ≤ 25 / 128 * a) (hl : 0 ≤ l) (hl1 : l ≤ 1 / 150) :
    a - x ^ 2 ≤ (x + sqrtTry a l x) ^ 2 - a ∧ (x + sqrtTry a l x) ^ 2 - a ≤ ((a - x ^ 2) / (2 * x)) ^ 2 := by
  have hxp : 0 < x ^ 2 := by positivity
  have he : 0 < a - x ^ 2 := by linarith
  have h1 : 0 < 1 + l := by linarith
  rw [sqrtTry_sq hx hl]
  have hi1 : (150 / 151 : ℝ) ≤ 1 / (1 + l) := by rw [le_div_iff₀ h1]; linarith
  have hi2 : 1 / (1 + l) ≤ (1 : ℝ) := by rw [div_le_iff₀ h1]; linarith
  have hr : (103 / 100 : ℝ) ≤ (a - x ^ 2) / (4 * x ^ 2) := by rw [le_div_iff₀ (by positivity)]; linarith
  have e1 : (a - x ^ 2) / (1 + l) = (a - x ^ 2) * (1 / (1 + l)) := by ring
  have e2 : (a - x ^ 2) ^ 2 / (4 * x ^ 2 * (1 + l) ^ 2) = (a - x ^ 2) * ((a - x ^ 2) / (4 * x ^ 2)) * (1 / (1 + l)) ^ 2 := by
    field_simp
  have e3 : ((a - x ^ 2) / (2 * x)) ^ 2 = (a - x ^ 2) * ((a - x ^ 2) / (4 * x ^ 2)) := by field_simp; ring
  rw [e1, e2, e3]
  generalize (a - x ^ 2) / (4 * x ^ 2) = r at *
  generalize 1 / (1 + l) = q at *
  have hq2 : (150 / 151 : ℝ) ^ 2 ≤ q ^ 2 := pow_le_pow_left₀ (by norm_num) hi1 2
  have hq1 : q ^ 2 ≤ 1 := by nlinarith
  have hrq : (103 / 100 : ℝ) * (150 / 151) ^ 2 ≤ r * q ^ 2 := mul_le_mul hr hq2 (by positivity) (by linarith)
  have hrq1 : r * q ^ 2 ≤ r := by nlinarith
  constructor
  · have := mul_le_mul_of_nonneg_left (a := a - x ^ 2) (by linarith : (2 : ℝ) ≤ q + r * q ^ 2) he.le
    nlinarith
  · have h2 := mul_le_mul_of_nonneg_left hi2 he.le
    have h3 := mul_le_mul_of_nonneg_left hrq1 he.le
    nlinarith

theorem sqrtTry_far {a l y : ℝ} (ha : 0 < a) (hl0 : 0 ≤ l) (hl : l ≤ 1 / 150) (hyp : 231 / 128 * a ≤ y ^ 2) : a / 50 ≤ sqrtTry a l y ^ 2 := by
  have hy : 0 < y ^ 2 := by linarith
  have hyn : y ≠ 0 := fun h => by rw [h] at hy; norm_num at hy
  unfold sqrtTry
  rw [div_pow, le_div_iff₀ (by positivity)]
  have h1 := pow_le_pow_left₀ (by linarith) (by linarith : 1 + l ≤ 151 / 150) 2
  have h2 : (2 * y * (1 + l)) ^ 2 ≤ 4 * y ^ 2 * (151 / 150) ^ 2 := by
    have := mul_le_mul_of_nonneg_left h1 hy.le
    have e : (2 * y * (1 + l)) ^ 2 = 4 * (y ^ 2 * (1 + l) ^ 2) := by ring
    rw [e]; linarith
  have h7 := mul_le_mul_of_nonneg_left h2 (by positivity : 0 ≤ a / 50)
  generalize y ^ 2 = u at *
  have h8 : a / 50 * (4 * u * (151 / 150) ^ 2) ≤ (a - u) ^ 2 := by nlinarith
  linarith

theorem sqrtTry_near {a l x : ℝ} (ha : 0 < a) (hx : x ≠ 0) (hx2 : x ^ 2 ≤ 25 / 128 * a) (hl0 : 0 ≤ l) (hl : l ≤ 4) : a / 50 ≤ sqrtTry a l x ^ 2 := by
  have hxp : 0 < x ^ 2 := by positivity
  unfold sqrtTry
  rw [div_pow, le_div_iff₀ (by positivity)]
  have h5 := mul_le_mul hx2 (pow_le_pow_left₀ (by linarith) (by linarith : 1 + l ≤ 5) 2) (by positivity) (by positivity)
  have e : (2 * x * (1 + l)) ^ 2 = 4 * (x ^ 2 * (1 + l) ^ 2) := by ring
  have h6 := pow_le_pow_left₀ (by positivity) (by linarith : 103 / 128 * a ≤ a - x ^ 2) 2
  have h7 := mul_le_mul_of_nonneg_left h5 (by positivity : 0 ≤ a / 50)
  have h8 : a / 50 * (100 * (25 / 128 * a)) ≤ (103 / 128 * a) ^ 2 := by nlinarith [sq_nonneg a]
  rw [e]
  linarith

theorem sqrt_pd {l y : ℝ} (hy : y ≠ 0) (hl : 0 ≤ l) : PD (dampedR l (fun _ _ : Fin 1 => 4 * y ^ 2)) := by
  refine ⟨fun i j => by rw [Subsingleton.elim i j], fun v hv => ?_⟩
  have hv0 : v 0 ≠ 0 := fun h => hv (by rw [vec1 v, h]; rfl)
  simp only [dotR, mv, dampedR, Fin.sum_univ_one, if_true]
  have : v 0 * ((4 * y ^ 2 + l * (4 * y ^ 2)) * v 0) = (1 + l) * (2 * y * v 0) ^ 2 := by ring
  rw [this]; positivity

theorem sqrt_mv {a l y : ℝ} (hy : y ≠ 0) (hl : 0 ≤ l) :
    mv (dampedR l (fun _ _ : Fin 1 => 4 * y ^ 2)) (fun _ => sqrtTry a l y) = -(fun _ => 2 * y * (y ^ 2 - a)) := by
  have : (1 + l) ≠ 0 := by positivity
  funext i
  simp only [mv, dampedR, Fin.sum_univ_one, Pi.neg_apply, Subsingleton.elim i 0, if_true, sqrtTry]
  field_simp
  ring

section
variable {R W : Type} {so : SolverOpts ℝ} {LA : LinAlg ℝ} {P : Problem ℝ R W (RVec 1)} {o : Options ℝ W (DVec ℝ)}

/-- **C138, the square root**: Levenberg-Marquardt on the residual `x * x - a` with automatic differentiation, from any start with `0 < x0 ^ 2 ≤ 25 / 128 * a`, with dampings that
stay below `1 / 150` in the even iterations: the run ends where it started, as `kMaxConsecNoDecr`, though the problem has no other obstacle (C81 is convergence from `√a / 2` on). -/
theorem C138_sqrt {a : ℝ} (hP : ADScalar P (sqrtExpr a)) (hV : VecParams P) (ha : 0 < a) (hL : ExactLinAlg LA) (hlo : 0 < so.dampLo) (hr0 : so.dampLo ≤ so.dampHi)
    (hmin : so.checkMinHDiag ≤ 0) (hclip : so.gradClip = 0) (hsq : so.useSquaredNorm = true) (hds : so.downscaleBy2 = false)
    (ho : Unwatched o) (ht : o.maxTotalFailures = 0) (hf0 : 0 < o.maxConsecFailures) (hf1 : o.maxConsecFailures < 256)
    (s : LMState ℝ R) (hs : P.dims = none ∨ s.gn.n = 1) (hreb : s.rebuild = true) (hl0 : 0 ≤ s.lambda) (hbf : s.badF = so.badFactor)
    (hlam : ∀ i, i % 2 = 0 → i < o.maxConsecFailures → lamTry so s.lambda i ≤ 1 / 150) (hlam4 : ∀ i, i ≤ o.maxConsecFailures → lamTry so s.lambda i ≤ 4)
    (x0 : RVec 1) (hx0 : x0 0 ≠ 0) (hx2 : x0 0 ^ 2 ≤ 25 / 128 * a) (hldlt : so.useLdlt = true ∨ eps < 4 * x0 0 ^ 2)
    (hmax : (((a - x0 0 ^ 2) / (2 * x0 0)) ^ 2) ^ 2 < maxVal)
    (herr : o.minError ≤ a ^ 2 / 2) (hstep : o.minStepNorm2 ≤ a / 50) (hgrad : o.minGradNorm2 ≤ 2 * x0 0 ^ 2 * a ^ 2)
    {fuel : Nat} {mi k : Int} (hk : loopBound o mi = some k) (hN : (o.maxConsecFailures : Int) < k) (w : W) :
    ∃ st, optimizeAcc (lmEnv so LA P) o (fuel + 1) mi w s x0 = .ok st ∧ st.trace.length = o.maxConsecFailures + 1 ∧ st.x = x0 ∧ st.out.stop = .kMaxConsecNoDecr ∧
      st.out.converged = false := by
  have hc : ∀ c : ℝ, nCost so 1 c = c := nCost_one hsq hds
  have hlam0 : ∀ i, 0 ≤ lamTry so s.lambda i := lamTry_nonneg hlo hl0
  have hxp : 0 < x0 0 ^ 2 := by positivity
  have he : 103 / 128 * a ≤ a - x0 0 ^ 2 := by linarith
  have hl00 : s.lambda ≤ 1 / 150 := hlam 0 rfl hf0
  set y : ℝ := x0 0 + sqrtTry a s.lambda (x0 0) with hy
  obtain ⟨hy1, hy2⟩ := sqrt_overshoots ha hx0 hx2 hl0 hl00
  rw [← hy] at hy1 hy2
  have hyp : 231 / 128 * a ≤ y ^ 2 := by linarith
  have hyn : y ≠ 0 := fun h => by rw [h] at hyp; nlinarith
  have hcost : ∀ l, 0 ≤ l → l ≤ 1 / 150 → (x0 0 ^ 2 - a) ^ 2 ≤ ((x0 0 + sqrtTry a l (x0 0)) ^ 2 - a) ^ 2 ∧
      ((x0 0 + sqrtTry a l (x0 0)) ^ 2 - a) ^ 2 ≤ (((a - x0 0 ^ 2) / (2 * x0 0)) ^ 2) ^ 2 := by
    intro l h0 h1
    obtain ⟨a1, a2⟩ := sqrt_overshoots ha hx0 hx2 h0 h1
    refine ⟨?_, pow_le_pow_left₀ (by linarith) a2 2⟩
    have := pow_le_pow_left₀ (by linarith : 0 ≤ a - x0 0 ^ 2) a1 2
    nlinarith
  have hsolve : ∀ z l : ℝ, 0 ≤ l → x0 0 ^ 2 ≤ z ^ 2 → Solves so (P.dims == some 1) (dampedR l (fun _ _ : Fin 1 => 4 * z ^ 2)) := by
    intro z l h0 hz
    rcases hldlt with h | h
    · exact Or.inl h
    · refine Or.inr (Or.inr fun _ => lt_of_lt_of_le h ?_)
      simp only [dampedR, if_true]
      nlinarith [mul_nonneg h0 (sq_nonneg z)]
  let d : Nat → RVec 1 := fun i => if i = 1 then fun _ => sqrtTry a s.lambda y else fun _ => sqrtTry a (lamTry so s.lambda i) (x0 0)
  have hd' : ∀ i, i ≠ 1 → d i = fun _ => sqrtTry a (lamTry so s.lambda i) (x0 0) := fun i hi => if_neg hi
  have hx1 : (x0 + d 0) 0 = y := by rw [hd' 0 (by decide)]; rfl
  obtain ⟨st, e, a1, a2, a3, -, -⟩ := C138_gives_up (so := so) (LA := LA) (o := o) (sqrt_userQuad hP hV fun _ => True) (Or.inl hsq) hL hlo hr0 hclip ho ht hf0 hf1 s hs hreb hl0 hbf x0 d
    (fun i hi => by rw [hd' i hi]; exact sqrt_mv hx0 (hlam0 i))
    (by
      simp only [hx1]
      exact sqrt_mv hyn hl0)
    (fun i => ⟨sqrt_pd hx0 (hlam0 i), hsolve _ _ (hlam0 i) le_rfl⟩)
    (by
      simp only [hx1]
      exact ⟨sqrt_pd hyn hl0, hsolve _ _ hl0 (by linarith)⟩)
    (Or.inl hmin) (Or.inl hmin) trivial
    (by
      rw [hc]
      exact lt_of_le_of_lt ((hcost _ hl0 hl00).1.trans (hcost _ hl0 hl00).2) hmax)
    (fun i h2 hi => by
      have := hcost _ (hlam0 i) (hlam i h2 hi)
      rw [hd' i (by omega)]
      refine ⟨trivial, this.1, ?_⟩
      rw [hc]
      exact (lt_of_le_of_lt this.2 hmax).ne)
    (fun _ => by
      rw [hc]
      nlinarith)
    (fun _ i hi => by
      rw [dotR_one]
      refine hstep.trans ?_
      by_cases h1 : i = 1
      · subst h1
        exact sqrtTry_far ha hl0 hl00 hyp
      · rw [hd' i h1]
        exact sqrtTry_near ha hx0 hx2 (hlam0 i) (hlam4 i hi))
    (fun _ => by
      have h6 := pow_le_pow_left₀ (by positivity) he 2
      constructor
      · rw [dotR_one]
        have := mul_le_mul_of_nonneg_left h6 hxp.le
        have e : (2 * x0 0 * (x0 0 ^ 2 - a)) ^ 2 = 4 * (x0 0 ^ 2 * (a - x0 0 ^ 2) ^ 2) := by ring
        have h8 := mul_nonneg hxp.le (sq_nonneg a)
        refine hgrad.trans ?_
        rw [e]
        linarith
      · rw [dotR_one, hx1]
        have h7 := pow_le_pow_left₀ (by positivity) (he.trans hy1) 2
        have h8 : x0 0 ^ 2 ≤ y ^ 2 := by linarith
        have h9 := mul_le_mul h8 h7 (by positivity) (sq_nonneg _)
        have e : (2 * y * (y ^ 2 - a)) ^ 2 = 4 * (y ^ 2 * (y ^ 2 - a) ^ 2) := by ring
        have h10 := mul_nonneg hxp.le (sq_nonneg a)
        refine hgrad.trans ?_
        rw [e]
        linarith)
    hk hN w
  exact ⟨st, e, a1, a2, a3, by unfold Output.converged; rw [a3]; decide⟩

/-- **C138, the default damping**: on `x * x - 2` with the default damping options and up to 6 allowed consecutive failures (3 in the benchmarks, 5 by default) no start with
`1e-7 ≤ |x0| ≤ 5 / 8` (`1e-3 ≤ |x0|` without LDLT, whose test of the only coefficient fails otherwise) moves, among them the start `0.480009157900` of the comment in benchmarks/dense.cpp. -/
theorem C138_sqrt2 (hP : ADScalar P (sqrtExpr 2)) (hV : VecParams P) (hL : ExactLinAlg LA) (b : Bool)
    (ho : Unwatched o) (ht : o.maxTotalFailures = 0) (hf0 : 0 < o.maxConsecFailures) (hf1 : o.maxConsecFailures ≤ 6)
    (herr : o.minError ≤ 2) (hstep : o.minStepNorm2 ≤ 1 / 25) (hgrad : o.minGradNorm2 ≤ 1 / 10 ^ 14)
    (g : Vec ℝ (P.dims.getD 0)) (H : Mat ℝ (P.dims.getD 0)) (x0 : RVec 1) (hx0 : 1 / 10 ^ 7 ≤ |x0 0|) (hb : b = true ∨ 1 / 1000 ≤ |x0 0|) (hx1 : |x0 0| ≤ 5 / 8)
    {fuel : Nat} {mi k : Int} (hk : loopBound o mi = some k) (hN : (o.maxConsecFailures : Int) < k) (w : W) :
    ∃ st, optimizeAcc (lmEnv { soptsLM with useLdlt := b } LA P) o (fuel + 1) mi w (lmFresh { soptsLM with useLdlt := b } P g H) x0 = .ok st ∧
      st.trace.length = o.maxConsecFailures + 1 ∧ st.x = x0 ∧ st.out.stop = .kMaxConsecNoDecr ∧ st.out.converged = false := by
  have hsz : P.dims = none ∨ (lmFresh { soptsLM with useLdlt := b } P g H).gn.n = 1 := by
    rcases hV.size with h | h
    · right
      show (gnFresh P g H).n = 1
      simp [gnFresh, h]
    · exact Or.inl h.1
  have hq : (1 / 10 ^ 7) ^ 2 ≤ x0 0 ^ 2 := by rw [← sq_abs (x0 0)]; exact pow_le_pow_left₀ (by norm_num) hx0 2
  have hq1 : x0 0 ^ 2 ≤ (5 / 8) ^ 2 := by rw [← sq_abs (x0 0)]; exact pow_le_pow_left₀ (abs_nonneg _) hx1 2
  have hne : x0 0 ≠ 0 := fun h => by rw [h] at hq; norm_num at hq
  have hl : ∀ i, i ≤ 6 → lamTry { soptsLM with useLdlt := b } (1 / 10000) i = ![1 / 10000, 1 / 10000, 2 / 10000, 8 / 10000, 64 / 10000, 1024 / 10000, 32768 / 10000] (Fin.ofNat 7 i) := by
    have e2 : lamTry { soptsLM with useLdlt := b } (1 / 10000) 2 = 2 / 10000 := by norm_num [lamTry, soptsLM, soptsR]
    have e3 : lamTry { soptsLM with useLdlt := b } (1 / 10000) 3 = 8 / 10000 := by rw [lamTry, e2]; norm_num [soptsLM, soptsR]
    have e4 : lamTry { soptsLM with useLdlt := b } (1 / 10000) 4 = 64 / 10000 := by rw [lamTry, e3]; norm_num [soptsLM, soptsR]
    have e5 : lamTry { soptsLM with useLdlt := b } (1 / 10000) 5 = 1024 / 10000 := by rw [lamTry, e4]; norm_num [soptsLM, soptsR]
    have e6 : lamTry { soptsLM with useLdlt := b } (1 / 10000) 6 = 32768 / 10000 := by rw [lamTry, e5]; norm_num [soptsLM, soptsR]
    intro i hi
    interval_cases i
    · rfl
    · rfl
    · rw [e2]; rfl
    · rw [e3]; rfl
    · rw [e4]; rfl
    · rw [e5]; rfl
    · rw [e6]; rfl
  refine C138_sqrt (so := { soptsLM with useLdlt := b }) hP hV two_pos hL (by norm_num [soptsLM]) (by norm_num [soptsLM]) (le_refl _) rfl rfl rfl ho ht hf0 (by omega)
    (lmFresh _ P g H) hsz rfl (by norm_num [lmFresh, lmReset, soptsLM]) rfl ?_ ?_ x0 hne (by linarith) ?_ ?_ (by linarith) (by linarith) (by nlinarith) hk hN w
  · intro i h2 hi
    show lamTry _ (1 / 10000) i ≤ _
    rw [hl i (by omega)]
    have : i ≤ 5 := by omega
    interval_cases i <;> first | (exfalso; revert h2; decide) | (norm_num [Fin.ofNat])
  · intro i hi
    show lamTry _ (1 / 10000) i ≤ _
    rw [hl i (by omega)]
    have : i ≤ 6 := by omega
    interval_cases i <;> norm_num [Fin.ofNat]
  · refine hb.imp id fun hb => ?_
    have h3 : (1 / 1000) ^ 2 ≤ x0 0 ^ 2 := by rw [← sq_abs (x0 0)]; exact pow_le_pow_left₀ (by norm_num) hb 2
    refine lt_of_lt_of_le (b := 4 * (1 / 1000) ^ 2) ?_ (by linarith)
    show (1 / 10 ^ 7 : ℝ) < _
    norm_num
  · have hpos : (0 : ℝ) ≤ ((2 - x0 0 ^ 2) / (2 * x0 0)) ^ 2 := sq_nonneg _
    have hle : ((2 - x0 0 ^ 2) / (2 * x0 0)) ^ 2 ≤ 10 ^ 14 := by
      rw [div_pow, div_le_iff₀ (by positivity)]
      nlinarith
    refine lt_of_le_of_lt (pow_le_pow_left₀ hpos hle 2) (lt_of_lt_of_le (by norm_num : ((10 : ℝ) ^ 14) ^ 2 < 2 ^ 100) (pow_le_pow_right₀ (by norm_num) (by norm_num)))

end

/-- the options of the benchmarks, benchmarks/options.h:11-27, with the decimal values written there -/
noncomputable def optsBench (W : Type) : Options ℝ W (DVec ℝ) :=
  { optsDef W with maxIters := 10, minError := 0, minRerrDec := 1 / 10 ^ 12, minStepNorm2 := 1 / 10 ^ 16, maxConsecFailures := 3, saveLast := false }

/-- **C138, the benchmark**: the start of the comment of benchmarks/dense.cpp:45, with its options: four iterations, no step accepted, not converged. -/
theorem C138_benchmark {R W : Type} {LA : LinAlg ℝ} {P : Problem ℝ R W (RVec 1)} (hP : ADScalar P (sqrtExpr 2)) (hV : VecParams P) (hL : ExactLinAlg LA)
    (g : Vec ℝ (P.dims.getD 0)) (H : Mat ℝ (P.dims.getD 0)) (fuel : Nat) (w : W) :
    ∃ st, optimizeAcc (lmEnv { soptsLM with useLdlt := false } LA P) (optsBench W) (fuel + 1) (-1) w (lmFresh { soptsLM with useLdlt := false } P g H) (fun _ => 0.480009157900) = .ok st ∧
      st.trace.length = 4 ∧ (st.x = fun _ => 0.480009157900) ∧ st.out.stop = .kMaxConsecNoDecr ∧ st.out.converged = false :=
  C138_sqrt2 (o := optsBench W) hP hV hL false ⟨by simp [optsBench, optsDef], rfl, rfl⟩ rfl (by show 0 < 3; decide) (by show 3 ≤ 6; decide) (by norm_num [optsBench]) (by norm_num [optsBench])
    (by norm_num [optsBench, optsDef]) g H (fun _ => 0.480009157900) (by norm_num [abs_of_pos]) (Or.inr (by norm_num [abs_of_pos])) (by norm_num [abs_of_pos]) (k := 11) (by rfl) (by show (3 : Int) < 11; decide) w

/-- the hypotheses of C138: a problem, a linear solver, the default options and the ones of the benchmarks -/
example : ADScalar (adProbS (sqrtExpr 2)) (sqrtExpr 2) ∧ VecParams (adProbS (sqrtExpr 2)) ∧ ExactLinAlg someLinAlg ∧ Unwatched (optsDef Unit) ∧ Unwatched (optsBench Unit) ∧
    loopBound (optsDef Unit) (-1) = some 51 ∧ (optsDef Unit).maxConsecFailures = 5 ∧ (optsDef Unit).minStepNorm2 ≤ 1 / 25 := by
  refine ⟨⟨fun w x g0 H0 h => ?_, fun w x h => ⟨(), rfl⟩⟩, ⟨fun _ => rfl, Or.inl rfl, fun x v => by simp [adProbS]⟩, someLinAlg_exact, ⟨by simp [optsDef], rfl, rfl⟩,
    ⟨by simp [optsBench, optsDef], rfl, rfl⟩, by decide, rfl, by norm_num [optsDef]⟩
  obtain ⟨J, g, H, h1, -⟩ := C38_scalar (sqrtExpr 2) x h
  refine ⟨_, g, H, (), h1, ?_⟩
  simp only [adProbS, h1, dif_pos]
  rfl

end Verif
