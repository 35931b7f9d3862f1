import Verif.Model.SolverCalls
import Verif.Lemmas.QuadRun
import Verif.Props.GivesUp
import Mathlib.Analysis.SpecificLimits.Basic
/-!
# C140: the damping of a Levenberg-Marquardt solver that is used directly

A `Build` that keeps the system replaces the damping `prev_lambda_` by `lambda_`. This is right if exactly one of `GoodStep`, `BadStep` was called since the last `Build`.
-/

namespace Verif
open FloatOps Loss

section
variable {R W : Type} {n : Nat} {so : SolverOpts ℝ} {LA : LinAlg ℝ} {P : Problem ℝ R W (Vec ℝ n)}
variable {Ω : Vec ℝ n → Prop} {f : Vec ℝ n → ℝ} {G : Vec ℝ n → Vec ℝ n} {Q : Vec ℝ n → Mat ℝ n} {m : Nat}

theorem build_world (so : SolverOpts ℝ) (w : W) (s : GNState ℝ R) (x : Vec ℝ n) : (buildSystem so P w s x).2.2 = (P.acc.full w x s.n (fun _ => ofInt 0) (fun _ _ => ofInt 0)).2 := by
  unfold buildSystem gnAccumulate
  simp only []
  split
  · split <;> rfl
  · rfl

theorem first_build (h : UserQuad P Ω f G Q m) (hclip : so.gradClip = 0) (w : W) (s : LMState ℝ R) (hn : s.gn.n = n) (b : Vec ℝ n) (hΩ : Ω b) (hmin : DiagOk so (Q b))
    (hx : nCost so m (f b) ≠ maxVal) (hreb : s.rebuild = true) (hl : 0 ≤ s.lambda) :
    ∃ c w', lmBuild so P w s b = (true, { s with gn := ⟨n, G b, dampedR s.lambda (Q b), c⟩ }, w') ∧ c.cost = nCost so m (f b) ∧ c.isValid = true ∧
      w' = (P.acc.full w b s.gn.n (fun _ => ofInt 0) (fun _ _ => ofInt 0)).2 := by
  obtain ⟨c, w', hb, hc, hv⟩ := quad_build h hclip w s.gn hn b hΩ hmin hx
  refine ⟨c, w', ?_, hc, hv, by rw [← build_world so w s.gn b, hb]⟩
  unfold lmBuild
  simp only [hreb, if_true]
  rw [hb]
  simp only [if_true]
  have := lmDamp_ls (R := R) (s := s) hreb hl (g := G b) (H := Q b) (c := c)
  rw [hreb] at this
  rw [this]

/-- a `Build` that keeps the system multiplies the diagonal by `(1 + lambda_) / (1 + prev_lambda_)` -/
theorem kept_build (h : UserQuad P Ω f G Q m) (w : W) (s : LMState ℝ R) (b x : Vec ℝ n) (hΩ : Ω x) (hx : nCost so m (f x) ≠ maxVal) (hreb : s.rebuild = false) (hl : 0 < s.lambda)
    {mu : ℝ} {c0 : Cost ℝ R} (hgn : s.gn = ⟨n, G b, dampedR mu (Q b), c0⟩) :
    ∃ c w', lmBuild so P w s x = (true, { s with gn := ⟨n, G b, dampedR ((1 + s.lambda) / (1 + s.prev) * (1 + mu) - 1) (Q b), c⟩ }, w') ∧
      c.cost = nCost so m (f x) ∧ c.isValid = true ∧ w' = (P.acc.eval w x).2 := by
  rcases hev : P.acc.eval w x with ⟨c, w2⟩
  have hE := h.eval w x hΩ
  rw [hev] at hE
  have hcost : (normalizeCost so c).cost = nCost so m (f x) := by rw [normalizeCost_eq c hE.2, hE.1]
  have hvalid : (normalizeCost so c).isValid = true := by
    have h1 : eq (normalizeCost so c).cost maxVal = false := by rw [RealOps.eq_eq_false, hcost]; exact hx
    have h2 := h.pos
    unfold Cost.isValid ne
    rw [h1, normalizeCost_num, hE.2]
    simpa using h2
  refine ⟨normalizeCost so c, w2, ?_, hcost, hvalid, rfl⟩
  unfold lmBuild lmEvaluate
  simp only [hreb, Bool.false_eq_true, if_false, hev, hvalid, if_true]
  unfold lmDamp
  obtain ⟨gn, la, pr, bf, rb⟩ := s
  simp only at hgn hreb hl ⊢
  subst hgn hreb
  simp only [Bool.false_eq_true, if_false]
  rw [if_pos (by simpa using hl), scale_damped]
  simp

theorem calls_cons {w w' : W} {s s' : LMState ℝ R} {c : LmCall ℝ (Vec ℝ n)} {l : List (LmCall ℝ (Vec ℝ n))} (hc : lmCall so P w s c = .ok (s', w')) :
    lmCalls so P w s (c :: l) = lmCalls so P w' s' l := by
  show (lmCall so P w s c).bind _ = _
  rw [hc]; rfl

theorem call_build {w w' : W} {s s' : LMState ℝ R} {x : Vec ℝ n} {t : Bool} (hc : lmBuild so P w s x = (t, s', w')) : lmCall so P w s (.build x) = .ok (s', w') := by
  show Res.ok (lmBuild so P w s x).2 = _
  rw [hc]

/-- a round of an optimizer: one of the two hooks, then a `Build` that keeps the system -/
def roundCalls (r : Option ℝ × Vec ℝ n) : List (LmCall ℝ (Vec ℝ n)) := [match r.1 with | some q => .good q | none => .bad, .build r.2]

theorem hook_state (hlo : 0 < so.dampLo) (hr0 : so.dampLo ≤ so.dampHi) (w : W) (s : LMState ℝ R) (q : Option ℝ) :
    ∃ s', lmCall so P w s (match q with | some q => .good q | none => .bad) = .ok (s', w) ∧ s'.gn = s.gn ∧ s'.prev = s.lambda ∧ 0 < s'.lambda ∧ s'.rebuild = s.rebuild := by
  cases q with
  | none =>
    refine ⟨{ s with prev := s.lambda, lambda := max so.dampLo (min (s.lambda * s.badF) so.dampHi), badF := s.badF * so.badFactor }, ?_, rfl, rfl, lt_of_lt_of_le hlo (le_max_left _ _), rfl⟩
    show (lmBad so s).map _ = _
    rw [lmBad_real hr0]; rfl
  | some q =>
    refine ⟨{ s with prev := s.lambda, lambda := max so.dampLo (min (s.lambda * goodScale so q s.badF) so.dampHi), badF := so.badFactor }, ?_, rfl, rfl, lt_of_lt_of_le hlo (le_max_left _ _), rfl⟩
    show (lmGood so s q).map _ = _
    unfold lmGood
    rw [stdClamp_real hr0]; rfl

theorem rounds_state (h : UserQuad P Ω f G Q m) (hlo : 0 < so.dampLo) (hr0 : so.dampLo ≤ so.dampHi) (b : Vec ℝ n) :
    ∀ (rounds : List (Option ℝ × Vec ℝ n)) (w : W) (s : LMState ℝ R) (c : Cost ℝ R), (∀ r ∈ rounds, Ω r.2 ∧ nCost so m (f r.2) ≠ maxVal) → s.rebuild = false → 0 < s.lambda →
      s.gn = ⟨n, G b, dampedR s.lambda (Q b), c⟩ → c.isValid = true → ∀ y, c.cost = nCost so m (f y) →
      ∃ s' w' c', lmCalls so P w s (rounds.flatMap roundCalls) = .ok (s', w') ∧ s'.gn = ⟨n, G b, dampedR s'.lambda (Q b), c'⟩ ∧ 0 < s'.lambda ∧ c'.isValid = true ∧
        c'.cost = nCost so m (f ((rounds.map Prod.snd).getLastD y))
  | [], w, s, c, _, _, hl, hg, hv, y, hc => ⟨s, w, c, rfl, hg, hl, hv, hc⟩
  | r :: l, w, s, c, hr, hreb, hl, hg, hv, y, hc => by
    obtain ⟨s1, e1, g1, p1, l1, b1⟩ := hook_state (P := P) hlo hr0 w s r.1
    obtain ⟨c2, w2, e2, k2, v2, u2⟩ := kept_build h w s1 b r.2 (hr r List.mem_cons_self).1 (hr r List.mem_cons_self).2 (b1.trans hreb) l1 (mu := s.lambda) (c0 := c) (g1.trans hg)
    have hmu : (1 + s1.lambda) / (1 + s1.prev) * (1 + s.lambda) - 1 = s1.lambda := by
      rw [p1, div_mul_cancel₀ _ (by linarith)]; ring
    rw [hmu] at e2
    obtain ⟨s3, w3, c3, e3, g3, l3, v3, k3⟩ := rounds_state h hlo hr0 b l w2 { s1 with gn := ⟨n, G b, dampedR s1.lambda (Q b), c2⟩ } c2 (fun r hr' => hr r (List.mem_cons_of_mem _ hr'))
      (b1.trans hreb) l1 rfl v2 r.2 k2
    refine ⟨s3, w3, c3, ?_, g3, l3, v3, ?_⟩
    · rw [List.flatMap_cons]
      exact (calls_cons e1).trans ((calls_cons (call_build e2)).trans e3)
    · rw [k3]
      cases l <;> rfl

/-- **C140, partial**: a solver that builds the system at `b`, is told to keep it, and from then on has exactly one of `GoodStep` and `BadStep` called before every further `Build`, at whatever points: its matrix
is always the one of the user at `b` damped by the current `lambda_`, `Solve` returns the step of this system, and the cost is the one of the last point. Missing: other orders of calls, for which it is wrong
(`C140_repeated`, `C140_two_hooks`). -/
theorem C140_calls_partial (h : UserQuad P Ω f G Q m) (hL : ExactLinAlg LA) (hlo : 0 < so.dampLo) (hr0 : so.dampLo ≤ so.dampHi) (hclip : so.gradClip = 0) (w : W) (s : LMState ℝ R)
    (hn : s.gn.n = n) (hreb : s.rebuild = true) (hl : 0 < s.lambda) (b : Vec ℝ n) (hΩ : Ω b) (hmin : DiagOk so (Q b)) (hb : nCost so m (f b) ≠ maxVal)
    (hpd : ∀ l, 0 < l → PD (dampedR l (Q b))) (hone : so.useLdlt = true ∨ P.dims ≠ some 1)
    (rounds : List (Option ℝ × Vec ℝ n)) (hr : ∀ r ∈ rounds, Ω r.2 ∧ nCost so m (f r.2) ≠ maxVal) :
    ∃ s' w' d, lmCalls so P w s (.build b :: .rebuild false :: rounds.flatMap roundCalls) = .ok (s', w') ∧ s'.gn.H ≍ dampedR s'.lambda (Q b) ∧
      (lmSolver so LA P).solve s' = some ⟨n, d⟩ ∧ mv (dampedR s'.lambda (Q b)) d = -G b ∧ s'.gn.cost.cost = nCost so m (f ((rounds.map Prod.snd).getLastD b)) := by
  obtain ⟨c1, w1, e1, k1, v1, u1⟩ := first_build h hclip w s hn b hΩ hmin hb hreb hl.le
  obtain ⟨s', w', c', e2, g2, l2, v2, k2⟩ := rounds_state h hlo hr0 b rounds w1 { s with gn := ⟨n, G b, dampedR s.lambda (Q b), c1⟩, rebuild := false } c1 hr rfl hl rfl v1 b k1
  obtain ⟨d, h1, h2⟩ := gnSolve_pd (so := so) hL (P.dims == some 1) ⟨n, G b, dampedR s'.lambda (Q b), c'⟩ v2 (hpd _ l2) (by
    rcases hone with h1 | h1
    · exact Or.inl h1
    · right; left
      rw [beq_eq_false_iff_ne]; exact h1)
  refine ⟨s', w', d, ?_, by rw [g2], ?_, h2, by rw [g2]; exact k2⟩
  · exact (calls_cons (call_build e1)).trans ((calls_cons rfl).trans e2)
  · show gnSolve so LA _ s'.gn = _
    rw [g2]; exact h1

theorem builds_state (h : UserQuad P Ω f G Q m) (b : Vec ℝ n) :
    ∀ (xs : List (Vec ℝ n)) (w : W) (s : LMState ℝ R) (c : Cost ℝ R) (mu : ℝ), (∀ x ∈ xs, Ω x ∧ nCost so m (f x) ≠ maxVal) → s.rebuild = false → 0 < s.lambda → s.prev = 0 →
      s.gn = ⟨n, G b, dampedR mu (Q b), c⟩ → c.isValid = true →
      ∃ w' c', lmCalls so P w s (xs.map .build) = .ok ({ s with gn := ⟨n, G b, dampedR ((1 + s.lambda) ^ xs.length * (1 + mu) - 1) (Q b), c'⟩ }, w') ∧ c'.isValid = true ∧
        ((∀ w x, (P.acc.eval w x).2 = w) → w' = w)
  | [], w, s, c, mu, _, _, _, _, hg, hv => ⟨w, c, by simp [lmCalls, ← hg], hv, fun _ => rfl⟩
  | x :: l, w, s, c, mu, hx, hreb, hl, hp, hg, hv => by
    obtain ⟨c2, w2, e2, k2, v2, u2⟩ := kept_build h w s b x (hx x List.mem_cons_self).1 (hx x List.mem_cons_self).2 hreb hl hg
    obtain ⟨w3, c3, e3, v3, u3⟩ := builds_state h b l w2 { s with gn := ⟨n, G b, dampedR ((1 + s.lambda) / (1 + s.prev) * (1 + mu) - 1) (Q b), c2⟩ } c2 _
      (fun x hx' => hx x (List.mem_cons_of_mem _ hx')) hreb hl hp rfl v2
    refine ⟨w3, c3, ?_, v3, fun hw => (u3 hw).trans (u2.trans (hw w x))⟩
    refine (calls_cons (call_build e2)).trans (e3.trans ?_)
    have : (1 + s.lambda) ^ l.length * (1 + ((1 + s.lambda) / (1 + s.prev) * (1 + mu) - 1)) - 1 = (1 + s.lambda) ^ (x :: l).length * (1 + mu) - 1 := by
      rw [hp, List.length_cons, pow_succ]; ring
    simp only [this]

/-- **C140 is violated (repeated `Build`s)**: a new or reset solver (`prev_lambda_ = 0`) that builds the system at `b`, is told to keep it and then builds `k` times more damps the diagonal `k + 1` times, by
`(1 + lambda_) ^ (k + 1)` in all, though `lambda_` has not changed. -/
theorem C140_repeated (h : UserQuad P Ω f G Q m) (hclip : so.gradClip = 0) (w : W) (s : LMState ℝ R)
    (hn : s.gn.n = n) (hreb : s.rebuild = true) (hl : 0 < s.lambda) (hp : s.prev = 0) (b : Vec ℝ n) (hΩ : Ω b) (hmin : DiagOk so (Q b)) (hb : nCost so m (f b) ≠ maxVal)
    (xs : List (Vec ℝ n)) (hx : ∀ x ∈ xs, Ω x ∧ nCost so m (f x) ≠ maxVal) :
    ∃ s' w' c, lmCalls so P w s (.build b :: .rebuild false :: xs.map .build) = .ok (s', w') ∧ s'.lambda = s.lambda ∧ c.isValid = true ∧
      s'.gn = ⟨n, G b, fun i j => if i = j then (1 + s.lambda) ^ (xs.length + 1) * Q b i i else Q b i j, c⟩ ∧
      ((∀ w x, (P.acc.eval w x).2 = w) → w' = (P.acc.full w b n (fun _ => 0) (fun _ _ => 0)).2) := by
  obtain ⟨c1, w1, e1, k1, v1, u1⟩ := first_build h hclip w s hn b hΩ hmin hb hreb hl.le
  obtain ⟨w', c', e2, v2, u2⟩ := builds_state h b xs w1 { s with gn := ⟨n, G b, dampedR s.lambda (Q b), c1⟩, rebuild := false } c1 s.lambda hx rfl hl hp rfl v1
  refine ⟨_, w', c', (calls_cons (call_build e1)).trans ((calls_cons rfl).trans e2), rfl, v2, ?_, fun hw => ?_⟩
  · refine congrArg (fun H => (⟨n, G b, H, c'⟩ : GNState ℝ R)) ?_
    funext i j
    unfold dampedR
    by_cases hij : i = j
    · subst hij
      rw [if_pos rfl, if_pos rfl]
      show Q b i i + ((1 + s.lambda) ^ xs.length * (1 + s.lambda) - 1) * Q b i i = _
      rw [pow_succ]; ring
    · rw [if_neg hij, if_neg hij, add_zero]
  · rw [u2 hw, u1, hn]
    simp

/-- **C140 is violated (two hooks)**: if `BadStep` is called twice before the next `Build` that keeps the system, the diagonal is damped by `(1 + l0) (1 + l2) / (1 + l1)`, where `l0`, `l1`, `l2` are the
dampings before, between and after the two calls. This is not `1 + l2` unless `l1 = l0`. -/
theorem C140_two_hooks (h : UserQuad P Ω f G Q m) (hlo : 0 < so.dampLo) (hr0 : so.dampLo ≤ so.dampHi) (hclip : so.gradClip = 0) (w : W) (s : LMState ℝ R)
    (hn : s.gn.n = n) (hreb : s.rebuild = true) (hl : 0 < s.lambda) (b x : Vec ℝ n) (hΩ : Ω b) (hmin : DiagOk so (Q b)) (hb : nCost so m (f b) ≠ maxVal) (hΩx : Ω x) (hx : nCost so m (f x) ≠ maxVal)
    (hchg : s.lambda ≠ max so.dampLo (min (s.lambda * s.badF) so.dampHi)) :
    ∃ s' w' c H, lmCalls so P w s [.build b, .rebuild false, .bad, .bad, .build x] = .ok (s', w') ∧ s'.gn = ⟨n, G b, H, c⟩ ∧ ∀ i, Q b i i ≠ 0 → H i i ≠ (1 + s'.lambda) * Q b i i := by
  obtain ⟨c1, w1, e1, k1, v1, u1⟩ := first_build h hclip w s hn b hΩ hmin hb hreb hl.le
  obtain ⟨s2, hs2⟩ : ∃ s2 : LMState ℝ R, s2 = ⟨⟨n, G b, dampedR s.lambda (Q b), c1⟩, max so.dampLo (min (s.lambda * s.badF) so.dampHi), s.lambda, s.badF * so.badFactor, false⟩ := ⟨_, rfl⟩
  have e2 : lmCall so P w1 { s with gn := ⟨n, G b, dampedR s.lambda (Q b), c1⟩, rebuild := false } .bad = .ok (s2, w1) := by
    show (lmBad so _).map _ = _
    rw [lmBad_real hr0, hs2]; rfl
  obtain ⟨s3, e3, g3, p3, l3, b3⟩ := hook_state (P := P) hlo hr0 w1 s2 none
  obtain ⟨c4, w4, e4, k4, v4, u4⟩ := kept_build h w1 s3 b x hΩx hx (b3.trans (by rw [hs2])) l3 (mu := s.lambda) (c0 := c1) (g3.trans (by rw [hs2]))
  refine ⟨_, w4, c4, _, (calls_cons (call_build e1)).trans ((calls_cons rfl).trans ((calls_cons e2).trans ((calls_cons e3).trans (calls_cons (call_build e4))))), rfl, fun i hi hc => ?_⟩
  have hp : s3.prev = max so.dampLo (min (s.lambda * s.badF) so.dampHi) := by rw [p3, hs2]
  rw [← hp] at hchg
  have hp0 : 0 < s3.prev := by rw [hp]; exact lt_of_lt_of_le hlo (le_max_left _ _)
  simp only [dampedR, if_true] at hc
  have h1 : (1 + s3.lambda) / (1 + s3.prev) * (1 + s.lambda) * Q b i i = (1 + s3.lambda) * Q b i i := by linarith
  have h2 := mul_right_cancel₀ hi h1
  rw [div_mul_eq_mul_div, div_eq_iff (by linarith)] at h2
  have h3 := mul_left_cancel₀ (by linarith : (1 + s3.lambda) ≠ 0) h2
  exact hchg (by linarith)

end

/-- the parameters of the test -/
noncomputable def skipTest (y : Vec ℝ 2) : Problem ℝ ℝ Nat (Vec ℝ 2) := skipProb y 1 fun x v => if h : v.n = 2 then x + h ▸ v.v else x

theorem skip_quad (y : Vec ℝ 2) : UserQuad (skipTest y) (fun _ => True) (fun x => (x 0 - y 0) * (x 0 - y 0) + (x 1 - y 1) * (x 1 - y 1)) (fun x => x - y) (fun _ i j => if i = j then 1 else 0) 2 where
  dyn _ := rfl
  size := Or.inl rfl
  plus x v := by simp [skipTest, skipProb]
  pos := two_pos
  psd x _ := by
    refine ⟨fun i j => by simp [eq_comm], fun v => Finset.sum_nonneg fun i _ => ?_⟩
    simp only [mv, ite_mul, one_mul, zero_mul, Finset.sum_ite_eq, Finset.mem_univ, if_true]
    exact mul_self_nonneg _
  full w x _ := by
    refine ⟨_, w + 1, Prod.ext (Prod.ext rfl (Prod.ext ?_ ?_)) rfl, ?_, rfl⟩
    · funext i
      simp only [skipTest, skipProb]
      rw [dif_pos i.isLt]; rfl
    · funext i j
      simp [skipTest, skipProb, Fin.ext_iff]
    · simp [skipTest, skipProb]
  eval w x _ := ⟨by simp [skipTest, skipProb], rfl⟩

/-- **C140, the test** of tests/solvers.cpp:74-110 with any target, start and initial damping, and `k` calls of `Build` after `Rebuild(false)` instead of one: the derivatives are computed once, and `Solve` returns
the step to the target divided by `(1 + lambda_) ^ (k + 1)`. -/
theorem C140_test {so : SolverOpts ℝ} {LA : LinAlg ℝ} (hL : ExactLinAlg LA) (hclip : so.gradClip = 0) (hdiag : so.checkMinHDiag ≤ 1) (y x : Vec ℝ 2) (hl : 0 < so.dampInit)
    (hx : nCost so 2 ((x 0 - y 0) * (x 0 - y 0) + (x 1 - y 1) * (x 1 - y 1)) ≠ maxVal) (g : Vec ℝ 2) (H : Mat ℝ 2) (k : Nat) :
    ∃ s', lmCalls so (skipTest y) 0 (lmFresh so (skipTest y) g H) (.build x :: .rebuild false :: List.replicate k (.build x)) = .ok (s', 1) ∧
      (lmSolver so LA (skipTest y)).solve s' = some ⟨2, (1 / (1 + so.dampInit) ^ (k + 1)) • (y - x)⟩ := by
  obtain ⟨s', w', c, e, -, v, hg, hw⟩ := C140_repeated (so := so) (skip_quad y) hclip 0 (lmFresh so (skipTest y) g H) rfl rfl hl (by simp [lmFresh, lmReset]) x trivial
    (Or.inr fun i => by simpa using hdiag) hx (List.replicate k x) (fun z hz => by rw [List.eq_of_mem_replicate hz]; exact ⟨trivial, hx⟩)
  have hw' : w' = 1 := hw fun _ _ => rfl
  have hf : (0 : ℝ) < (1 + so.dampInit) ^ (k + 1) := by positivity
  rw [List.map_replicate] at e
  refine ⟨s', hw' ▸ e, ?_⟩
  have hmv : ∀ d : Vec ℝ 2, mv (fun i j : Fin 2 => if i = j then (1 + so.dampInit) ^ (k + 1) * 1 else 0) d = (1 + so.dampInit) ^ (k + 1) • d := by
    intro d
    funext i
    simp [mv]
  have hM : (fun i j : Fin 2 => if i = j then (1 + (lmFresh so (skipTest y) g H : LMState ℝ ℝ).lambda) ^ ((List.replicate k x).length + 1) * (if i = i then (1 : ℝ) else 0) else if i = j then 1 else 0) =
      fun i j => if i = j then (1 + so.dampInit) ^ (k + 1) * 1 else 0 := by
    funext i j
    rw [List.length_replicate]
    by_cases hij : i = j
    · rw [if_pos hij, if_pos hij, if_pos rfl]; rfl
    · rw [if_neg hij, if_neg hij, if_neg hij]
  obtain ⟨gn, la, pr, bf, rb⟩ := s'
  have hg : gn = ⟨2, x - y, fun i j => if i = j then (1 + so.dampInit) ^ (k + 1) * 1 else 0, c⟩ := Eq.trans hg (congrArg (fun M => (⟨2, x - y, M, c⟩ : GNState ℝ ℝ)) hM)
  subst hg
  obtain ⟨d, h1, h2⟩ := gnSolve_pd (so := so) hL false (⟨2, x - y, fun i j : Fin 2 => if i = j then (1 + so.dampInit) ^ (k + 1) * 1 else 0, c⟩ : GNState ℝ ℝ) v (by
      refine ⟨fun i j => by simp [eq_comm], fun d hd => ?_⟩
      show 0 < dotR d (mv (fun i j : Fin 2 => if i = j then (1 + so.dampInit) ^ (k + 1) * 1 else 0) d)
      rw [hmv, dotR_smul]
      exact mul_pos hf (lt_of_le_of_ne (dotR_self_nonneg _) fun h0 => hd (dotR_self_eq_zero h0.symm))) (Or.inr (Or.inl rfl))
  have h3 : (1 + so.dampInit) ^ (k + 1) • d = -(x - y) := (hmv d).symm.trans h2
  have h4 : d = (1 / (1 + so.dampInit) ^ (k + 1)) • (y - x) := by
    rw [← neg_sub x y, ← h3, smul_smul, one_div, inv_mul_cancel₀ hf.ne', one_smul]
  rw [← h4]
  exact h1

/-- **C140 is violated (the test, more calls)**: with a target that differs from the start, one more `Build` already changes the step, and with enough of them every component of the step that `Solve` returns is
as small as one likes, though the system and `lambda_` stay the same. -/
theorem C140_vanishes {so : SolverOpts ℝ} {LA : LinAlg ℝ} (hL : ExactLinAlg LA) (hclip : so.gradClip = 0) (hdiag : so.checkMinHDiag ≤ 1) (y x : Vec ℝ 2) (hyx : y ≠ x) (hl : 0 < so.dampInit)
    (hx : nCost so 2 ((x 0 - y 0) * (x 0 - y 0) + (x 1 - y 1) * (x 1 - y 1)) ≠ maxVal) (g : Vec ℝ 2) (H : Mat ℝ 2) :
    ∃ d : Nat → Vec ℝ 2, (∀ k, ∃ s', lmCalls so (skipTest y) 0 (lmFresh so (skipTest y) g H) (.build x :: .rebuild false :: List.replicate k (.build x)) = .ok (s', 1) ∧
        (lmSolver so LA (skipTest y)).solve s' = some ⟨2, d k⟩) ∧ (∀ k, 0 < k → d k ≠ d 0) ∧ ∀ ε > 0, ∃ K, ∀ k ≥ K, ∀ i, |d k i| < ε := by
  have h0 : 0 < 1 + so.dampInit := by linarith
  refine ⟨fun k => (1 / (1 + so.dampInit) ^ (k + 1)) • (y - x), C140_test hL hclip hdiag y x hl hx g H, fun k hk hc => ?_, fun ε hε => ?_⟩
  · have h1 := smul_left_injective ℝ (sub_ne_zero.2 hyx) hc
    simp only [zero_add, pow_one, one_div] at h1
    have h2 := inv_injective h1
    have h3 : (1 + so.dampInit) ^ 1 < (1 + so.dampInit) ^ (k + 1) := pow_lt_pow_right₀ (by linarith) (by omega)
    rw [h2, pow_one] at h3
    exact lt_irrefl _ h3
  · have h1 : Filter.Tendsto (fun k : Nat => (1 / (1 + so.dampInit)) ^ (k + 1) * (|y 0 - x 0| + |y 1 - x 1|)) Filter.atTop (nhds 0) := by
      have := ((tendsto_pow_atTop_nhds_zero_of_lt_one (by positivity) ((div_lt_one h0).2 (by linarith) : 1 / (1 + so.dampInit) < 1)).comp (Filter.tendsto_add_atTop_nat 1)).mul_const
        (|y 0 - x 0| + |y 1 - x 1|)
      rw [zero_mul] at this
      exact this
    obtain ⟨K, hK⟩ := Filter.eventually_atTop.1 (h1.eventually (gt_mem_nhds hε))
    refine ⟨K, fun k hk i => lt_of_le_of_lt ?_ (hK k hk)⟩
    show |(1 / (1 + so.dampInit) ^ (k + 1)) * (y - x) i| ≤ _
    rw [abs_mul, abs_of_pos (by positivity), one_div_pow]
    refine mul_le_mul_of_nonneg_left ?_ (by positivity)
    have a0 := abs_nonneg (y 0 - x 0)
    have a1 := abs_nonneg (y 1 - x 1)
    fin_cases i <;> simp

/-- the numbers of the test: target `(4, 5)`, start `0`, default options; with `k = 1` the margin of the test hides the error -/
example (k : Nat) (g : Vec ℝ 2) (H : Mat ℝ 2) : ∃ s', lmCalls soptsLM (skipTest ![4, 5]) 0 (lmFresh soptsLM (skipTest ![4, 5]) g H) (.build 0 :: .rebuild false :: List.replicate k (.build 0)) = .ok (s', 1) ∧
    (lmSolver soptsLM someLinAlg (skipTest ![4, 5])).solve s' = some ⟨2, (1 / (1 + soptsLM.dampInit) ^ (k + 1)) • (![4, 5] - 0)⟩ :=
  C140_test someLinAlg_exact (by norm_num [soptsLM, soptsR]) (by norm_num [soptsLM, soptsR]) _ _ (by norm_num [soptsLM]) (by
    refine ne_of_lt ?_
    have : (41 : ℝ) < maxVal := lt_of_lt_of_le (by norm_num : (41 : ℝ) < 2 ^ 10) (pow_le_pow_right₀ (by norm_num) (by norm_num))
    norm_num [nCost, normalizeCost, soptsLM, soptsR]
    exact this) g H k

/-- the hypotheses of C140_calls_partial and C140_two_hooks at the test: rounds of a bad and a good step, a changed damping -/
example (g : Vec ℝ 2) (H : Mat ℝ 2) : (∀ l, 0 < l → PD (dampedR l fun i j : Fin 2 => if i = j then (1 : ℝ) else 0)) ∧ (skipTest ![4, 5]).dims ≠ some 1 ∧
    (lmFresh soptsLM (skipTest ![4, 5]) g H : LMState ℝ ℝ).lambda ≠ max soptsLM.dampLo (min ((lmFresh soptsLM (skipTest ![4, 5]) g H : LMState ℝ ℝ).lambda * (lmFresh soptsLM (skipTest ![4, 5]) g H : LMState ℝ ℝ).badF) soptsLM.dampHi) := by
  refine ⟨fun l hl => ⟨fun i j => ?_, fun d hd => ?_⟩, by simp [skipTest, skipProb], ?_⟩
  · by_cases hij : i = j
    · rw [hij]
    · simp [dampedR, hij, Ne.symm hij]
  · have : mv (dampedR l fun i j : Fin 2 => if i = j then (1 : ℝ) else 0) d = (1 + l) • d := by
      funext i
      simp [mv, dampedR, add_mul, Finset.sum_add_distrib]
    rw [this, dotR_smul]
    exact mul_pos (by linarith) (lt_of_le_of_ne (dotR_self_nonneg _) fun h0 => hd (dotR_self_eq_zero h0.symm))
  · norm_num [lmFresh, lmReset, soptsLM, soptsR]

end Verif
