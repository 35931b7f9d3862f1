import Verif.Props.Recover
import Verif.Lemmas.QuadRun
/-!
# C95: damping and the length of the steps; the step after a rejected one
-/

set_option linter.unusedSectionVars false

namespace Verif
open FloatOps Loss

/-! ### more damping gives shorter steps -/

section
variable {n : Nat} {H : Mat ℝ n} {g d e v : Vec ℝ n} {l μ : ℝ}

theorem damped_diag_pos (h : PD (dampedR l H)) (hl : 0 ≤ l) (i : Fin n) : 0 < H i i := by
  have h1 := pd_diag h i
  simp only [dampedR, if_true] at h1
  by_contra h2
  nlinarith

/-- the quadratic model `2 g^T v + v^T H v` of the change of the squared cost -/
def model (H : Mat ℝ n) (g v : Vec ℝ n) : ℝ := 2 * dotR g v + dotR v (mv H v)

/-- the damped step minimises the model with a penalty on its length -/
theorem penalised (hpd : PD (dampedR l H)) (hd : mv (dampedR l H) d = -g) (hv : v ≠ d) :
    model H g d + l * diagSq H d < model H g v + l * diagSq H v := by
  have key : ∀ u, model H g u + l * diagSq H u = 2 * dotR g u + dotR u (mv (dampedR l H) u) := by
    intro u
    rw [damped_quad]
    unfold model
    ring
  rw [key, key]
  have h1 := hpd.2 (v - d) (sub_ne_zero.2 hv)
  have h2 : mv (dampedR l H) (v - d) = mv (dampedR l H) v + g := by rw [mv_sub, hd]; simp
  have h3 : dotR d (mv (dampedR l H) v) = -dotR g v := by rw [sym_dot hpd.1, hd, dotR_neg, dotR_comm]
  rw [h2, dotR_comm, dotR_sub, add_dotR, add_dotR, dotR_comm _ v, dotR_comm _ d, h3] at h1
  rw [hd, dotR_neg, dotR_comm d g]
  linarith

/-- **C95**: the Levenberg-Marquardt step is the best step within its length: it minimises the quadratic model of the cost
among all steps that are not longer (measured with the diagonal of the Hessian). -/
theorem C95_best (hl : 0 ≤ l) (hpd : PD (dampedR l H)) (hd : mv (dampedR l H) d = -g) (hv : diagSq H v ≤ diagSq H d) (hne : v ≠ d) :
    model H g d < model H g v := by
  have := penalised hpd hd hne
  nlinarith

/-- **C95**: more damping gives shorter steps, and less decrease of the model. -/
theorem C95_shorter (hl : 0 ≤ l) (hlm : l < μ) (hpd : PD (dampedR l H)) (hpm : PD (dampedR μ H)) (hg : g ≠ 0)
    (hd : mv (dampedR l H) d = -g) (he : mv (dampedR μ H) e = -g) :
    0 < diagSq H e ∧ diagSq H e < diagSq H d ∧ model H g d < model H g e ∧ model H g e < 0 := by
  have hne : ∀ {l d}, mv (dampedR l H) d = -g → d ≠ 0 := by
    rintro l d hd rfl
    rw [mv_zero] at hd
    exact hg (neg_eq_zero.1 hd.symm)
  have hed : e ≠ d := by
    rintro rfl
    have h1 : dotR e (mv (dampedR l H) e) = dotR e (mv (dampedR μ H) e) := by rw [hd, he]
    rw [damped_quad, damped_quad] at h1
    have h2 := diagSq_pos (damped_diag_pos hpd hl) (hne hd)
    nlinarith
  have h1 := penalised hpd hd hed
  have h2 := penalised hpm he hed.symm
  have h3 : diagSq H e < diagSq H d := by nlinarith
  refine ⟨diagSq_pos (damped_diag_pos hpd hl) (hne he), h3, by nlinarith, ?_⟩
  have h4 := penalised hpm he (v := 0) (hne he).symm
  have h5 : model H g 0 = 0 := by simp [model, dotR, mv]
  have h6 : diagSq H 0 = 0 := by simp [diagSq]
  rw [h5, h6] at h4
  have h7 := diagSq_pos (damped_diag_pos hpd hl) (hne he)
  nlinarith

end

/-! ### one iteration from a system built at the current point -/

section
variable {F R W S X V M : Type} [FloatOps F]
variable {E : Env F R W S X V M} {o : Options F W V}

/-- Result of `Step` that judged the cost of the state `s2`, in which `dx` was solved. -/
structure JudgedBy (E : Env F R W S X V M) (o : Options F W V) (out : Output F R M) (s2 : S) (dx : V) (p : Bool × Option V) (s' : S)
    (out' : Output F R M) : Prop where
  dx : p.2 = some dx ∨ p.2 = none ∧ out'.stop ≠ .kNone
  succ : p.1 = lt (sub (E.sol.cost s2).cost out.finalCost.cost) (ofInt 0)
  good : out.numIters > 0 → p.1 = true → ∃ q, (o.useStepQuality = false → q = ofInt 0) ∧ E.sol.goodStep s2 q = .ok s'
  bad : out.numIters > 0 → p.1 = false → E.sol.badStep s2 = .ok s'
  first : out.numIters = 0 → s' = s2

theorem step_judged {w : W} {s : S} {x : X} {s2 : S} {dx : V} (h : Delivers E w s x s2 dx) {fuel : Nat} {out : Output F R M}
    {p w' s' out'} (hh : step E o (fuel + 1) w s x out = .ok (p, w', s', out')) :
    (p = (false, none) ∧ out'.stop ≠ .kNone) ∨ JudgedBy E o out s2 dx p s' out' := by
  obtain ⟨s1, w1, w2, hr, hb⟩ := h.built
  unfold step at hh
  rw [hr] at hh
  simp only at hh
  by_cases hc : out.numConsec ≤ maxTries o
  · have hre : retry E o x (fuel + 1) w1 s1 out = .ok (.got dx (E.sol.cost s2), w2, s2, out) := by
      unfold retry
      rw [if_pos hc, hb]
      simp [h.solved]
    rw [hre, Res.bind_ok] at hh
    simp only at hh
    unfold afterSolve at hh
    simp only [not_bad_of_finite h.cost, not_bad_of_finite h.norm, Bool.false_eq_true, if_false] at hh
    right
    split at hh
    next hg =>
      rw [Res.bind_eq_ok] at hh
      obtain ⟨s3, h1, hh⟩ := hh
      injection hh with hh; obtain ⟨rfl, -, rfl, rfl⟩ := hh
      refine ⟨Or.inl rfl, rfl, fun hit _ => ?_, fun hit hs => ?_, fun hit => ?_⟩
      · rw [if_pos hit] at h1
        exact ⟨_, fun ho => by simp [ho], h1⟩
      · simp only at hs
        rw [hs, Bool.false_or] at hg
        simp at hg; omega
      · rw [if_neg (by omega)] at h1; injection h1 with h1; exact h1.symm
    next hg =>
      have hit : out.numIters > 0 := by
        rw [Bool.or_eq_true] at hg
        refine Nat.pos_of_ne_zero fun h0 => hg (Or.inr (by simp [h0]))
      have hgood : lt (sub (E.sol.cost s2).cost out.finalCost.cost) (ofInt 0) = false := by
        rw [Bool.or_eq_true, not_or] at hg; exact Bool.not_eq_true _ ▸ hg.1
      rw [Res.bind_eq_ok] at hh
      obtain ⟨s3, h1, hh⟩ := hh
      split at hh
      · injection hh with hh; obtain ⟨rfl, -, rfl, rfl⟩ := hh
        exact ⟨Or.inr ⟨rfl, by simp⟩, hgood.symm, fun _ h => (nomatch h), fun _ _ => h1, fun h => absurd h (by omega)⟩
      · split at hh
        · injection hh with hh; obtain ⟨rfl, -, rfl, rfl⟩ := hh
          exact ⟨Or.inr ⟨rfl, by simp⟩, hgood.symm, fun _ h => (nomatch h), fun _ _ => h1, fun h => absurd h (by omega)⟩
        · injection hh with hh; obtain ⟨rfl, -, rfl, rfl⟩ := hh
          exact ⟨Or.inl rfl, rfl, fun _ h => (nomatch hgood.symm.trans h), fun _ _ => h1, fun h => absurd h (by omega)⟩
  · have hre : retry E o x (fuel + 1) w1 s1 out = .ok (.failed, w1, s1, out) := by
      unfold retry
      rw [if_neg hc]
    rw [hre, Res.bind_ok] at hh
    injection hh with hh; obtain ⟨rfl, -, rfl, rfl⟩ := hh
    exact Or.inl ⟨rfl, by simp⟩

theorem upd_succ {x x' : X} {ld ld' : Option V} {ls : Bool} {dx : V} (h : UpdSpec E x ld true (some dx) x' ld' ls) :
    x' = E.plusEq x dx ∧ ld' = some dx := by
  cases h; exact ⟨rfl, rfl⟩

theorem upd_roll {x x' : X} {ld' mdx : Option V} {ls : Bool} {d : V} (h : UpdSpec E x (some d) false mdx x' ld' ls) :
    x' = E.plusEq x (E.negV d) := by
  cases h with
  | roll d mdx hd => injection hd with hd; rw [hd]
  | adv dx hd => cases hd
  | stay hd => cases hd

theorem concat_pair {α : Type} {l pre : List α} {r a b : α} (e : l ++ [r] = pre ++ [a, b]) : l = pre ++ [a] ∧ r = b := by
  have e' : l ++ [r] = (pre ++ [a]) ++ [b] := by rw [e]; simp
  obtain ⟨h1, h2⟩ := List.append_inj' e' rfl
  simp only [List.cons.injEq, and_true] at h2
  exact ⟨h1, h2⟩

/-- induction over the iterations, with the number of those that are left -/
theorem loop_count {I : Nat → LoopSt F R W S X V M → Prop} {J : LoopSt F R W S X V M → Prop} {fuel : Nat}
    (hI : ∀ n st st', st.out.stop = .kNone → I (n + 1) st → J st → body E o fuel (n == 0) st = .ok st' →
      (st'.out.stop = .kNone → I n st') ∧ J st') :
    ∀ {n : Nat} {st st' : LoopSt F R W S X V M}, st.out.stop = .kNone → I n st → J st → loop E o fuel n st = .ok st' → J st' := by
  intro n
  induction n with
  | zero => intro st st' _ _ hj h; injection h with h; subst h; exact hj
  | succ n ih =>
    intro st st' h0 h1 h2 h
    unfold loop at h
    rw [Res.bind_eq_ok] at h
    obtain ⟨st1, hb, h⟩ := h
    obtain ⟨a, b⟩ := hI n st st1 h0 h1 h2 hb
    split at h
    · injection h with h; subst h; exact b
    next hn =>
      have hn' : st1.out.stop = .kNone := by simpa using hn
      exact ih hn' (a hn') b h

end

/-! ### the step after a rejected one -/

section
variable {R W : Type} {m n : Nat}
variable {so : SolverOpts ℝ} {LA : LinAlg ℝ} {P : Problem ℝ R W (Vec ℝ n)} {o : Options ℝ W (DVec ℝ)}
variable {f : Vec ℝ n → ℝ} {G : Vec ℝ n → Vec ℝ n} {Q : Vec ℝ n → Mat ℝ n}

/-- the iteration before was accepted, or there was none -/
def LastAccepted (pre : List (Rec ℝ R (Vec ℝ n) (DVec ℝ) (DMat ℝ))) : Prop := ∀ p, pre.getLast? = some p → p.succ = true

/-- the damping, kept in its range -/
noncomputable def inRange (so : SolverOpts ℝ) (l : ℝ) : ℝ := max so.dampLo (min l so.dampHi)

open Classical in
/-- The damping with which a point is tried again: `l` is the one of the rejected step. In the first iteration it is not lowered. -/
noncomputable def retryDamping (so : SolverOpts ℝ) (first : Prop) (l : ℝ) : ℝ :=
  inRange so ((if first then l else inRange so (l * so.goodFactor)) * so.badFactor)

/-- `v` is the step from `x` with damping `l` -/
def IsStep (G : Vec ℝ n → Vec ℝ n) (Q : Vec ℝ n → Mat ℝ n) (x : Vec ℝ n) (l : ℝ) (v : Vec ℝ n) : Prop := mv (dampedR l (Q x)) v = -G x

/-- the point of `a` was left with a step that was rejected (by the iteration after `a`) and `c` tries another one -/
def TriedAgain (so : SolverOpts ℝ) (G : Vec ℝ n → Vec ℝ n) (Q : Vec ℝ n → Mat ℝ n) (first : Prop)
    (a c : Rec ℝ R (Vec ℝ n) (DVec ℝ) (DMat ℝ)) : Prop :=
  ∃ l v v', Allowed so l ∧ a.dx = some ⟨n, v⟩ ∧ c.dx = some ⟨n, v'⟩ ∧ c.x = a.x ∧ IsStep G Q a.x l v ∧
    IsStep G Q a.x (retryDamping so first l) v'

/-- what is known between two iterations, `k` are left -/
structure RetryInv (so : SolverOpts ℝ) (P : Problem ℝ R W (Vec ℝ n)) (G : Vec ℝ n → Vec ℝ n) (Q : Vec ℝ n → Mat ℝ n) (K k : Nat)
    (st : LoopSt ℝ R W (LMState ℝ R) (Vec ℝ n) (DVec ℝ) (DMat ℝ)) : Prop where
  size : P.dims = none ∨ st.s.gn.n = n
  allowed : Allowed so st.s.lambda
  left : st.trace.length + k = K
  iters : 0 < k → st.out.numIters = st.trace.length
  last : st.lastSucc = true ↔ LastAccepted st.trace
  fresh : LastAccepted st.trace → 0 < k → st.s.rebuild = true ∧ st.s.badF = so.badFactor
  one : ∀ pre a, st.trace = pre ++ [a] → LastAccepted pre → a.succ = true → ∃ l v, Allowed so l ∧ a.dx = some ⟨n, v⟩ ∧ IsStep G Q a.x l v ∧
    st.x = a.x + v ∧ st.lastDx = some ⟨n, v⟩ ∧ st.s.lambda = (if pre = [] then l else inRange so (l * so.goodFactor))
  two : ∀ pre a b, st.trace = pre ++ [a, b] → LastAccepted pre → a.succ = true → b.succ = false → ∃ l v, Allowed so l ∧ a.dx = some ⟨n, v⟩ ∧
    IsStep G Q a.x l v ∧ st.x = a.x ∧ st.s.lambda = retryDamping so (pre = []) l ∧ st.s.rebuild = true

theorem lm_size_inv (h : UserQuad P (fun _ => True) f G Q m) (hr0 : so.dampLo ≤ so.dampHi) :
    StepInv (lmEnv so LA P) (fun _ => True) (fun s => (P.dims = none ∨ s.gn.n = n) ∧ Allowed so s.lambda)
      (fun s => s.gn.n = n ∧ Allowed so s.lambda) (fun _ s => s.gn.n = n ∧ Allowed so s.lambda)
      (fun _ s => s.gn.n = n ∧ Allowed so s.lambda) (fun _ s => s.gn.n = n ∧ Allowed so s.lambda) where
  resize := fun w s x s' w' _ _ ⟨h1, h2⟩ e => by
    obtain ⟨g, hg, rfl⟩ := lmResize_spec e
    obtain ⟨g', w1, hr, hn1, -⟩ := resize_works h.toVecParams w s.gn h1
    have hd : (lmEnv so LA P).dynDims x = n := h.dyn x
    rw [hd, hr] at hg
    injection (Prod.mk.inj hg).1 with hg
    subst hg
    exact ⟨hn1, h2⟩
  build := fun w s x b s' w' _ ⟨h1, h2⟩ e => by
    have hd : ∀ s : LMState ℝ R, (lmDamp s).gn.n = s.gn.n ∧ (lmDamp s).lambda = s.lambda := by
      intro s; unfold lmDamp; split <;> exact ⟨rfl, rfl⟩
    have hb : ∀ {w : W} {s : GNState ℝ R} {b g w'}, buildSystem so P w s x = (b, g, w') → g.n = s.n := by
      intro w s b g w' e
      obtain ⟨c, g, H, e1, hsp⟩ := buildSystem_spec e
      cases hsp <;> rfl
    have hspec := lmBuild_spec (show lmBuild so P w s x = (b, s', w') from e)
    cases hspec with
    | rebuilt g1 w1 hr hb' => rw [if_pos rfl, (hd _).1, (hd _).2]; exact ⟨(hb hb').trans h1, h2⟩
    | rebuildFail g1 w1 hr hb' => rw [if_neg (by simp)]; exact ⟨(hb hb').trans h1, h2⟩
    | evald c w1 hr => rw [if_pos rfl, (hd _).1, (hd _).2]; exact ⟨h1, h2⟩
    | evalFail c w1 hr => rw [if_neg (by simp)]; exact ⟨h1, h2⟩
  good := fun x s q s' ⟨h1, _⟩ _ e => by
    obtain ⟨a1, -, a3⟩ := lm_hook hr0 (Or.inl ⟨q, e⟩)
    exact ⟨by rw [a1]; exact h1, Or.inr a3⟩
  bad := fun x s s' ⟨h1, _⟩ e => by
    obtain ⟨a1, -, a3⟩ := lm_hook hr0 (Or.inr e)
    exact ⟨by rw [a1]; exact h1, Or.inr a3⟩
  failedB := fun x s s' ⟨h1, _⟩ e => by
    obtain ⟨a1, -, a3⟩ := lm_hook hr0 (Or.inr e)
    exact ⟨by rw [a1]; exact h1, Or.inr a3⟩
  failedN := fun x s s' ⟨h1, _⟩ e => by
    obtain ⟨a1, -, a3⟩ := lm_hook hr0 (Or.inr e)
    exact ⟨by rw [a1]; exact h1, Or.inr a3⟩

theorem lastAccepted_concat {tr : List (Rec ℝ R (Vec ℝ n) (DVec ℝ) (DMat ℝ))} {r} : LastAccepted (tr ++ [r]) ↔ r.succ = true := by
  unfold LastAccepted
  simp

/-- every point that is tried again after a rejected step is tried with `retryDamping` -/
def AllRetries (so : SolverOpts ℝ) (G : Vec ℝ n → Vec ℝ n) (Q : Vec ℝ n → Mat ℝ n) (tr : List (Rec ℝ R (Vec ℝ n) (DVec ℝ) (DMat ℝ))) : Prop :=
  ∀ pre a b c post, tr = pre ++ a :: b :: c :: post → LastAccepted pre → a.succ = true → b.succ = false → c.dx ≠ none →
    TriedAgain so G Q (pre = []) a c

theorem AllRetries.concat {tr : List (Rec ℝ R (Vec ℝ n) (DVec ℝ) (DMat ℝ))} {r} (h : AllRetries so G Q tr)
    (hr : ∀ pre a b, tr = pre ++ [a, b] → LastAccepted pre → a.succ = true → b.succ = false → r.dx ≠ none → TriedAgain so G Q (pre = []) a r) :
    AllRetries so G Q (tr ++ [r]) := by
  intro pre a b c post e
  rcases List.eq_nil_or_concat post with rfl | ⟨post', z, rfl⟩
  · have e' : tr ++ [r] = (pre ++ [a, b]) ++ [c] := by rw [e]; simp
    obtain ⟨h1, h2⟩ := List.append_inj' e' rfl
    simp only [List.cons.injEq, and_true] at h2
    subst h2
    exact hr pre a b h1
  · have e' : tr ++ [r] = (pre ++ a :: b :: c :: post') ++ [z] := by rw [e]; simp
    obtain ⟨h1, h2⟩ := List.append_inj' e' rfl
    exact h pre a b c post' h1

variable (h : UserQuad P (fun _ => True) f G Q m) (hL : ExactLinAlg LA) (hone : so.useLdlt = true ∨ P.dims ≠ some 1)
  (hA : ∀ x l, Allowed so l → PD (dampedR l (Q x))) (hr0 : so.dampLo ≤ so.dampHi) (hlo : 0 ≤ so.dampLo) (hin : 0 ≤ so.dampInit)
  (hmin : ∀ x, DiagOk so (Q x)) (hclip : so.gradClip = 0) (hfin : ∀ x, nCost so m (f x) ≠ maxVal)

include h hL hone hA hr0 hlo hin hmin hclip hfin

theorem retry_body (hq : o.useStepQuality = false) {K : Nat} (hK : K ≤ 65536) {fuel k : Nat}
    {st st' : LoopSt ℝ R W (LMState ℝ R) (Vec ℝ n) (DVec ℝ) (DMat ℝ)} (hI : RetryInv so P G Q K (k + 1) st) (hJ : AllRetries so G Q st.trace)
    (hb : body (lmEnv so LA P) o (fuel + 1) (k == 0) st = .ok st') :
    (st'.out.stop = .kNone → RetryInv so P G Q K k st') ∧ AllRetries so G Q st'.trace := by
  obtain ⟨succ, mdx, w1, s1, out1, ms, hstep, hs, hsol, hls⟩ := body_flag hb
  have hstop : st'.out.stop = .kNone → out1.stop = .kNone := by
    rw [hs.out]; simp only [timeStop]; split
    · intro h; cases h
    · exact id
  have hlen : st'.trace.length + k = K := by
    rw [hs.trace]; have := hI.left; simp; omega
  have hit : st.out.numIters = st.trace.length := hI.iters (by omega)
  have hno : out1.numIters = st.out.numIters := hs.step.numIters.1
  have hiters : 0 < k → st'.out.numIters = st'.trace.length := by
    intro hk
    have := hI.left
    rw [hs.out, hs.trace]
    simp only [hno, hit, List.length_append, List.length_singleton]
    unfold inc16
    omega
  have hlast : st'.lastSucc = true ↔ LastAccepted st'.trace := by
    rw [hls, hs.trace, lastAccepted_concat]
  have hpos : st.trace ≠ [] → st.out.numIters > 0 := by
    intro hne; rw [hit]; exact List.length_pos_of_ne_nil hne
  by_cases hreb : st.s.rebuild = true
  · obtain ⟨s2, dx, hdel, hn2, hc2, hlam, hrb, hzero, hgnz, hbf, hsolv, -⟩ :=
      quad_lm_delivers h hL hone hr0 hlo hin hclip st.w st.s hI.size st.x trivial (hA st.x) (hmin st.x) (hfin st.x) hI.allowed (Or.inl hreb)
    have hst : IsStep G Q st.x st.s.lambda dx := by
      unfold IsStep
      by_cases hg : G st.x = 0
      · rw [hzero hg, hg, mv_zero, neg_zero]
      · exact hsolv hg
    rcases step_judged hdel hstep with ⟨hp, hne⟩ | hj
    · refine ⟨fun h0 => absurd (hstop h0) hne, ?_⟩
      rw [hs.trace]
      refine hJ.concat fun pre a b _ _ _ _ hn => ?_
      simp only [Prod.mk.injEq] at hp
      exact absurd hp.2 hn
    · constructor
      · intro h0
        have hmdx : mdx = some ⟨n, dx⟩ := hj.dx.resolve_right fun hh => hh.2 (hstop h0)
        have hsz : s1.gn.n = n ∧ Allowed so s1.lambda := by
          by_cases h1 : st.out.numIters > 0
          · have h2 : (∃ q, lmGood so s2 q = .ok s1) ∨ lmBad so s2 = .ok s1 := by
              cases hsu : succ with
              | true => obtain ⟨q, -, h3⟩ := hj.good h1 hsu; exact Or.inl ⟨q, h3⟩
              | false => exact Or.inr (hj.bad h1 hsu)
            obtain ⟨a1, -, a3⟩ := lm_hook hr0 h2
            exact ⟨by rw [a1]; exact hn2, Or.inr a3⟩
          · rw [hj.first (by omega)]
            exact ⟨hn2, by rw [hlam]; exact hI.allowed⟩
        have hgood : st.trace ≠ [] → succ = true → s1.lambda = inRange so (st.s.lambda * goodScale so 0 st.s.badF) ∧ s1.badF = so.badFactor := by
          intro hne hsu
          obtain ⟨q, hq0, h3⟩ := hj.good (hpos hne) hsu
          rw [hq0 hq] at h3
          obtain ⟨l, hl, rfl⟩ := lmGood_spec h3
          rw [stdClamp_real hr0] at hl
          injection hl with hl
          rw [← hl, hlam, hbf]
          exact ⟨by simp [inRange], rfl⟩
        have hbad : st.trace ≠ [] → succ = false → s1.lambda = inRange so (st.s.lambda * st.s.badF) := by
          intro hne hsu
          obtain ⟨l, hl, rfl⟩ := lmBad_spec (hj.bad (hpos hne) hsu)
          rw [stdClamp_real hr0] at hl
          injection hl with hl
          rw [← hl, hlam, hbf]
          simp [inRange]
        have hfirst : st.trace = [] → s1 = s2 := fun h1 => hj.first (by rw [hit, h1]; rfl)
        refine ⟨Or.inr ?_, ?_, hlen, hiters, hlast, ?_, ?_, ?_⟩
        · rw [hsol]; exact hsz.1
        · rw [hsol]; exact hsz.2
        · intro ha hk
          have hsu : succ = true := by rw [hs.trace, lastAccepted_concat] at ha; exact ha
          rw [hsol, hsu]
          refine ⟨?_, ?_⟩
          · show (!(o.checkFinalCost && (k == 0))) = true
            have : (k == 0) = false := by simp; omega
            simp [this]
          · show s1.badF = _
            by_cases hne : st.trace = []
            · rw [hfirst hne, hbf]
              exact (hI.fresh (by rw [hne]; intro p hp; cases hp) (by omega)).2
            · exact (hgood hne hsu).2
        · intro pre a e hpre hsa
          rw [hs.trace] at e
          obtain ⟨h1, h2⟩ := List.append_inj' e rfl
          simp only [List.cons.injEq, and_true] at h2
          subst h1 h2
          simp only at hsa
          subst hsa
          have hup := hs.upd
          rw [hmdx] at hup
          have hx : st'.x = (lmEnv so LA P).plusEq st.x ⟨n, dx⟩ ∧ st'.lastDx = some ⟨n, dx⟩ := upd_succ hup
          refine ⟨st.s.lambda, dx, hI.allowed, hmdx, hst, by rw [hx.1]; exact h.plus st.x dx, hx.2, ?_⟩
          rw [hsol]
          show s1.lambda = _
          split_ifs with hne
          · rw [hfirst hne, hlam]
          · rw [(hgood hne rfl).1, (hI.fresh hpre (by omega)).2]
            simp [goodScale, ne]
        · intro pre a b e hpre hsa hsb
          rw [hs.trace] at e
          obtain ⟨h1, h2⟩ := concat_pair e
          subst h2
          simp only at hsb
          subst hsb
          obtain ⟨l, v, hal, hdx, hsys, hx, hld, hl⟩ := hI.one pre a h1 hpre hsa
          have hne : st.trace ≠ [] := by rw [h1]; simp
          have hla : LastAccepted st.trace := by rw [h1, lastAccepted_concat]; exact hsa
          refine ⟨l, v, hal, hdx, hsys, ?_, ?_, ?_⟩
          · have hup := hs.upd
            rw [hld] at hup
            have hx' : st'.x = (lmEnv so LA P).plusEq st.x ((lmEnv so LA P).negV ⟨n, v⟩) := upd_roll hup
            rw [hx', hx]
            have : (lmEnv so LA P).plusEq (a.x + v) ((lmEnv so LA P).negV ⟨n, v⟩) = a.x + v + negVec v := h.plus _ _
            rw [this]
            funext i
            simp [negVec]
          · rw [hsol]
            show s1.lambda = _
            rw [hbad hne rfl, hl, (hI.fresh hla (by omega)).2]
            unfold retryDamping
            by_cases hp : pre = [] <;> simp [hp]
          · rw [hsol]
            show st.lastSucc = true
            exact hI.last.2 hla
      · rw [hs.trace]
        refine hJ.concat fun pre a b e hpre hsa hsb hn => ?_
        obtain ⟨l, v, hal, hdx, hsys, hx, hl, -⟩ := hI.two pre a b e hpre hsa hsb
        have hmdx : mdx = some ⟨n, dx⟩ := hj.dx.resolve_right fun hh => hn hh.1
        refine ⟨l, v, dx, hal, hdx, hmdx, hx, hsys, ?_⟩
        rw [← hx, ← hl]
        exact hst
  · have hna : ¬ LastAccepted st.trace := fun ha => hreb (hI.fresh ha (by omega)).1
    have hne : st.trace ≠ [] := by rintro e; exact hna (by rw [e]; intro p hp; cases hp)
    constructor
    · intro h0
      rcases step_linked (lm_size_inv (LA := LA) h hr0) trivial ⟨hI.size, hI.allowed⟩ hstep with ⟨-, hne⟩ | hl
      · exact absurd (hstop h0) hne
      · obtain ⟨t, dx, ht, -, -, -, -, hk⟩ := hl
        rw [if_pos (hpos hne)] at hk
        have hsz : s1.gn.n = n ∧ Allowed so s1.lambda ∧ (succ = true → s1.badF = so.badFactor) := by
          cases succ with
          | true =>
            rw [if_pos rfl] at hk
            obtain ⟨q, hk⟩ := hk
            obtain ⟨a1, -, a3⟩ := lm_hook hr0 (Or.inl ⟨q, hk⟩)
            obtain ⟨l, -, rfl⟩ := lmGood_spec hk
            exact ⟨by rw [a1]; exact ht.1, Or.inr a3, fun _ => rfl⟩
          | false =>
            rw [if_neg (by simp)] at hk
            obtain ⟨a1, -, a3⟩ := lm_hook hr0 (Or.inr hk)
            exact ⟨by rw [a1]; exact ht.1, Or.inr a3, fun h => (nomatch h)⟩
        refine ⟨Or.inr ?_, ?_, hlen, hiters, hlast, ?_, ?_, ?_⟩
        · rw [hsol]; exact hsz.1
        · rw [hsol]; exact hsz.2.1
        · intro ha hk
          have hsu : succ = true := by rw [hs.trace, lastAccepted_concat] at ha; exact ha
          rw [hsol, hsu]
          refine ⟨?_, hsz.2.2 hsu⟩
          show (!(o.checkFinalCost && (k == 0))) = true
          have : (k == 0) = false := by simp; omega
          simp [this]
        · intro pre a e hpre hsa
          rw [hs.trace] at e
          obtain ⟨h1, h2⟩ := List.append_inj' e rfl
          rw [← h1] at hpre
          exact absurd hpre hna
        · intro pre a b e hpre hsa hsb
          rw [hs.trace] at e
          obtain ⟨h1, h2⟩ := concat_pair e
          exact absurd (by rw [h1, lastAccepted_concat]; exact hsa) hna
    · rw [hs.trace]
      refine hJ.concat fun pre a b e hpre hsa hsb hn => ?_
      obtain ⟨-, -, -, -, -, -, -, hr⟩ := hI.two pre a b e hpre hsa hsb
      exact absurd hr hreb

/-- **C95**, the damping of the step after a rejected one: let the start or an accepted iterate `x` be left with a step that is
rejected. The next step from `x` is the one with the damping `retryDamping`. -/
theorem C95_retry (hq : o.useStepQuality = false) (s : LMState ℝ R) (hs : P.dims = none ∨ s.gn.n = n) (hreb : s.rebuild = true)
    (hal : Allowed so s.lambda) (hbf : s.badF = so.badFactor) {fuel : Nat} {mi K : Int} (hK : loopBound o mi = some K) (hK2 : K ≤ 65536)
    {w : W} {x0 : Vec ℝ n} {st} (e : optimizeAcc (lmEnv so LA P) o (fuel + 1) mi w s x0 = .ok st) : AllRetries so G Q st.trace := by
  unfold optimizeAcc at e
  rw [hK] at e
  simp only at e
  rw [Res.bind_eq_ok] at e
  obtain ⟨st0, h1, h2⟩ := e
  injection h2 with h2
  have ht : st.trace = st0.trace := by rw [← h2]
  rw [ht]
  refine loop_count (I := fun k st => RetryInv so P G Q K.toNat k st) (J := fun st => AllRetries so G Q st.trace)
    (fun k st st' _ hI hJ hb => retry_body h hL hone hA hr0 hlo hin hmin hclip hfin hq (by omega) hI hJ hb) rfl ?_ ?_ h1
  · refine ⟨hs, hal, by simp [initSt], fun _ => rfl, ⟨fun _ p hp => (nomatch hp), fun _ => rfl⟩, fun _ _ => ⟨hreb, hbf⟩, ?_, ?_⟩
    · intro pre a e; simp [initSt] at e
    · intro pre a b e; simp [initSt] at e
  · intro pre a b c post e
    simp [initSt] at e

omit h hL hone hmin hclip hfin hA hlo hin hr0 in
theorem retry_less {l : ℝ} {first : Prop} (hlo : 0 ≤ so.dampLo) (hb : 0 ≤ so.badFactor) (hl : 0 ≤ l) (hgb : so.goodFactor * so.badFactor < 1)
    (h1 : so.dampLo < l) (h2 : so.dampLo * so.badFactor < l) (hf : ¬ first) : 0 ≤ retryDamping so first l ∧ retryDamping so first l < l := by
  unfold retryDamping
  rw [if_neg hf]
  refine ⟨hlo.trans (le_max_left _ _), max_lt h1 (lt_of_le_of_lt (min_le_left _ _) ?_)⟩
  have h3 : inRange so (l * so.goodFactor) ≤ max so.dampLo (l * so.goodFactor) := max_le_max le_rfl (min_le_left _ _)
  refine lt_of_le_of_lt (mul_le_mul_of_nonneg_right h3 hb) ?_
  rw [max_mul_of_nonneg _ _ hb]
  refine max_lt h2 ?_
  rw [mul_assoc]
  nlinarith

/-- **C95 is violated**: with `good_factor * bad_factor < 1` (the default values are 1/3 and 2), Levenberg-Marquardt answers a rejected
step with a longer one. Whenever an iterate `a.x` is accepted after another accepted one and the step from it is
rejected, the next step from `a.x` has less damping and is strictly longer (unless the damping is at its lower limit). -/
theorem C95_longer (hq : o.useStepQuality = false) (s : LMState ℝ R) (hs : P.dims = none ∨ s.gn.n = n) (hreb : s.rebuild = true)
    (hal : Allowed so s.lambda) (hbf : s.badF = so.badFactor) {fuel : Nat} {mi K : Int} (hK : loopBound o mi = some K) (hK2 : K ≤ 65536)
    {w : W} {x0 : Vec ℝ n} {st} (e : optimizeAcc (lmEnv so LA P) o (fuel + 1) mi w s x0 = .ok st)
    (hgb : so.goodFactor * so.badFactor < 1) (hb0 : 0 ≤ so.badFactor) {pre p a b c post} (ht : st.trace = pre ++ p :: a :: b :: c :: post)
    (hp : p.succ = true) (ha : a.succ = true) (hb : b.succ = false) (hc : c.dx ≠ none) (hg : G a.x ≠ 0) :
    c.x = a.x ∧ ∃ l v v', a.dx = some ⟨n, v⟩ ∧ c.dx = some ⟨n, v'⟩ ∧ IsStep G Q a.x l v ∧
      (so.dampLo < l → so.dampLo * so.badFactor < l → diagSq (Q a.x) v < diagSq (Q a.x) v') := by
  have hall := C95_retry h hL hone hA hr0 hlo hin hmin hclip hfin hq s hs hreb hal hbf hK hK2 e
  obtain ⟨l, v, v', hl, h1, h2, h3, h4, h5⟩ := hall (pre ++ [p]) a b c post (by rw [ht]; simp) (by rw [lastAccepted_concat]; exact hp) ha hb hc
  refine ⟨h3, l, v, v', h1, h2, h4, fun h6 h7 => ?_⟩
  obtain ⟨h8, h9⟩ := retry_less hlo hb0 (hlo.trans h6.le) hgb h6 h7 (first := pre ++ [p] = []) (by simp)
  refine (C95_shorter h8 h9 (hA _ _ (Or.inr ?_)) (hA _ _ hl) hg h5 h4).2.1
  exact le_max_left _ _

/-- **C95** (partial): the step after a rejected one is shorter if it was the first step of the run that was rejected, or if
`good_factor * bad_factor > 1`. Missing: the default factors, see `C95_longer`. -/
theorem C95_retry_shorter_partial (hq : o.useStepQuality = false) (s : LMState ℝ R) (hs : P.dims = none ∨ s.gn.n = n) (hreb : s.rebuild = true)
    (hal : Allowed so s.lambda) (hbf : s.badF = so.badFactor) {fuel : Nat} {mi K : Int} (hK : loopBound o mi = some K) (hK2 : K ≤ 65536)
    {w : W} {x0 : Vec ℝ n} {st} (e : optimizeAcc (lmEnv so LA P) o (fuel + 1) mi w s x0 = .ok st)
    (hb1 : 1 < so.badFactor) {pre a b c post} (ht : st.trace = pre ++ a :: b :: c :: post) (hpre : LastAccepted pre)
    (hgb : pre = [] ∨ 1 < so.goodFactor * so.badFactor)
    (ha : a.succ = true) (hb : b.succ = false) (hc : c.dx ≠ none) (hg : G a.x ≠ 0) :
    c.x = a.x ∧ ∃ l v v', a.dx = some ⟨n, v⟩ ∧ c.dx = some ⟨n, v'⟩ ∧ IsStep G Q a.x l v ∧
      (0 < l → l < so.dampHi → diagSq (Q a.x) v' < diagSq (Q a.x) v) := by
  have hall := C95_retry h hL hone hA hr0 hlo hin hmin hclip hfin hq s hs hreb hal hbf hK hK2 e
  obtain ⟨l, v, v', hl, h1, h2, h3, h4, h5⟩ := hall pre a b c post ht hpre ha hb hc
  refine ⟨h3, l, v, v', h1, h2, h4, fun h6 h7 => ?_⟩
  have h9 : l < retryDamping so (pre = []) l := by
    unfold retryDamping
    refine lt_max_of_lt_right (lt_min ?_ h7)
    split_ifs with hf
    · nlinarith
    · have hgb := hgb.resolve_left hf
      have h8 : min (l * so.goodFactor) so.dampHi ≤ inRange so (l * so.goodFactor) := le_max_right _ _
      refine lt_of_lt_of_le ?_ (mul_le_mul_of_nonneg_right h8 (by linarith))
      rw [min_mul_of_nonneg _ _ (by linarith : (0:ℝ) ≤ so.badFactor)]
      refine lt_min ?_ ?_
      · rw [mul_assoc]; nlinarith
      · nlinarith
  refine (C95_shorter h6.le h9 (hA _ _ hl) (hA _ _ (Or.inr ?_)) hg h4 h5).2.1
  exact le_max_left _ _

end

/-! ### the default factors give a longer step: a run -/

/-- one parameter with cost `f`, gradient 1 and Hessian 1 -/
noncomputable def slopeProb (f : Vec ℝ 1 → ℝ) : Problem ℝ ℝ Unit (Vec ℝ 1) where
  acc :=
    { full := fun w x k g H => (({ cost := f x, num := 1, inlier := 1 }, fun i => if i.1 = 0 then g i + 1 else g i,
        fun i j => if i.1 = 0 ∧ j.1 = 0 then H i j + 1 else H i j), w)
      eval := fun w x => ({ cost := f x, num := 1, inlier := 1 }, w) }
  dims := some 1
  dynDims := fun _ => 1
  plusEq := fun x d => fun i => if h : i.1 < d.n then x i + d.v ⟨i.1, h⟩ else x i
  clock := fun w => (1, w)
  alloc := fun w _ => (none, w)
  ratio1 := 1

theorem slopeProb_user (f : Vec ℝ 1 → ℝ) : UserQuad (slopeProb f) (fun _ => True) f (fun _ _ => 1) (fun _ _ _ => 1) 1 where
  pos := one_pos
  psd x _ := (pd_one one_pos).psd
  full w x _ := ⟨{ cost := f x, num := 1, inlier := 1 }, w, by
    simp only [slopeProb]
    congr 3
    · funext i; simp
    · funext i j; simp, rfl, rfl⟩
  eval w x _ := ⟨rfl, rfl⟩
  dyn x := rfl
  size := Or.inl rfl
  plus x v := by funext i; rw [Subsingleton.elim i 0]; simp [slopeProb]

/-- lower at `-1/2` than at `0`, higher elsewhere -/
noncomputable def pit (x : Vec ℝ 1) : ℝ := if x 0 = 0 then 10 else if x 0 = -1 / 2 then 5 else 20

theorem pit_le (x : Vec ℝ 1) : pit x ≤ 20 := by unfold pit; split_ifs <;> norm_num

theorem slope_fin {f : Vec ℝ 1 → ℝ} (hf : ∀ x, f x ≤ 20) (x : Vec ℝ 1) : nCost soptsR 1 (f x) < maxVal := by
  show nCost soptsR 1 _ < 2 ^ 1024
  simp [nCost, normalizeCost, soptsR]
  exact (hf x).trans_lt (lt_of_lt_of_le (by norm_num : (20 : ℝ) < 2 ^ 8) (pow_le_pow_right₀ (by norm_num) (by norm_num)))

theorem slope_cost (f : Vec ℝ 1 → ℝ) (x : Vec ℝ 1) : nCost soptsR 1 (f x) = f x := by simp [nCost, normalizeCost, soptsR]

theorem one_damped {l : ℝ} {v : Vec ℝ 1} (h : IsStep (fun _ _ => 1) (fun _ _ _ => 1) x l v) (hl : 0 ≤ l) : v = fun _ => -1 / (1 + l) := by
  funext i
  have h1 := congrFun h i
  rw [Subsingleton.elim i 0] at h1 ⊢
  simp [mv, dampedR] at h1
  field_simp
  linarith

theorem soptsR_allowed {l : ℝ} (h : Allowed soptsR l) : 0 < l := by
  rcases h with rfl | h
  · norm_num [soptsR]
  · exact lt_of_lt_of_le (by norm_num [soptsR]) h

/-- an iteration of `slopeProb` from a system built at the current point -/
theorem slope_body {f : Vec ℝ 1 → ℝ} (hf : ∀ x, f x ≤ 20) {k : Nat} {st : LoopSt ℝ ℝ Unit (LMState ℝ ℝ) (Vec ℝ 1) (DVec ℝ) (DMat ℝ)} {last : Bool} (hstop : st.out.stop = .kNone)
    (hc : st.out.numConsec ≤ 255) (hn : st.s.gn.n = 1) (hal : Allowed soptsR st.s.lambda) (hreb : st.s.rebuild = true) (fuel : Nat) :
    ∃ st' r, body (lmEnv soptsR someLinAlg (slopeProb f)) (optsR k) (fuel + 1) last st = .ok st' ∧ st'.out.stop = .kNone ∧
      st'.out.numConsec ≤ 255 ∧ st'.s.gn.n = 1 ∧ Allowed soptsR st'.s.lambda ∧ st'.s.rebuild = (r.succ || st.lastSucc) ∧
      st'.trace = st.trace ++ [r] ∧ r.x = st.x ∧ (r.succ = true ↔ f st.x < st.out.finalCost.cost) ∧
      (r.dx = some ⟨1, fun _ => -1 / (1 + st.s.lambda)⟩) ∧ st'.lastSucc = r.succ ∧
      st'.out.numIters = inc16 st.out.numIters ∧ (r.succ = true → st'.out.finalCost.cost = f st.x) ∧
      (st.out.numIters = 0 → st'.s.lambda = st.s.lambda) ∧
      (r.succ = true → st'.x = st.x + (fun _ => -1 / (1 + st.s.lambda)) ∧ st'.lastDx = some ⟨1, fun _ => -1 / (1 + st.s.lambda)⟩) ∧
      (r.succ = false → ∀ d, st.lastDx = some ⟨1, d⟩ → st'.x = st.x - d) := by
  have hu := slopeProb_user f
  have hr0 : soptsR.dampLo ≤ soptsR.dampHi := by norm_num [soptsR]
  obtain ⟨s2, dx, hdel, hn2, hc2, hlam, hrb, hzero, hgnz, hbf, hsolv, -⟩ :=
    quad_lm_delivers hu someLinAlg_exact (Or.inl rfl) hr0 (by norm_num [soptsR]) (by norm_num [soptsR]) rfl st.w st.s (Or.inr hn) st.x trivial
      (fun l hl => damped_pd' (pd_one one_pos) (soptsR_allowed hl).le) (Or.inl (le_refl _)) (slope_fin hf _).ne hal (Or.inl hreb)
  have hdx : dx = fun _ => -1 / (1 + st.s.lambda) :=
    one_damped (x := st.x) (hsolv (fun h => by have := congrFun h 0; norm_num at this)) (soptsR_allowed hal).le
  obtain ⟨st', succ, mdx, s3, hb, hw⟩ := body_works (o := optsR k) hdel (fuel := fuel) (last := last) (by simpa [maxTries, optsR] using hc)
  have hno : NoCriteria (optsR k) := by constructor <;> simp [optsR]
  have hst := hw.nostop hno hstop
  have hm : mdx = some ⟨1, dx⟩ := hw.isMdx.resolve_right fun hh => hh.2.2.2 hst
  obtain ⟨r, h1, h2, -, h4, h5⟩ := hw.trace
  have hup := hw.upd
  rw [hm] at hup
  refine ⟨st', r, hb, hst, by simpa [maxTries, optsR] using hw.consec hst, ?_, ?_, ?_, h1, h2, ?_, by rw [h4, hm, hdx], by rw [h5]; exact hw.lastSucc,
    hw.numIters, ?_, ?_, ?_, ?_⟩
  · rw [hw.solver]
    show s3.gn.n = 1
    have hk := hw.hook
    split at hk
    · rw [(lm_hook hr0 hk).1]; exact hn2
    · rw [hk]; exact hn2
  · rw [hw.solver]
    show Allowed soptsR s3.lambda
    have hk := hw.hook
    split at hk
    · exact Or.inr (lm_hook hr0 hk).2.2
    · rw [hk, hlam]; exact hal
  · rw [hw.solver, h5]
    show (if succ = true then !((optsR k).checkFinalCost && last) else st.lastSucc) = _
    cases succ <;> simp [optsR]
  · rw [h5, hw.isSucc]
    have : (lmEnv soptsR someLinAlg (slopeProb f)).sol.cost s2 = s2.gn.cost := rfl
    rw [this, hc2, slope_cost]
    simp
  · intro hs
    rw [h5] at hs
    rw [hw.finalCost, hs]
    show s2.gn.cost.cost = _
    rw [hc2, slope_cost]
  · intro h0
    have hk := hw.hook
    rw [if_neg (by omega)] at hk
    rw [hw.solver]
    show s3.lambda = _
    rw [hk, hlam]
  · intro hs
    rw [h5] at hs
    rw [hs] at hup
    obtain ⟨a, b⟩ := upd_succ hup
    rw [a, b, ← hdx]
    exact ⟨hu.plus st.x dx, rfl⟩
  · intro hs d hd
    rw [h5] at hs
    rw [hs, hd] at hup
    rw [upd_roll hup]
    refine (hu.plus st.x (negVec d)).trans ?_
    funext i
    simp [negVec, sub_eq_add_neg]

/-- **C95 is violated**, a run with the default factors: the first step leads from `0` to `-1/2`, the second one, `-1/2`, is rejected, and
the optimizer tries the longer step `-3/5` next. -/
theorem C95_longer_run (fuel : Nat) (s : LMState ℝ ℝ) (hn : s.gn.n = 1) (hreb : s.rebuild = true) (hl : s.lambda = soptsR.dampInit) (hbf : s.badF = soptsR.badFactor) :
    ∃ st p a b c, optimizeAcc (lmEnv soptsR someLinAlg (slopeProb pit)) (optsR 3) (fuel + 1) (-1) () s (fun _ => 0) = .ok st ∧
      st.trace = [p, a, b, c] ∧ p.succ = true ∧ a.succ = true ∧ b.succ = false ∧ c.x = a.x ∧
      a.dx = some ⟨1, fun _ => -1 / 2⟩ ∧ c.dx = some ⟨1, fun _ => -3 / 5⟩ := by
  have hz : pit (fun _ => 0) = 10 := by simp [pit]
  obtain ⟨st1, p, b1, e1, f1, g1, i1, j1, k1, l1, m1, n1, o1, q1, r1, t1, u1, -⟩ :=
    slope_body pit_le (k := 3) (st := initSt (lmEnv soptsR someLinAlg (slopeProb pit)) () s fun _ => 0) (last := false) rfl (Nat.zero_le _) hn (Or.inl hl) hreb fuel
  have hs1 : p.succ = true := m1.2 (by
    show pit (fun _ => 0) < (maxVal : ℝ)
    have := slope_fin pit_le (fun _ => 0)
    rwa [slope_cost] at this)
  have hlam : (initSt (lmEnv soptsR someLinAlg (slopeProb pit)) () s fun _ => 0).s.lambda = 1 := hl
  have hx1 : st1.x = fun _ => -1 / 2 := by
    rw [(u1 hs1).1, hlam]
    funext i
    simp [initSt]
    norm_num
  have hc1 : st1.out.finalCost.cost = 10 := (r1 hs1).trans hz
  have hp5 : pit (fun _ => -1 / 2) = 5 := by norm_num [pit]
  obtain ⟨st2, a, b2, e2, f2, g2, i2, j2, k2, l2, m2, n2, o2, q2, r2, t2, u2, -⟩ :=
    slope_body pit_le (k := 3) (st := st1) (last := false) e1 f1 g1 i1 (by rw [j1, hs1]; rfl) fuel
  have hl1 : st1.s.lambda = 1 := (t1 rfl).trans hlam
  have hs2 : a.succ = true := m2.2 (by rw [hx1, hp5, hc1]; norm_num)
  have hda : a.dx = some ⟨1, fun _ => -1 / 2⟩ := by rw [n2, hl1]; norm_num
  have hx2 : st2.x = fun _ => -1 := by
    rw [(u2 hs2).1, hl1, hx1]
    funext i
    simp
    norm_num
  have hld : st2.lastDx = some ⟨1, fun _ => -1 / 2⟩ := by rw [(u2 hs2).2, hl1]; norm_num
  have hc2 : st2.out.finalCost.cost = 5 := by rw [r2 hs2, hx1, hp5]
  have hp20 : pit (fun _ => -1) = 20 := by norm_num [pit]
  obtain ⟨st3, b, b3, e3, f3, g3, i3, j3, k3, l3, m3, n3, o3, q3, r3, t3, u3, v3⟩ :=
    slope_body pit_le (k := 3) (st := st2) (last := false) e2 f2 g2 i2 (by rw [j2, hs2]; rfl) fuel
  have hs3 : b.succ = false := by
    rw [← Bool.not_eq_true, m3, hx2, hp20, hc2]; norm_num
  have hx3 : st3.x = fun _ => -1 / 2 := by
    rw [v3 hs3 _ hld, hx2]
    funext i
    simp
    norm_num
  obtain ⟨st4, c, b4, e4, f4, g4, i4, j4, k4, l4, m4, n4, o4, q4, r4, t4, u4, v4⟩ :=
    slope_body pit_le (k := 3) (st := st3) (last := true) e3 f3 g3 i3 (by rw [j3, hs3, o2, hs2]; rfl) fuel
  have htr : st4.trace = [p, a, b, c] := by
    rw [k4, k3, k2, k1]; rfl
  have hK : loopBound (optsR 3) (-1) = some 4 := by decide
  have hrun : ∃ st, optimizeAcc (lmEnv soptsR someLinAlg (slopeProb pit)) (optsR 3) (fuel + 1) (-1) () s (fun _ => 0) = .ok st ∧ st.trace = st4.trace := by
    have hloop : loop (lmEnv soptsR someLinAlg (slopeProb pit)) (optsR 3) (fuel + 1) 4 (initSt (lmEnv soptsR someLinAlg (slopeProb pit)) () s fun _ => 0) = .ok st4 := by
      unfold loop
      rw [show (3 == 0) = false from rfl, b1, Res.bind_ok, if_neg (by rw [e1]; simp)]
      unfold loop
      rw [show (2 == 0) = false from rfl, b2, Res.bind_ok, if_neg (by rw [e2]; simp)]
      unfold loop
      rw [show (1 == 0) = false from rfl, b3, Res.bind_ok, if_neg (by rw [e3]; simp)]
      unfold loop
      rw [show (0 == 0) = true from rfl, b4, Res.bind_ok, if_neg (by rw [e4]; simp)]
      rfl
    unfold optimizeAcc
    rw [hK]
    simp only
    rw [show Int.toNat 4 = 4 from rfl, hloop, Res.bind_ok]
    exact ⟨_, rfl, rfl⟩
  obtain ⟨st, hrun, hst⟩ := hrun
  have hret := C95_retry (slopeProb_user pit) someLinAlg_exact (Or.inl rfl) (fun x l hl => damped_pd' (pd_one one_pos) (soptsR_allowed hl).le)
    (by norm_num [soptsR]) (by norm_num [soptsR]) (by norm_num [soptsR]) (fun _ => Or.inl (le_refl _)) rfl (fun x => (slope_fin pit_le x).ne)
    (o := optsR 3) rfl s (Or.inr hn) hreb (Or.inl hl) hbf hK (by norm_num) hrun
  obtain ⟨l, v, v', hal, h1, h2, h3, h4, h5⟩ := hret [p] a b c [] (by rw [hst, htr]; rfl) (by intro q hq; injection hq with hq; rw [← hq]; exact hs1) hs2 hs3
    (by rw [n4]; simp)
  refine ⟨st, p, a, b, c, hrun, hst.trans htr, hs1, hs2, hs3, h3, hda, ?_⟩
  have hl1 : l = 1 := by
    have hv := one_damped h4 (soptsR_allowed hal).le
    rw [hda] at h1
    injection h1 with h1
    injection h1 with _ h1
    have h6 := congrFun h1 0
    rw [hv] at h6
    have := soptsR_allowed hal
    field_simp at h6
    linarith
  have hrd : retryDamping soptsR ([p] = []) l = 2 / 3 := by
    unfold retryDamping inRange
    rw [if_neg (by simp), hl1]
    simp only [soptsR]
    norm_num
  rw [hrd] at h5
  have hv := one_damped h5 (by norm_num)
  rw [h2, hv]
  norm_num

/-- lowest at the start -/
noncomputable def rim (x : Vec ℝ 1) : ℝ := if x 0 = 0 then 10 else 20

theorem rim_le (x : Vec ℝ 1) : rim x ≤ 20 := by unfold rim; split_ifs <;> norm_num

/-- hypotheses of `C95_retry_shorter_partial` (and of `C95_retry`): the first step is rejected -/
example (fuel : Nat) (s : LMState ℝ ℝ) (hn : s.gn.n = 1) (hreb : s.rebuild = true) (hl : s.lambda = soptsR.dampInit) :
    ∃ st a b c, optimizeAcc (lmEnv soptsR someLinAlg (slopeProb rim)) (optsR 2) (fuel + 1) (-1) () s (fun _ => 0) = .ok st ∧
      st.trace = [] ++ a :: b :: c :: [] ∧ LastAccepted ([] : List (Rec ℝ ℝ (Vec ℝ 1) (DVec ℝ) (DMat ℝ))) ∧ a.succ = true ∧ b.succ = false ∧ c.dx ≠ none ∧
      1 < soptsR.badFactor ∧ UserQuad (slopeProb rim) (fun _ => True) rim (fun _ _ => 1) (fun _ _ _ => 1) 1 ∧
      (∀ x, nCost soptsR 1 (rim x) ≠ maxVal) ∧ loopBound (optsR 2) (-1) = some 3 := by
  have hz : rim (fun _ => 0) = 10 := by simp [rim]
  obtain ⟨st1, a, b1, e1, f1, g1, i1, j1, k1, l1, m1, n1, o1, q1, r1, t1, u1, -⟩ :=
    slope_body rim_le (k := 2) (st := initSt (lmEnv soptsR someLinAlg (slopeProb rim)) () s fun _ => 0) (last := false) rfl (Nat.zero_le _) hn (Or.inl hl) hreb fuel
  have hs1 : a.succ = true := m1.2 (by
    show rim (fun _ => 0) < (maxVal : ℝ)
    have := slope_fin rim_le (fun _ => 0)
    rwa [slope_cost] at this)
  have hlam : (initSt (lmEnv soptsR someLinAlg (slopeProb rim)) () s fun _ => 0).s.lambda = 1 := hl
  have hx1 : st1.x = fun _ => -1 / 2 := by
    rw [(u1 hs1).1, hlam]
    funext i
    simp [initSt]
    norm_num
  have hc1 : st1.out.finalCost.cost = 10 := (r1 hs1).trans hz
  obtain ⟨st2, b, b2, e2, f2, g2, i2, j2, k2, l2, m2, n2, o2, q2, r2, t2, u2, -⟩ :=
    slope_body rim_le (k := 2) (st := st1) (last := false) e1 f1 g1 i1 (by rw [j1, hs1]; rfl) fuel
  have hs2 : b.succ = false := by
    rw [← Bool.not_eq_true, m2, hx1, hc1]; norm_num [rim]
  obtain ⟨st3, c, b3, e3, f3, g3, i3, j3, k3, l3, m3, n3, o3, q3, r3, t3, u3, -⟩ :=
    slope_body rim_le (k := 2) (st := st2) (last := true) e2 f2 g2 i2 (by rw [j2, hs2, o1, hs1]; rfl) fuel
  have hK : loopBound (optsR 2) (-1) = some 3 := by decide
  have hloop : loop (lmEnv soptsR someLinAlg (slopeProb rim)) (optsR 2) (fuel + 1) 3 (initSt (lmEnv soptsR someLinAlg (slopeProb rim)) () s fun _ => 0) = .ok st3 := by
    unfold loop
    rw [show (2 == 0) = false from rfl, b1, Res.bind_ok, if_neg (by rw [e1]; simp)]
    unfold loop
    rw [show (1 == 0) = false from rfl, b2, Res.bind_ok, if_neg (by rw [e2]; simp)]
    unfold loop
    rw [show (0 == 0) = true from rfl, b3, Res.bind_ok, if_neg (by rw [e3]; simp)]
    rfl
  have hrun : ∃ st, optimizeAcc (lmEnv soptsR someLinAlg (slopeProb rim)) (optsR 2) (fuel + 1) (-1) () s (fun _ => 0) = .ok st ∧ st.trace = st3.trace := by
    unfold optimizeAcc
    rw [hK]
    simp only
    rw [show Int.toNat 3 = 3 from rfl, hloop, Res.bind_ok]
    exact ⟨_, rfl, rfl⟩
  obtain ⟨st, hrun, hst⟩ := hrun
  refine ⟨st, a, b, c, hrun, ?_, fun p hp => (nomatch hp), hs1, hs2, by rw [n3]; simp, by norm_num [soptsR], slopeProb_user rim, fun x => (slope_fin rim_le x).ne, hK⟩
  rw [hst, k3, k2, k1]; rfl

/-- hypotheses of `C95_best` and `C95_shorter` -/
example : ∃ (H : Mat ℝ 1) (g d e v : Vec ℝ 1), PD (dampedR 1 H) ∧ PD (dampedR 3 H) ∧ g ≠ 0 ∧ mv (dampedR 1 H) d = -g ∧ mv (dampedR 3 H) e = -g ∧
    diagSq H v ≤ diagSq H d ∧ v ≠ d := by
  refine ⟨fun _ _ => 1, fun _ => -4, fun _ => 2, fun _ => 1, fun _ => 1, damped_pd' (pd_one one_pos) (by norm_num), damped_pd' (pd_one one_pos) (by norm_num),
    fun h => ?_, ?_, ?_, ?_, fun h => ?_⟩
  · have := congrFun h 0; norm_num at this
  · funext i; simp [mv, dampedR, Subsingleton.elim i 0]; norm_num
  · funext i; simp [mv, dampedR, Subsingleton.elim i 0]; norm_num
  · simp [diagSq]
  · have := congrFun h 0; norm_num at this

end Verif
