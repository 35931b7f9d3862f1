import Verif.Lemmas.Bowl
import Verif.Props.NestedJet
import Verif.Props.Converged
import Mathlib.Analysis.Calculus.MeanValue
/-!
# C107: exact Hessians (Newton's method)
-/

set_option linter.unusedSectionVars false

namespace Verif
open FloatOps Loss

section
variable {R W : Type} {m n : Nat}
variable {so : SolverOpts ℝ} {LA : LinAlg ℝ} {P : Problem ℝ R W (Vec ℝ n)} {o : Options ℝ W (DVec ℝ)}
variable {f : Vec ℝ n → ℝ} {G : Vec ℝ n → Vec ℝ n} {Q : Vec ℝ n → Mat ℝ n} {xs : Vec ℝ n} {ρ μ C L : ℝ}

theorem Bowl.grad_ne (h : Bowl f G Q xs ρ μ C L) {x : Vec ℝ n} (hx : nrm (x - xs) ≤ ρ) : G x = 0 ↔ x = xs := by
  refine ⟨fun hg => ?_, fun e => e ▸ h.zero⟩
  have h1 := h.pl hx
  rw [hg, nrm_zero] at h1
  have h2 := (h.minimum hx).1
  have hμ := h.posμ
  have h3 : nrm (x - xs) = 0 := by
    by_contra hne
    have : 0 < nrm (x - xs) := lt_of_le_of_ne (nrm_nonneg _) (Ne.symm hne)
    have : 0 < μ / 2 * nrm (x - xs) ^ 2 := by positivity
    nlinarith
  exact sub_eq_zero.mp (nrm_eq_zero h3)

/-- a Newton step from the ball -/
theorem Bowl.newton_step (h : Bowl f G Q xs ρ μ C L) (hρ : 2 * (L * ρ) ≤ μ) {x d : Vec ℝ n} (hx : nrm (x - xs) ≤ ρ) (hne : x ≠ xs) (hd : mv (Q x) d = -G x) :
    nrm (x + d - xs) ≤ ρ ∧ f (x + d) < f x := by
  have hμ := h.posμ
  have hL := h.posL
  have e0 : 0 < nrm (x - xs) := nrm_pos (sub_ne_zero.mpr hne)
  have h1 := h.newton hx hd
  have h2 : L / (2 * μ) * nrm (x - xs) ^ 2 ≤ nrm (x - xs) / 4 := by
    rw [div_mul_eq_mul_div, div_le_iff₀ (by linarith)]
    have := mul_le_mul_of_nonneg_left hx hL
    nlinarith
  have h3 : nrm (x + d - xs) ≤ ρ := by linarith
  have h4 : nrm d ≤ 2 * ρ := by
    have := nrm_sub_le (x + d - xs) (x - xs)
    rw [show x + d - xs - (x - xs) = d by abel] at this
    linarith
  have hd0 : d ≠ 0 := by
    rintro rfl
    rw [mv_zero] at hd
    exact hne ((h.grad_ne hx).1 (by rw [← neg_eq_zero, ← hd]))
  have hd' : mv (dampedR 0 (Q x)) d = -G x := by rw [damped_zero]; exact hd
  have h5 := h.damped le_rfl hx h3 hd' (by have := mul_le_mul_of_nonneg_left h4 hL; linarith)
  rw [damped_zero] at h5
  have h6 := (h.pd hx).2 d hd0
  exact ⟨h3, by linarith⟩

/-- **C107**, Gauss-Newton: the user's function returns, near a point `xs` where the gradient of the cost vanishes and the Hessian is definite, the gradient and the Hessian of the
cost. In exact arithmetic, whatever the options and stop criteria, the run ends normally, every iteration that does not start at `xs` is accepted and lowers the cost, and each
squares the distance to `xs` (up to the factor `L / (2 μ)`). -/
theorem C107_newton (h : UserQuad P (fun x => nrm (x - xs) ≤ ρ) f G Q m) (hsq : so.useSquaredNorm = true ∨ 0 ≤ f xs) (hB : Bowl f G Q xs ρ μ C L) (hρ : 2 * (L * ρ) ≤ μ)
    (hL : ExactLinAlg LA) (hone : ∀ x, nrm (x - xs) ≤ ρ → Solves so (P.dims == some 1) (Q x)) (hmin : ∀ x, nrm (x - xs) ≤ ρ → DiagOk so (Q x))
    (hclip : so.gradClip = 0) (s : GNState ℝ R) (hs : P.dims = none ∨ s.n = n) (fuel : Nat) (mi k : Int) (hk : loopBound o mi = some k)
    (w : W) (x0 : Vec ℝ n) (hx0 : nrm (x0 - xs) ≤ ρ) (hc0 : nCost so m (f x0) < maxVal) :
    ∃ st, optimizeAcc (gnEnv so LA P) o (fuel + 1) mi w s x0 = .ok st ∧
      (∀ t ∈ st.trace, (t.x ≠ xs → t.succ = true ∧ f t.xNext < f t.x) ∧ (t.x = xs → t.xNext = xs) ∧
        nrm (t.xNext - xs) ≤ L / (2 * μ) * nrm (t.x - xs) ^ 2) ∧
      L / (2 * μ) * nrm (x0 - xs) < 1 ∧
      L / (2 * μ) * nrm (st.x - xs) ≤ (L / (2 * μ) * nrm (x0 - xs)) ^ 2 ^ st.trace.length := by
  have hμ := hB.posμ
  have hL0 := hB.posL
  have hq0 : 0 ≤ L / (2 * μ) := by positivity
  obtain ⟨st, e, ht⟩ := gn_quad_run (o := o) h (hsq.imp id fun h0 x hx => by
      have := (hB.minimum hx).1
      have : 0 ≤ μ / 2 * nrm (x - xs) ^ 2 := by positivity
      linarith) hL (fun x hx => hB.pd hx) hone hmin hclip
    (fun x d hx hg hd => hB.newton_step hρ hx (fun e => hg ((hB.grad_ne hx).2 e)) hd) s hs fuel mi k hk w x0 hx0 hc0
  have hrow : ∀ t ∈ st.trace, nrm (t.xNext - xs) ≤ L / (2 * μ) * nrm (t.x - xs) ^ 2 := by
    intro t htt
    obtain ⟨h1, h2, h3⟩ := ht t htt
    have := hB.newton h1 h2
    rwa [add_sub_cancel] at this
  refine ⟨st, e, fun t htt => ?_, ?_, ?_⟩
  · obtain ⟨h1, h2, h3⟩ := ht t htt
    refine ⟨fun hne => ⟨h3 fun hg => hne ((hB.grad_ne h1).1 hg), ?_⟩, fun he => ?_, hrow t htt⟩
    · have := (hB.newton_step hρ h1 hne h2).2
      rwa [add_sub_cancel] at this
    · have := hrow t htt
      rw [he, sub_self, nrm_zero] at this
      exact sub_eq_zero.mp (nrm_eq_zero (le_antisymm (by simpa using this) (nrm_nonneg _)))
  · rw [div_mul_eq_mul_div, div_lt_one (by linarith)]
    have := mul_le_mul_of_nonneg_left hx0 hL0
    linarith
  · have hp := run_path e
    clear ht hx0 hc0 e
    generalize st.x = y at hp ⊢
    generalize st.trace = tr at hp hrow ⊢
    generalize x0 = x at hp ⊢
    induction tr generalizing x with
    | nil => simp only [Path] at hp; subst hp; simp
    | cons t tr ih =>
      obtain ⟨h1, h2⟩ := hp
      have h3 := ih (fun t ht => hrow t (List.mem_cons_of_mem _ ht)) t.xNext h2
      have h4 := hrow t List.mem_cons_self
      rw [h1] at h4
      refine h3.trans ?_
      rw [List.length_cons, pow_succ 2, mul_comm _ 2, pow_mul]
      refine pow_le_pow_left₀ (mul_nonneg hq0 (nrm_nonneg _)) ?_ _
      have := mul_le_mul_of_nonneg_left h4 hq0
      nlinarith

/-! ### Levenberg-Marquardt -/

/-- where the damped steps are short enough to lower the cost, and do not leave -/
structure Bowl.Small (ρ μ C L r : ℝ) : Prop where
  pos : 0 < r
  inside : (1 + (C + L / 2 * ρ) / μ) * r ≤ ρ
  short : L * ((C + L / 2 * ρ) / μ * r) ≤ μ

theorem Bowl.Small.le {r : ℝ} (h : Bowl.Small ρ μ C L r) (hB : Bowl f G Q xs ρ μ C L) (hρ : 0 ≤ ρ) : r ≤ ρ := by
  have h1 := h.inside
  have := hB.posμ; have := hB.posC; have := hB.posL; have := h.pos
  have : 0 ≤ (C + L / 2 * ρ) / μ * r := by positivity
  linarith

theorem Bowl.lm_step (hB : Bowl f G Q xs ρ μ C L) {r : ℝ} (hr : Bowl.Small ρ μ C L r) (hρ : 0 ≤ ρ) {x d : Vec ℝ n} {l Λ : ℝ} (hl : 0 ≤ l) (hΛ : l ≤ Λ) (hx : nrm (x - xs) ≤ r)
    (hf : f x ≤ f xs + μ / 2 * r ^ 2) (hd : mv (dampedR l (Q x)) d = -G x) :
    nrm (x + d - xs) ≤ r ∧ 2 * μ * (f x - f xs) ≤ 3 * (C * (1 + Λ)) * (f x - f (x + d)) ∧ (x ≠ xs → f (x + d) < f x) := by
  have hμ := hB.posμ; have hC := hB.posC; have hL := hB.posL; have hr0 := hr.pos
  have hxr : nrm (x - xs) ≤ ρ := hx.trans (hr.le hB hρ)
  have h1 := hB.short hl hxr hd
  have h2 := hB.grad_le hxr
  have h3 : nrm d ≤ (C + L / 2 * ρ) / μ * r := by
    rw [div_mul_eq_mul_div, le_div_iff₀ hμ]
    have : (C + L / 2 * ρ) * nrm (x - xs) ≤ (C + L / 2 * ρ) * r := mul_le_mul_of_nonneg_left hx (by positivity)
    linarith
  have h4 : nrm (x + d - xs) ≤ ρ := by
    have := nrm_add_le (x - xs) d
    rw [show x - xs + d = x + d - xs by abel] at this
    have := hr.inside
    linarith
  have h5 := hB.damped hl hxr h4 hd ((mul_le_mul_of_nonneg_left h3 hL).trans hr.short)
  have hup := (hB.upTo hxr).damped hl
  have hpd : PD (dampedR l (Q x)) := by
    refine damped_pd_mono (hB.pd hxr).psd (l := 0) ?_ hl
    rw [damped_zero]; exact hB.pd hxr
  have h6 := psd_sq hpd.psd hup.1 hup.2 d
  rw [hd, nrm_neg, ← hd] at h6
  have h7 := hB.pl hxr
  have hnn := hpd.psd.2 d
  have h8 : nrm (G x) ^ 2 ≤ 3 * (C * (1 + Λ)) * (f x - f (x + d)) := by
    refine h6.trans ?_
    have : C * (1 + l) ≤ C * (1 + Λ) := by nlinarith
    have h9 : C * (1 + l) * dotR d (mv (dampedR l (Q x)) d) ≤ C * (1 + Λ) * dotR d (mv (dampedR l (Q x)) d) := mul_le_mul_of_nonneg_right this hnn
    have h10 := mul_le_mul_of_nonneg_left h5 (show 0 ≤ C * (1 + Λ) from mul_nonneg hC.le (by linarith))
    linarith
  refine ⟨?_, h7.trans h8, fun hne => ?_⟩
  · have h9 := (hB.minimum h4).1
    have h10 : nrm (x + d - xs) ^ 2 ≤ r ^ 2 := by
      have : μ / 2 * nrm (x + d - xs) ^ 2 ≤ μ / 2 * r ^ 2 := by linarith
      exact le_of_mul_le_mul_left this (by linarith)
    exact abs_le_of_sq_le_sq' h10 hr0.le |>.2
  · have hd0 : d ≠ 0 := by
      rintro rfl
      rw [mv_zero] at hd
      exact hne ((hB.grad_ne hxr).1 (by rw [← neg_eq_zero, ← hd]))
    have := hpd.2 d hd0
    linarith

/-- **C107**, Levenberg-Marquardt: in the same situation every iteration that does not start at `xs` is accepted, and lowers the distance of the cost to the minimum by a fixed factor,
where `Λ` bounds the damping. -/
theorem C107_lm (h : UserQuad P (fun x => nrm (x - xs) ≤ ρ) f G Q m) (hsq : so.useSquaredNorm = true ∨ 0 ≤ f xs) (hB : Bowl f G Q xs ρ μ C L) {r : ℝ} (hr : Bowl.Small ρ μ C L r)
    (hρ : 0 ≤ ρ) (hL : ExactLinAlg LA) (hone : so.useLdlt = true ∨ P.dims ≠ some 1) (hr0 : so.dampLo ≤ so.dampHi) (hlo : 0 ≤ so.dampLo) (hin : 0 ≤ so.dampInit)
    (hmin : ∀ x, nrm (x - xs) ≤ ρ → DiagOk so (Q x)) (hclip : so.gradClip = 0) {Λ : ℝ}
    (s : LMState ℝ R) (hs : P.dims = none ∨ s.gn.n = n) (hreb : s.rebuild = true) (hal : Allowed so s.lambda) (hsl : s.lambda ≤ Λ) (hΛ : so.dampHi ≤ Λ)
    (fuel : Nat) (mi k : Int) (hk : loopBound o mi = some k) (hk2 : k ≤ 65536) (w : W) (x0 : Vec ℝ n) (hx0 : nrm (x0 - xs) ≤ r) (hf0 : f x0 ≤ f xs + μ / 2 * r ^ 2)
    (hc0 : nCost so m (f x0) < maxVal) :
    ∃ st, optimizeAcc (lmEnv so LA P) o (fuel + 1) mi w s x0 = .ok st ∧
      (∀ t ∈ st.trace, (t.x ≠ xs → t.succ = true ∧ f t.xNext < f t.x) ∧ (t.x = xs → t.xNext = xs) ∧
        f t.xNext - f xs ≤ (1 - 2 * μ / (3 * (C * (1 + Λ)))) * (f t.x - f xs)) ∧
      μ / 2 * nrm (st.x - xs) ^ 2 ≤ f st.x - f xs ∧
      f st.x - f xs ≤ (1 - 2 * μ / (3 * (C * (1 + Λ)))) ^ st.trace.length * (f x0 - f xs) := by
  have hμ := hB.posμ; have hC := hB.posC
  have hnn : ∀ l, Allowed so l → 0 ≤ l := by
    rintro l (rfl | h)
    · exact hin
    · exact hlo.trans h
  have hle : r ≤ ρ := hr.le hB hρ
  have hΛ0 : 0 ≤ Λ := hlo.trans (hr0.trans hΛ)
  let Ω : Vec ℝ n → Prop := fun x => nrm (x - xs) ≤ r ∧ f x ≤ f xs + μ / 2 * r ^ 2
  have hΩ : ∀ x, Ω x → nrm (x - xs) ≤ ρ := fun x hx => hx.1.trans hle
  have h' : UserQuad P Ω f G Q m := { h with
    psd := fun x hx => h.psd x (hΩ x hx)
    full := fun w x hx => h.full w x (hΩ x hx)
    eval := fun w x hx => h.eval w x (hΩ x hx) }
  obtain ⟨st, e, hΩe, ht⟩ := lm_quad_run (o := o) h' (hsq.imp id fun h0 x hx => by
      have := (hB.minimum (hΩ x hx)).1
      have : 0 ≤ μ / 2 * nrm (x - xs) ^ 2 := by positivity
      linarith) hL
    (fun x hx l hl => damped_pd_mono (hB.pd (hΩ x hx)).psd (l := 0) (by rw [damped_zero]; exact hB.pd (hΩ x hx)) (hnn l hl)) hone hr0 hlo hin
    (fun x hx => hmin x (hΩ x hx)) hclip (K := fun _ l _ => l ≤ Λ) (fun _ _ h => h)
    (by
      rintro i s2 s3 q - - hg
      unfold lmGood at hg
      rw [stdClamp_real hr0] at hg
      injection hg with hg
      subst hg
      exact max_le (hr0.trans hΛ) ((min_le_right _ _).trans hΛ))
    (fun i x d l b hx hl hlΛ hg hd => by
      obtain ⟨h1, -, h3⟩ := hB.lm_step hr hρ (hnn l hl) hlΛ hx.1 hx.2 hd
      have h4 := h3 fun e => hg (e ▸ hB.zero)
      exact ⟨⟨h1, h4.le.trans hx.2⟩, h4⟩)
    s hs hreb hal hsl fuel mi k hk hk2 w x0 ⟨hx0, hf0⟩ hc0
  have hrow : ∀ t ∈ st.trace, (t.x ≠ xs → t.succ = true ∧ f t.xNext < f t.x) ∧ (t.x = xs → t.xNext = xs) ∧
        f t.xNext - f xs ≤ (1 - 2 * μ / (3 * (C * (1 + Λ)))) * (f t.x - f xs) := by
    intro t htt
    obtain ⟨i, hi⟩ := List.getElem?_of_mem htt
    obtain ⟨h1, h2, h3⟩ := ht i t hi
    have hp : 0 < 3 * (C * (1 + Λ)) := by positivity
    by_cases he : t.x = xs
    · have h4 := h2 (by rw [he]; exact hB.zero)
      refine ⟨fun h => absurd he h, fun _ => h4.trans he, ?_⟩
      rw [h4, he]; simp
    · have hg : G t.x ≠ 0 := fun hg => he ((hB.grad_ne (hΩ _ h1)).1 hg)
      obtain ⟨h4, l, b, h5, h6, h7⟩ := h3 hg
      obtain ⟨-, h8, h9⟩ := hB.lm_step hr hρ (hnn l h6) h5 h1.1 h1.2 h7
      rw [add_sub_cancel] at h8 h9
      refine ⟨fun _ => ⟨h4, h9 he⟩, fun h => absurd h he, ?_⟩
      have : 2 * μ / (3 * (C * (1 + Λ))) * (f t.x - f xs) ≤ f t.x - f t.xNext := by
        rw [div_mul_eq_mul_div, div_le_iff₀ hp]; linarith
      linarith
  refine ⟨st, e, hrow, by have := (hB.minimum (hΩ _ hΩe)).1; linarith, ?_⟩
  have hp := run_path e
  by_cases hθ : 0 ≤ 1 - 2 * μ / (3 * (C * (1 + Λ)))
  · clear ht hx0 hc0 e hf0 hΩe
    generalize 1 - 2 * μ / (3 * (C * (1 + Λ))) = θ at hrow hθ ⊢
    generalize st.x = y at hp ⊢
    generalize st.trace = tr at hp hrow ⊢
    generalize x0 = x at hp ⊢
    induction tr generalizing x with
    | nil => simp only [Path] at hp; subst hp; simp
    | cons t tr ih =>
      obtain ⟨h1, h2⟩ := hp
      have h3 := ih (fun t ht => hrow t (List.mem_cons_of_mem _ ht)) t.xNext h2
      have h4 := (hrow t List.mem_cons_self).2.2
      rw [h1] at h4
      refine h3.trans ?_
      rw [List.length_cons, pow_succ, mul_assoc]
      exact mul_le_mul_of_nonneg_left h4 (pow_nonneg hθ _)
  · rcases Nat.eq_zero_or_pos n with rfl | hn
    · have h1 : st.x = xs := Subsingleton.elim _ _
      have h2 : x0 = xs := Subsingleton.elim _ _
      rw [h1, h2]; simp
    · exfalso
      have h1 : 3 * (C * (1 + Λ)) < 2 * μ := by
        rw [not_le, sub_neg, lt_div_iff₀ (by positivity)] at hθ
        linarith
      have h0 : nrm (xs - xs) ≤ ρ := by rw [sub_self, nrm_zero]; exact hρ
      have h2 := (hB.low xs (Pi.single ⟨0, hn⟩ 1) h0).trans (hB.up xs (Pi.single ⟨0, hn⟩ 1) h0)
      have h3 : 0 < nrm (Pi.single ⟨0, hn⟩ 1 : Vec ℝ n) ^ 2 := pow_pos (nrm_pos (by simp)) 2
      have h4 := le_of_mul_le_mul_right h2 h3
      nlinarith

end

/-! ### Expressions: gradient and Hessian from jets of jets -/

section
open Filter Topology
variable {n : Nat}

theorem norm_le_nrm (v : Vec ℝ n) : ‖v‖ ≤ nrm v := by
  refine (pi_norm_le_iff_of_nonneg (nrm_nonneg v)).2 fun i => ?_
  refine abs_le_of_sq_le_sq (a := v i) ?_ (nrm_nonneg v)
  rw [nrm_sq, pow_two]
  exact Finset.single_le_sum (f := fun i => v i * v i) (fun i _ => mul_self_nonneg _) (Finset.mem_univ i)

/-- what holds near a point holds on a ball -/
theorem eventually_ball {p : Vec ℝ n → Prop} {xs : Vec ℝ n} (h : ∀ᶠ y in 𝓝 xs, p y) : ∃ ρ, 0 < ρ ∧ ∀ y, nrm (y - xs) ≤ ρ → p y := by
  obtain ⟨ε, h0, h1⟩ := Metric.eventually_nhds_iff.1 h
  refine ⟨ε / 2, by linarith, fun y hy => h1 ?_⟩
  rw [dist_eq_norm]
  have := (norm_le_nrm (y - xs)).trans hy
  linarith

/-- a positive definite matrix bounds the norm -/
theorem pd_mu {H : Mat ℝ n} (hH : PD H) : ∃ μ, 0 < μ ∧ ∀ v, μ * nrm v ^ 2 ≤ dotR v (mv H v) := by
  obtain ⟨κ, h0, h1⟩ := pd_kappa hH
  obtain ⟨δ, hδ, h2⟩ : ∃ δ, 0 < δ ∧ ∀ i, δ ≤ H i i := by
    rcases isEmpty_or_nonempty (Fin n) with he | he
    · exact ⟨1, one_pos, fun i => he.elim i⟩
    · obtain ⟨i, hi⟩ := Finite.exists_min fun i => H i i
      exact ⟨H i i, pd_diag hH i, hi⟩
  refine ⟨δ / κ, by positivity, fun v => ?_⟩
  rw [div_mul_eq_mul_div, div_le_iff₀ h0]
  have h3 : δ * nrm v ^ 2 ≤ diagSq H v := by
    rw [nrm_sq]
    unfold dotR diagSq
    rw [Finset.mul_sum]
    refine Finset.sum_le_sum fun i _ => ?_
    have := h2 i
    nlinarith [sq_nonneg (v i)]
  have := h1 v
  linarith

/-- matrices with Lipschitz coefficients -/
theorem mats_lip {A B : Mat ℝ n} {K : Fin n → Fin n → ℝ} {δ : ℝ} (hδ : 0 ≤ δ) (h : ∀ i j, |A i j - B i j| ≤ K i j * δ) (v : Vec ℝ n) :
    nrm (mv A v - mv B v) ≤ √(∑ i, ∑ j, K i j ^ 2) * δ * nrm v := by
  have e : mv A v - mv B v = mv (fun i j => A i j - B i j) v := by
    funext i
    simp [mv, sub_mul, Finset.sum_sub_distrib]
  rw [e]
  refine abs_le_of_sq_le_sq' ?_ (by have := nrm_nonneg v; positivity) |>.2
  rw [nrm_sq]
  refine (mv_frob _ v).trans ?_
  rw [mul_pow, mul_pow, Real.sq_sqrt (Finset.sum_nonneg fun _ _ => Finset.sum_nonneg fun _ _ => sq_nonneg _), nrm_sq]
  refine mul_le_mul_of_nonneg_right ?_ (dotR_self_nonneg v)
  unfold frob
  simp only [Finset.sum_mul]
  refine Finset.sum_le_sum fun i _ => Finset.sum_le_sum fun j _ => ?_
  rw [← mul_pow, ← sq_abs (A i j - B i j)]
  exact pow_le_pow_left₀ (abs_nonneg _) (h i j) 2

/-- gradient and Hessian -/
noncomputable def gradOf (f : Vec ℝ n → ℝ) (x : Vec ℝ n) : Vec ℝ n := fun i => partialD i f x
noncomputable def hessOf (f : Vec ℝ n → ℝ) (x : Vec ℝ n) : Mat ℝ n := fun i j => partialD j (partialD i f) x

theorem smooth_diff {f : Vec ℝ n → ℝ} {x : Vec ℝ n} (h : SmoothAt f x) : DifferentiableAt ℝ f x := by
  obtain ⟨J, hJ⟩ := h 1
  exact hJ.2.1.self_of_nhds

theorem smooth_lip {f : Vec ℝ n → ℝ} {xs : Vec ℝ n} (hf : ∀ᶠ y in 𝓝 xs, SmoothAt f y) : ∃ K : ℝ, ∀ᶠ z in 𝓝 xs ×ˢ 𝓝 xs, |f z.1 - f z.2| ≤ K * ‖z.1 - z.2‖ := by
  have h1 : ∀ᶠ y in 𝓝 xs, HasFDerivAt f (fderiv ℝ f y) y := hf.mono fun y hy => (smooth_diff hy).hasFDerivAt
  have e : fderiv ℝ f =ᶠ[𝓝 xs] fun y => rowCLM (gradOf f y) := hf.mono fun y hy => by
    have : HasFDerivAt f (rowCLM (gradOf f y)) y := hasGrad_partialD (smooth_diff hy)
    exact this.fderiv
  have h2 : ContinuousAt (fderiv ℝ f) xs := by
    refine ContinuousAt.congr ?_ e.symm
    have hl : ∀ w : RVec n, rowCLM w = (∑ i, w i • ContinuousLinearMap.proj (R := ℝ) (φ := fun _ : Fin n => ℝ) i) := fun w => rfl
    simp only [hl]
    refine tendsto_finsetSum _ fun i _ => ?_
    exact ((smooth_diff (hf.self_of_nhds.partialD i)).continuousAt).smul continuousAt_const
  obtain ⟨K, s, hs, hK⟩ := (hasStrictFDerivAt_of_hasFDerivAt_of_continuousAt h1 h2).exists_lipschitzOnWith
  refine ⟨K, ?_⟩
  filter_upwards [prod_mem_prod hs hs] with z hz
  have := hK.dist_le_mul z.1 hz.1 z.2 hz.2
  rwa [dist_eq_norm, dist_eq_norm, Real.norm_eq_abs] at this

/-- Where all derivatives exist, a point with zero gradient and definite Hessian has a ball around it as in `Bowl`. -/
theorem bowl_of_smooth {f : Vec ℝ n → ℝ} {xs : Vec ℝ n} (hf : ∀ᶠ y in 𝓝 xs, SmoothAt f y) (hg : gradOf f xs = 0) (hH : PD (hessOf f xs)) {p : Vec ℝ n → Prop}
    (hp : ∀ᶠ y in 𝓝 xs, p y) : ∃ ρ μ C L, 0 < ρ ∧ Bowl f (gradOf f) (hessOf f) xs ρ μ C L ∧ ∀ x, nrm (x - xs) ≤ ρ → p x := by
  have h1 : ∀ i j, ∃ K : ℝ, ∀ᶠ z in 𝓝 xs ×ˢ 𝓝 xs, |hessOf f z.1 i j - hessOf f z.2 i j| ≤ K * ‖z.1 - z.2‖ := fun i j =>
    smooth_lip (f := fun x => hessOf f x i j) (hf.mono fun y hy => (hy.partialD i).partialD j)
  choose K hK using h1
  have hall : ∀ᶠ z in 𝓝 xs ×ˢ 𝓝 xs, ∀ i j, |hessOf f z.1 i j - hessOf f z.2 i j| ≤ K i j * ‖z.1 - z.2‖ :=
    eventually_all.2 fun i => eventually_all.2 fun j => hK i j
  obtain ⟨pa, ha, pb, hb, hab⟩ := eventually_prod_iff.1 hall
  obtain ⟨ρ1, hρ1, hin⟩ := eventually_ball (ha.and (hb.and (hf.and hp)))
  obtain ⟨μ, hμ, hlow⟩ := pd_mu hH
  let L := √(∑ i, ∑ j, K i j ^ 2)
  have hL : 0 ≤ L := Real.sqrt_nonneg _
  let ρ := min ρ1 (μ / (2 * (L + 1)))
  have hρ : 0 < ρ := lt_min hρ1 (by positivity)
  have hLρ : L * ρ ≤ μ / 2 := by
    have : ρ ≤ μ / (2 * (L + 1)) := min_le_right _ _
    rw [le_div_iff₀ (by positivity)] at this
    nlinarith
  have hin' : ∀ x, nrm (x - xs) ≤ ρ → pa x ∧ pb x ∧ SmoothAt f x ∧ p x := fun x hx => hin x (hx.trans (min_le_left _ _))
  have hlip : ∀ x y v, nrm (x - xs) ≤ ρ → nrm (y - xs) ≤ ρ → nrm (mv (hessOf f x) v - mv (hessOf f y) v) ≤ L * nrm (x - y) * nrm v := fun x y v hx hy => by
    refine (mats_lip (norm_nonneg (x - y)) (fun i j => hab (hin' x hx).1 (hin' y hy).2.1 i j) v).trans ?_
    exact mul_le_mul_of_nonneg_right (mul_le_mul_of_nonneg_left (norm_le_nrm _) hL) (nrm_nonneg v)
  have h0 : nrm (xs - xs) ≤ ρ := by rw [sub_self, nrm_zero]; exact hρ.le
  have hdiff : ∀ x v, nrm (x - xs) ≤ ρ → |dotR v (mv (hessOf f x) v) - dotR v (mv (hessOf f xs) v)| ≤ μ / 2 * nrm v ^ 2 := fun x v hx => by
    have e1 := hlip x xs v hx h0
    have e2 := dotR_le_nrm v (mv (hessOf f x) v - mv (hessOf f xs) v)
    have e3 := dotR_le_nrm (-v) (mv (hessOf f x) v - mv (hessOf f xs) v)
    rw [nrm_neg, dotR_comm (-v), dotR_neg, dotR_comm _ v] at e3
    rw [dotR_sub] at e2 e3
    have e4 : L * nrm (x - xs) ≤ μ / 2 := (mul_le_mul_of_nonneg_left hx hL).trans hLρ
    have e5 : nrm v * nrm (mv (hessOf f x) v - mv (hessOf f xs) v) ≤ μ / 2 * nrm v ^ 2 := by
      have := nrm_nonneg v
      have e6 : L * nrm (x - xs) * nrm v ≤ μ / 2 * nrm v := mul_le_mul_of_nonneg_right e4 this
      have e7 := mul_le_mul_of_nonneg_left (e1.trans e6) this
      linarith
    exact abs_le.2 ⟨by linarith, by linarith⟩
  refine ⟨ρ, μ / 2, √(frob (hessOf f xs)) + μ / 2, L, hρ, ⟨fun x hx => hasGrad_partialD (smooth_diff (hin' x hx).2.2.1), fun x hx i =>
    hasGrad_partialD (smooth_diff ((hin' x hx).2.2.1.partialD i)), hg, fun x hx i j => (hin' x hx).2.2.1.symm i j, fun x v hx => ?_, fun x v hx => ?_, hlip, by positivity,
    by positivity, hL⟩, fun x hx => (hin' x hx).2.2.2⟩
  · have := abs_le.1 (hdiff x v hx)
    have := hlow v
    linarith
  · have h2 := abs_le.1 (hdiff x v hx)
    have h3 := dotR_le_nrm v (mv (hessOf f xs) v)
    have h4 : nrm (mv (hessOf f xs) v) ≤ √(frob (hessOf f xs)) * nrm v := by
      refine abs_le_of_sq_le_sq' ?_ (by have := nrm_nonneg v; positivity) |>.2
      rw [nrm_sq, mul_pow, Real.sq_sqrt (frob_nonneg _), nrm_sq]
      exact mv_frob _ v
    have h5 := mul_le_mul_of_nonneg_left h4 (nrm_nonneg v)
    nlinarith

/-- The argument of the user's function written with jets of jets. -/
def seed2 (x : Vec ℝ n) : Fin n → NJet (NJet ℝ n) n := fun i => ⟨⟨x i, fun j => if j = i then 1 else 0⟩, fun j => ⟨if j = i then 1 else 0, fun _ => 0⟩⟩

/-- The user's function evaluates the expression `e` on jets of jets, takes gradient and Hessian from the result and the cost from its value, or, when only the cost is asked, on
numbers. It reports `m > 0` residuals. -/
structure JetNewton {R W : Type} (P : Problem ℝ R W (Vec ℝ n)) (e : NExpr n) (m : Nat) : Prop extends VecParams P where
  pos : 0 < m
  full : ∀ w x J, e.eval (seed2 x) = some J → ∃ c w', P.acc.full w x n (fun _ => 0) (fun _ _ => 0) = ((c, J.a.v, fun i j => (J.v i).v j), w') ∧ c.cost = J.a.a ∧ c.num = m
  eval : ∀ w x (a : ℝ), e.eval x = some a → (P.acc.eval w x).1.cost = a ∧ (P.acc.eval w x).1.num = m

variable {R W : Type} {m : Nat} {so : SolverOpts ℝ} {LA : LinAlg ℝ} {P : Problem ℝ R W (Vec ℝ n)}

theorem JetNewton.quad {e : NExpr n} (h : JetNewton P e m) {Ω : Vec ℝ n → Prop} (hd : ∀ x, Ω x → e.InDom x) (hp : ∀ x, Ω x → PSD (hessOf e.value x)) :
    UserQuad P Ω e.value (gradOf e.value) (hessOf e.value) m where
  pos := h.pos
  psd := hp
  full w x hx := by
    obtain ⟨J, h1, h2, h3, h4, h5, -⟩ := C106_hessian e x (hd x hx)
    obtain ⟨c, w', e1, e2, e3⟩ := h.full w x J h1
    refine ⟨c, w', ?_, e2.trans h2, e3⟩
    rw [e1, show J.a.v = gradOf e.value x from funext fun i => (h3.partialD_eq i).symm,
      show (fun i j => (J.v i).v j) = hessOf e.value x from funext fun i => funext fun j => ((h5 i).partialD_eq j).symm]
  eval w x hx := by
    obtain ⟨J, h1, h2⟩ := C106_derivatives e x (hd x hx) 0
    have := h.eval w x J h1
    rwa [show J = e.value x from h2 [] le_rfl] at this
  dyn := h.dyn
  size := h.size
  plus := h.plus

/-- second derivatives in a direction -/
theorem hess_dir {f : Vec ℝ n → ℝ} {xs : Vec ℝ n} (hf : ∀ᶠ y in 𝓝 xs, SmoothAt f y) (v : Vec ℝ n) :
    fderiv ℝ (fun y => fderiv ℝ f y v) xs v = dotR v (mv (hessOf f xs) v) := by
  have e : (fun y => fderiv ℝ f y v) =ᶠ[𝓝 xs] fun y => ∑ i, partialD i f y * v i := hf.mono fun y hy => by
    have : HasFDerivAt f (rowCLM (gradOf f y)) y := hasGrad_partialD (smooth_diff hy)
    simp only [this.fderiv, rowCLM_apply]
    rfl
  have h2 : ∀ i, HasFDerivAt (partialD i f) (rowCLM (hessOf f xs i)) xs := fun i => hasGrad_partialD (smooth_diff (hf.self_of_nhds.partialD i))
  have h3 : HasFDerivAt (fun y => ∑ i, partialD i f y * v i) (∑ i, v i • rowCLM (hessOf f xs i)) xs :=
    HasFDerivAt.fun_sum fun i _ => (h2 i).mul_const (v i)
  rw [e.fderiv_eq, h3.fderiv]
  simp [dotR, mv, _root_.sum_apply, rowCLM_apply, dotProduct]

/-- conditions on the Hessian at `xs` that let the solver accept Hessians near it -/
structure HessOk (so : SolverOpts ℝ) (P : Problem ℝ R W (Vec ℝ n)) (H : Mat ℝ n) : Prop where
  one : so.useLdlt = true ∨ P.dims ≠ some 1 ∨ ∀ h : 0 < n, eps < H ⟨0, h⟩ ⟨0, h⟩
  diag : so.checkMinHDiag ≤ 0 ∨ ∀ i, so.checkMinHDiag < H i i

theorem HessOk.near {f : Vec ℝ n → ℝ} {xs : Vec ℝ n} (h : HessOk so P (hessOf f xs)) (hf : ∀ᶠ y in 𝓝 xs, SmoothAt f y) :
    ∀ᶠ x in 𝓝 xs, Solves so (P.dims == some 1) (hessOf f x) ∧ DiagOk so (hessOf f x) := by
  have hc : ∀ i j, ContinuousAt (fun x => hessOf f x i j) xs := fun i j => (smooth_diff ((hf.self_of_nhds.partialD i).partialD j)).continuousAt
  refine Filter.Eventually.and ?_ ?_
  · rcases h.one with h1 | h1 | h1
    · exact Eventually.of_forall fun x => Or.inl h1
    · exact Eventually.of_forall fun x => Or.inr (Or.inl (by simpa using h1))
    · rcases Nat.eq_zero_or_pos n with rfl | hn
      · exact Eventually.of_forall fun x => Or.inr (Or.inr fun h => absurd h (lt_irrefl 0))
      · exact ((hc ⟨0, hn⟩ ⟨0, hn⟩).eventually (lt_mem_nhds (h1 hn))).mono fun x hx => Or.inr (Or.inr fun _ => hx)
  · rcases h.diag with h1 | h1
    · exact Eventually.of_forall fun x => Or.inl h1
    · exact (eventually_all.2 fun i => (hc i i).eventually (lt_mem_nhds (h1 i))).mono fun x hx => Or.inr fun i => (hx i).le.trans (le_abs_self _)

theorem pd_of_dir {e : NExpr n} {xs : Vec ℝ n} (hd : e.InDom xs) (hpos : ∀ v ≠ 0, 0 < fderiv ℝ (fun y => fderiv ℝ e.value y v) xs v) : PD (hessOf e.value xs) := by
  have hf : ∀ᶠ y in 𝓝 xs, SmoothAt e.value y := (e.inDom_open hd).mono fun y hy => e.smooth hy
  exact ⟨fun i j => hf.self_of_nhds.symm i j, fun v hv => by rw [← hess_dir hf]; exact hpos v hv⟩

/-- **C107**: let the user's function take gradient and Hessian from jets of jets, for any expression, and let `xs` be a point in its domain where the derivative vanishes and the
second derivative is positive in all directions. Then from every start in some ball around `xs`, whatever the options and stop criteria, Gauss-Newton ends normally and converges
quadratically to `xs`, every iteration lowering the cost. -/
theorem C107_jets_newton {e : NExpr n} (h : JetNewton P e m) {xs : Vec ℝ n} (hd : e.InDom xs) (hstat : fderiv ℝ e.value xs = 0)
    (hpos : ∀ v ≠ 0, 0 < fderiv ℝ (fun y => fderiv ℝ e.value y v) xs v) (hsq : so.useSquaredNorm = true ∨ 0 ≤ e.value xs) (hok : HessOk so P (hessOf e.value xs))
    (hL : ExactLinAlg LA) (hclip : so.gradClip = 0) :
    ∃ ρ q, 0 < ρ ∧ 0 ≤ q ∧ q * ρ < 1 ∧ ∀ (o : Options ℝ W (DVec ℝ)) (s : GNState ℝ R) (fuel : Nat) (mi k : Int) (w : W) (x0 : Vec ℝ n),
      (P.dims = none ∨ s.n = n) → loopBound o mi = some k → nrm (x0 - xs) ≤ ρ → nCost so m (e.value x0) < maxVal →
      ∃ st, optimizeAcc (gnEnv so LA P) o (fuel + 1) mi w s x0 = .ok st ∧
        (∀ t ∈ st.trace, (t.x ≠ xs → t.succ = true ∧ e.value t.xNext < e.value t.x) ∧ nrm (t.xNext - xs) ≤ q * nrm (t.x - xs) ^ 2) ∧
        q * nrm (st.x - xs) ≤ (q * nrm (x0 - xs)) ^ 2 ^ st.trace.length := by
  have hf : ∀ᶠ y in 𝓝 xs, SmoothAt e.value y := (e.inDom_open hd).mono fun y hy => e.smooth hy
  obtain ⟨ρ, μ, C, L, hρ, hB, hin⟩ := bowl_of_smooth hf (by funext i; simp [gradOf, partialD, hstat]) (pd_of_dir hd hpos) ((e.inDom_open hd).and (hok.near hf))
  have hμ := hB.posμ
  have hL0 := hB.posL
  let r := min ρ (μ / (2 * (L + 1)))
  have hr : 0 < r := lt_min hρ (by positivity)
  have hLr : 2 * (L * r) ≤ μ := by
    have : r ≤ μ / (2 * (L + 1)) := min_le_right _ _
    rw [le_div_iff₀ (by positivity)] at this
    nlinarith
  have hle : r ≤ ρ := min_le_left _ _
  have hB' := hB.mono hle
  refine ⟨r, L / (2 * μ), hr, by positivity, ?_, fun o s fuel mi k w x0 hs hk hx0 hc0 => ?_⟩
  · rw [div_mul_eq_mul_div, div_lt_one (by linarith)]
    linarith
  · obtain ⟨st, e1, e2, -, e3⟩ := C107_newton (o := o) (h.quad (fun x hx => (hin x (hx.trans hle)).1) fun x hx => (hB'.pd hx).psd) hsq hB' hLr hL
      (fun x hx => (hin x (hx.trans hle)).2.1) (fun x hx => (hin x (hx.trans hle)).2.2) hclip s hs fuel mi k hk w x0 hx0 hc0
    exact ⟨st, e1, fun t ht => ⟨(e2 t ht).1, (e2 t ht).2.2⟩, e3⟩

/-- **C107**, Levenberg-Marquardt in the same situation: it converges linearly, at a rate that depends on the expression and on the largest damping `Λ` only. -/
theorem C107_jets_lm {e : NExpr n} (h : JetNewton P e m) {xs : Vec ℝ n} (hd : e.InDom xs) (hstat : fderiv ℝ e.value xs = 0)
    (hpos : ∀ v ≠ 0, 0 < fderiv ℝ (fun y => fderiv ℝ e.value y v) xs v) (hsq : so.useSquaredNorm = true ∨ 0 ≤ e.value xs) (hok : HessOk so P (hessOf e.value xs))
    (hL : ExactLinAlg LA) (hone : so.useLdlt = true ∨ P.dims ≠ some 1) (hr0 : so.dampLo ≤ so.dampHi) (hlo : 0 ≤ so.dampLo) (hin0 : 0 ≤ so.dampInit) (hclip : so.gradClip = 0)
    {Λ : ℝ} (hΛ : so.dampHi ≤ Λ) :
    ∃ ρ μ θ, 0 < ρ ∧ 0 < μ ∧ θ < 1 ∧ ∀ (o : Options ℝ W (DVec ℝ)) (s : LMState ℝ R) (fuel : Nat) (mi k : Int) (w : W) (x0 : Vec ℝ n),
      (P.dims = none ∨ s.gn.n = n) → s.rebuild = true → Allowed so s.lambda → s.lambda ≤ Λ → loopBound o mi = some k → k ≤ 65536 → nrm (x0 - xs) ≤ ρ →
      nCost so m (e.value x0) < maxVal →
      ∃ st, optimizeAcc (lmEnv so LA P) o (fuel + 1) mi w s x0 = .ok st ∧
        (∀ t ∈ st.trace, (t.x ≠ xs → t.succ = true ∧ e.value t.xNext < e.value t.x) ∧ e.value t.xNext - e.value xs ≤ θ * (e.value t.x - e.value xs)) ∧
        μ * nrm (st.x - xs) ^ 2 ≤ e.value st.x - e.value xs ∧ e.value st.x - e.value xs ≤ θ ^ st.trace.length * (e.value x0 - e.value xs) := by
  have hf : ∀ᶠ y in 𝓝 xs, SmoothAt e.value y := (e.inDom_open hd).mono fun y hy => e.smooth hy
  obtain ⟨ρ, μ, C, L, hρ, hB, hin⟩ := bowl_of_smooth hf (by funext i; simp [gradOf, partialD, hstat]) (pd_of_dir hd hpos) ((e.inDom_open hd).and (hok.near hf))
  have hμ := hB.posμ
  have hC := hB.posC
  have hL0 := hB.posL
  have hΛ0 : 0 ≤ Λ := hlo.trans (hr0.trans hΛ)
  obtain ⟨B, hBe⟩ : ∃ B, B = (C + L / 2 * ρ) / μ := ⟨_, rfl⟩
  have hB0 : 0 ≤ B := by rw [hBe]; positivity
  let r := min (ρ / (1 + B)) (μ / (L * B + 1))
  have hr : 0 < r := lt_min (by positivity) (by positivity)
  have hsm : Bowl.Small ρ μ C L r := by
    refine ⟨hr, ?_, ?_⟩
    · rw [← hBe, mul_comm, ← le_div_iff₀ (by positivity)]; exact min_le_left _ _
    · rw [← hBe]
      have : r ≤ μ / (L * B + 1) := min_le_right _ _
      rw [le_div_iff₀ (by positivity)] at this
      nlinarith
  let z := min 1 (μ / C)
  have hz : 0 < z := lt_min one_pos (by positivity)
  have hz1 : z ≤ 1 := min_le_left _ _
  have hz2 : C * z ≤ μ := by
    have : z ≤ μ / C := min_le_right _ _
    rw [le_div_iff₀ hC] at this
    linarith
  refine ⟨r * z, μ / 2, 1 - 2 * μ / (3 * (C * (1 + Λ))), by positivity, by positivity, ?_, fun o s fuel mi k w x0 hs hreb hal hsl hk hk2 hx0 hc0 => ?_⟩
  · have : 0 < 2 * μ / (3 * (C * (1 + Λ))) := by positivity
    linarith
  · have hx0r : nrm (x0 - xs) ≤ r := hx0.trans (by nlinarith)
    have hf0 : e.value x0 ≤ e.value xs + μ / 2 * r ^ 2 := by
      have h1 := (hB.minimum (hx0r.trans (hsm.le hB hρ.le))).2
      have h2 : nrm (x0 - xs) ^ 2 ≤ (r * z) ^ 2 := pow_le_pow_left₀ (nrm_nonneg _) hx0 2
      have h3 : C / 2 * (r * z) ^ 2 ≤ μ / 2 * r ^ 2 := by
        have h4 : C * z * z ≤ μ := by nlinarith
        have := mul_le_mul_of_nonneg_right h4 (sq_nonneg r)
        nlinarith
      have := mul_le_mul_of_nonneg_left h2 (show 0 ≤ C / 2 by linarith)
      linarith
    obtain ⟨st, e1, e2, e3, e4⟩ := C107_lm (o := o) (h.quad (fun x hx => (hin x hx).1) fun x hx => (hB.pd hx).psd) hsq hB hsm hρ.le hL hone hr0 hlo hin0
      (fun x hx => (hin x hx).2.2) hclip s hs hreb hal hsl hΛ fuel mi k hk hk2 w x0 hx0r hf0 hc0
    exact ⟨st, e1, fun t ht => ⟨(e2 t ht).1, (e2 t ht).2.2⟩, e3, e4⟩

end

/-! ### the hypotheses can be met -/

/-- a user's function written with jets of jets; where the expression is not defined it reports no residuals -/
noncomputable def newtonProb {n : Nat} (e : NExpr n) : Problem ℝ ℝ Unit (Vec ℝ n) where
  acc :=
    { full := fun w x k g H => match e.eval (seed2 x) with
        | some J => (({ cost := J.a.a, num := 1, inlier := 1 }, fun i => if h : i.1 < n then g i + J.a.v ⟨i.1, h⟩ else g i,
            fun i j => if h : i.1 < n ∧ j.1 < n then H i j + (J.v ⟨i.1, h.1⟩).v ⟨j.1, h.2⟩ else H i j), w)
        | none => (({ cost := 0, num := 0, inlier := 1 }, g, H), w)
      eval := fun w x => match e.eval (T := ℝ) x with
        | some a => ({ cost := a, num := 1, inlier := 1 }, w)
        | none => ({ cost := 0, num := 0, inlier := 1 }, w) }
  dims := none
  dynDims := fun _ => n
  plusEq := fun x d => fun i => if h : i.1 < d.n then x i + d.v ⟨i.1, h⟩ else x i
  clock := fun w => (1, w)
  alloc := fun w _ => (some (fun _ => 7, fun _ _ => 7), w)
  ratio1 := 1

theorem newtonProb_jets {n : Nat} (e : NExpr n) (hn : 0 < n) : JetNewton (newtonProb e) e 1 where
  pos := one_pos
  full w x J hJ := by
    refine ⟨{ cost := J.a.a, num := 1, inlier := 1 }, w, ?_, rfl, rfl⟩
    simp only [newtonProb, hJ]
    simp
  eval w x a ha := by
    simp [newtonProb, ha]
  dyn _ := rfl
  size := Or.inr ⟨rfl, hn, fun w _ => ⟨_, w, rfl⟩⟩
  plus x v := by funext i; simp [newtonProb]

/-- `exp(x) - x + y * y`, minimal at the origin, where it is 1 -/
noncomputable def bowlE : NExpr 2 := .add (.sub (.fn .exp (.var 0)) (.var 0)) (.mul (.var 1) (.var 1))

theorem bowlE_deriv (y v : Vec ℝ 2) : fderiv ℝ bowlE.value y v = (Real.exp (y 0) - 1) * v 0 + 2 * y 1 * v 1 := by
  have h0 : HasFDerivAt (fun y : Vec ℝ 2 => y 0) (ContinuousLinearMap.proj (R := ℝ) (φ := fun _ : Fin 2 => ℝ) 0) y := hasFDerivAt_apply 0 y
  have h1 : HasFDerivAt (fun y : Vec ℝ 2 => y 1) (ContinuousLinearMap.proj (R := ℝ) (φ := fun _ : Fin 2 => ℝ) 1) y := hasFDerivAt_apply 1 y
  have h : HasFDerivAt bowlE.value _ y := (h0.exp.sub h0).add (h1.mul h1)
  rw [h.fderiv]
  simp [NExpr.value]; ring

theorem bowlE_pos (v : Vec ℝ 2) (hv : v ≠ 0) : 0 < fderiv ℝ (fun y => fderiv ℝ bowlE.value y v) 0 v := by
  simp only [bowlE_deriv]
  have h0 : HasFDerivAt (fun y : Vec ℝ 2 => y 0) (ContinuousLinearMap.proj (R := ℝ) (φ := fun _ : Fin 2 => ℝ) 0) 0 := hasFDerivAt_apply 0 0
  have h1 : HasFDerivAt (fun y : Vec ℝ 2 => y 1) (ContinuousLinearMap.proj (R := ℝ) (φ := fun _ : Fin 2 => ℝ) 1) 0 := hasFDerivAt_apply 1 0
  have h : HasFDerivAt (fun y : Vec ℝ 2 => (Real.exp (y 0) - 1) * v 0 + 2 * y 1 * v 1) _ 0 := ((h0.exp.sub_const 1).mul_const (v 0)).add ((h1.const_mul 2).mul_const (v 1))
  rw [h.fderiv]
  have : 0 < v 0 * v 0 + 2 * (v 1 * v 1) := by
    by_contra hc
    apply hv
    have a : v 0 = 0 := by nlinarith [mul_self_nonneg (v 0), mul_self_nonneg (v 1)]
    have b : v 1 = 0 := by nlinarith [mul_self_nonneg (v 0), mul_self_nonneg (v 1)]
    funext i; fin_cases i
    · exact a
    · exact b
  simp; nlinarith

/-- all hypotheses of `C107_jets_newton` and `C107_jets_lm` -/
example : JetNewton (newtonProb bowlE) bowlE 1 ∧ bowlE.InDom 0 ∧ fderiv ℝ bowlE.value 0 = 0 ∧ (∀ v ≠ 0, 0 < fderiv ℝ (fun y => fderiv ℝ bowlE.value y v) 0 v) ∧
    HessOk soptsLM (newtonProb bowlE) (hessOf bowlE.value 0) ∧ ExactLinAlg someLinAlg ∧ soptsLM.gradClip = 0 ∧ soptsLM.useSquaredNorm = true ∧ soptsLM.dampLo ≤ soptsLM.dampHi := by
  refine ⟨newtonProb_jets _ (by norm_num), ⟨⟨⟨trivial, trivial⟩, trivial⟩, trivial, trivial⟩, ?_, bowlE_pos, ⟨Or.inr (Or.inl (by simp [newtonProb])), Or.inl ?_⟩, someLinAlg_exact, rfl, rfl, ?_⟩
  · ext v; rw [bowlE_deriv]; simp
  · simp [soptsLM, soptsR]
  · norm_num [soptsLM]

end Verif
