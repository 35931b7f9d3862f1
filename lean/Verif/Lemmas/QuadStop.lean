import Verif.Lemmas.QuadRun
import Verif.Lemmas.StopRun
/-!
# Levenberg-Marquardt and Gauss-Newton runs whose steps decrease the cost, and why they stop
-/

set_option linter.unusedSectionVars false

namespace Verif
open FloatOps Loss

section
variable {R W : Type} {m n : Nat}
variable {so : SolverOpts ℝ} {LA : LinAlg ℝ} {P : Problem ℝ R W (Vec ℝ n)} {o : Options ℝ W (DVec ℝ)}
variable {Ω : Vec ℝ n → Prop} {f : Vec ℝ n → ℝ} {G : Vec ℝ n → Vec ℝ n} {Q : Vec ℝ n → Mat ℝ n}

theorem lm_quad_stop_run (h : UserQuad P Ω f G Q m) (hsq : so.useSquaredNorm = true ∨ ∀ x, Ω x → 0 ≤ f x) (hL : ExactLinAlg LA) (hA : ∀ x, Ω x → ∀ l, Allowed so l → PD (dampedR l (Q x)))
    (hone : so.useLdlt = true ∨ P.dims ≠ some 1) (hr0 : so.dampLo ≤ so.dampHi) (hlo : 0 ≤ so.dampLo) (hin : 0 ≤ so.dampInit)
    (hmin : ∀ x, Ω x → DiagOk so (Q x)) (hclip : so.gradClip = 0) (K : Nat → ℝ → ℝ → Prop) (hK1 : ∀ l β, K 0 l β → K 1 l β)
    (hKg : ∀ i (s2 s3 : LMState ℝ R) q, (o.useStepQuality = false → q = 0) → K i s2.lambda s2.badF → lmGood so s2 q = .ok s3 → K (i + 1) s3.lambda s3.badF)
    (hdec : ∀ i x d l β, Ω x → o.minError ≤ nCost so m (f x) → Allowed so l → K i l β → mv (dampedR l (Q x)) d = -G x → Ω (x + d) ∧ f (x + d) < f x)
    (herr : 0 < o.minError) (hcb1 : o.stopCallback = none) (hcb2 : o.stopCallback2 = none) (htime : o.maxDurationMs ≤ 0)
    (s : LMState ℝ R) (hs : P.dims = none ∨ s.gn.n = n) (hreb : s.rebuild = true) (hal : Allowed so s.lambda) (hK0 : K 0 s.lambda s.badF)
    (fuel : Nat) (mi k : Int) (hk : loopBound o mi = some k) (hk2 : k ≤ 65535)
    (w : W) (x0 : Vec ℝ n) (hΩ : Ω x0) (hx0 : nCost so m (f x0) < maxVal) :
    ∃ st, optimizeAcc (lmEnv so LA P) o (fuel + 1) mi w s x0 = .ok st ∧
      (∀ i t, st.trace[i]? = some t → Ω t.x ∧ t.succ = true ∧ ∃ l β, K i l β ∧ Allowed so l ∧ mv (dampedR l (Q t.x)) (t.xNext - t.x) = -G t.x) ∧
      ∃ tr t, st.trace = tr ++ [t] ∧ st.x = t.xNext ∧
        StopsBy o (fun x => nCost so m (f x)) (fun x => dotR (G x) (G x)) k (st.trace.map (·.x)) t.x (t.xNext - t.x) st.out.stop := by
  obtain ⟨st, e, ht, tr, t, d, h1, h2, hn, h3, h4⟩ := stop_run (P := P) (o := o) (sol := lmSolver so LA P) (fo := false) h.toVecParams
    (Ok := fun i s x => (P.dims = none ∨ s.gn.n = n) ∧ Allowed so s.lambda ∧ s.rebuild = true ∧ K i s.lambda s.badF)
    (Ω := fun x => Ω x ∧ nCost so m (f x) < maxVal)
    (c := fun x => nCost so m (f x)) (g2 := fun x => dotR (G x) (G x))
    (Step := fun i x d => ∃ l β, K i l β ∧ Allowed so l ∧ mv (dampedR l (Q x)) d = -G x) (k := k) hk2
    (fun i w s x hok hx => by
      obtain ⟨hsz, hal, hrd, hK⟩ := hok
      obtain ⟨s2, dx, hdel, hn2, hc2, hlam, hrb, hzero, hgnz, hbf, hsolv, hg2⟩ :=
        quad_lm_delivers h hL hone hr0 hlo hin hclip w s hsz x hx.1 (hA x hx.1) (hmin x hx.1) hx.2.ne hal (Or.inl hrd)
      refine ⟨s2, dx, hdel, hc2, hg2, ⟨s.lambda, s.badF, hK, hal, ?_⟩, fun s3 h5 => ?_⟩
      · by_cases hg : G x = 0
        · rw [hzero hg, hg, mv_zero, neg_zero]
        · exact hsolv hg
      · rcases h5 with ⟨rfl, rfl⟩ | ⟨q, hq, h5⟩
        · exact ⟨Or.inr hn2, by show Allowed so s3.lambda; rw [hlam]; exact hal, rfl, by show K 1 s3.lambda s3.badF; rw [hlam, hbf]; exact hK1 _ _ hK⟩
        · obtain ⟨a1, a2, a3⟩ := lm_hook hr0 (Or.inl ⟨q, h5⟩)
          exact ⟨Or.inr (by show s3.gn.n = n; rw [a1]; exact hn2), Or.inr a3, rfl, hKg i s2 s3 q hq (by rw [hlam, hbf]; exact hK) h5⟩)
    (fun i x d hx hbig hd => by
      obtain ⟨l, β, h1, h2, h3⟩ := hd
      obtain ⟨h4, h5⟩ := hdec i x d l β hx.1 hbig h2 h1 h3
      have h6 := (nCost_mono (so := so) h.pos (hsq.imp id fun hn => ⟨hn _ h4, hn _ hx.1⟩)).mpr h5
      exact ⟨⟨h4, h6.trans hx.2⟩, h6⟩)
    (fun x hx => hx.2) herr hcb1 hcb2 htime (fuel := fuel) (mi := mi) hk (w := w) (s := s) (x0 := x0) ⟨hs, hal, hreb, hK0⟩ ⟨hΩ, hx0⟩
  have hrow : ∀ i t, st.trace[i]? = some t → Ω t.x ∧ t.succ = true ∧ ∃ l β, K i l β ∧ Allowed so l ∧ mv (dampedR l (Q t.x)) (t.xNext - t.x) = -G t.x := by
    intro i t hi
    obtain ⟨a1, a2, d, a3, a4⟩ := ht i t hi
    exact ⟨a1.1, a2, by rw [a4, add_sub_cancel_left]; exact a3⟩
  exact ⟨st, e, hrow, tr, t, h1, by rw [h3, hn], by rw [hn, add_sub_cancel_left]; exact h4⟩

end
end Verif
