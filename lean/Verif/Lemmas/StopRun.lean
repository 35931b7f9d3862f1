import Verif.Lemmas.DescentRun
import Verif.Props.Stopping
/-!
# Runs whose steps are all accepted, and why they stop
-/

set_option linter.unusedSectionVars false

namespace Verif
open FloatOps

section
variable {R W S : Type} {n : Nat}

/-- Why a run all of whose steps were accepted stopped: `c`, `g2` are the cost and the squared norm of the gradient at a point, `T` the points where the
iterations started, `d` the last step, `k` the number of iterations allowed. -/
inductive StopsBy (o : Options ℝ W (DVec ℝ)) (c g2 : Vec ℝ n → ℝ) (k : Int) (T : List (Vec ℝ n)) (x d : Vec ℝ n) : StopReason → Prop
  | error (h : c x < o.minError) : StopsBy o c g2 k T x d .kMinError
  | relError (y : Vec ℝ n) (hy : T = T.dropLast.dropLast ++ [y, x]) (hlt : c x < c y) (h : (c y - c x) / c y < o.minRerrDec) : StopsBy o c g2 k T x d .kMinRelError
  | step (h : dotR d d < o.minStepNorm2) : StopsBy o c g2 k T x d .kMinDeltaNorm
  | grad (h : g2 x < o.minGradNorm2) : StopsBy o c g2 k T x d .kMinGradNorm
  | iters (h : (T.length : Int) = k) : StopsBy o c g2 k T x d .kMaxIters

variable {P : Problem ℝ R W (Vec ℝ n)} {o : Options ℝ W (DVec ℝ)}
variable {sol : SolverI ℝ R W S (Vec ℝ n) (DVec ℝ) (DMat ℝ)} {fo : Bool}

/-- A run in exact arithmetic with an active `min_error`, without callbacks and time limit, of a solver that delivers on `Ω` steps that stay in `Ω` and decrease the cost, unless the cost is below `min_error`: it ends
normally, all its steps are accepted, and it stops for one of five reasons. -/
theorem stop_run (hV : VecParams P) {Ok : Nat → S → Vec ℝ n → Prop} {Ω : Vec ℝ n → Prop} {c g2 : Vec ℝ n → ℝ} {Step : Nat → Vec ℝ n → Vec ℝ n → Prop}
    {k : Int} (hk2 : k ≤ 65535)
    (hdel : ∀ i w s x, Ok i s x → Ω x → ∃ s2 d, Delivers (envOf P sol fo) w s x s2 ⟨n, d⟩ ∧ (sol.cost s2).cost = c x ∧ sol.gradSq s2 = g2 x ∧ Step i x d ∧
      (∀ s3, ((s3 = s2 ∧ i = 0) ∨ ∃ q, (o.useStepQuality = false → q = 0) ∧ sol.goodStep s2 q = .ok s3) → Ok (i + 1) (sol.rebuild s3 true) (x + d)))
    (hstep : ∀ i x d, Ω x → o.minError ≤ c x → Step i x d → Ω (x + d) ∧ c (x + d) < c x)
    (hmax : ∀ x, Ω x → c x < maxVal) (herr : 0 < o.minError)
    (hcb1 : o.stopCallback = none) (hcb2 : o.stopCallback2 = none) (htime : o.maxDurationMs ≤ 0)
    {fuel : Nat} {mi : Int} (hk : loopBound o mi = some k) {w : W} {s : S} {x0 : Vec ℝ n} (hs : Ok 0 s x0) (hx : Ω x0) :
    ∃ st, optimizeAcc (envOf P sol fo) o (fuel + 1) mi w s x0 = .ok st ∧
      (∀ i r, st.trace[i]? = some r → Ω r.x ∧ r.succ = true ∧ ∃ d, Step i r.x d ∧ r.xNext = r.x + d) ∧
      ∃ l r d, st.trace = l ++ [r] ∧ Step l.length r.x d ∧ r.xNext = r.x + d ∧ st.x = r.x + d ∧ StopsBy o c g2 k (st.trace.map (·.x)) r.x d st.out.stop := by
  let Row : Nat → Rec ℝ R (Vec ℝ n) (DVec ℝ) (DMat ℝ) → Prop := fun i r => Ω r.x ∧ r.succ = true ∧ ∃ d, Step i r.x d ∧ r.xNext = r.x + d
  obtain ⟨st, st0, e, ⟨hj1, hj2, l, r, d, hl, hd, hxn, hxd, hst⟩, h1, h2, -, h4, h5⟩ := run_works_out (E := envOf P sol fo) (o := o) (fuel := fuel + 1) (mi := mi) (m := k) (w := w) (s := s) (x := x0)
    (I := fun left st => st.out.numConsec ≤ maxTries o ∧ left + st.trace.length = k.toNat ∧ st.out.numIters = st.trace.length ∧
      Ok st.trace.length st.s st.x ∧ Ω st.x ∧ c st.x < st.out.finalCost.cost ∧ (st.trace = [] → st.out.finalCost.cost = maxVal) ∧
      (∀ l r, st.trace = l ++ [r] → st.out.finalCost.cost = c r.x) ∧ ∀ i r, st.trace[i]? = some r → Row i r)
    (J := fun st => (∀ i r, st.trace[i]? = some r → Row i r) ∧ st.out.numIters = st.trace.length ∧
      ∃ l r d, st.trace = l ++ [r] ∧ Step l.length r.x d ∧ r.xNext = r.x + d ∧ st.x = r.x + d ∧ (st.out.stop = .kNone ∨ StopsBy o c g2 k (st.trace.map (·.x)) r.x d st.out.stop))
    (fun left st hnone hI => by
      obtain ⟨hc, hlen, hit, hok, hom, hlt, hfirst, hlast, hT⟩ := hI
      obtain ⟨s2, dx, hdel, hc2, hg2, hst, hok1⟩ := hdel st.trace.length st.w st.s st.x hok hom
      obtain ⟨st', succ, mdx, s3, hb, hw⟩ := body_works (o := o) (fuel := fuel) (last := left == 0) hdel hc
      obtain ⟨r, htr, hrx, hrx', -, hrs⟩ := hw.trace
      have hsu : succ = true := by
        have : succ = lt (sub (sol.cost s2).cost st.out.finalCost.cost) (ofInt 0) := hw.isSucc
        rw [this, hc2, RealOps.lt_eq]
        simp
        exact hlt
      subst hsu
      have hmdx : mdx = some ⟨n, dx⟩ := by
        rcases hw.isMdx with h | ⟨-, h, -⟩
        · exact h
        · cases h
      subst hmdx
      have hx' : st'.x = st.x + dx := by
        have hup := hw.upd
        generalize st'.x = x1 at hup ⊢
        generalize st'.lastDx = l1 at hup
        generalize st'.lastSucc = b1 at hup
        cases hup with
        | succ dx' => exact hV.plus _ _
      have hfc : st'.out.finalCost.cost = c st.x := by
        rw [hw.finalCost]; simp only [Bool.true_or, if_true]; exact hc2
      have hlen' : st'.trace.length = st.trace.length + 1 := by rw [htr]; simp
      have hit' : st'.out.numIters = st'.trace.length := by
        rw [hw.numIters, hit, hlen']
        unfold inc16
        rw [Nat.mod_eq_of_lt (by omega)]
      have hrow : Row st.trace.length r := ⟨by rw [hrx]; exact hom, hrs, dx, by rw [hrx]; exact hst, by rw [hrx, hrx']; exact hx'⟩
      have hT' : ∀ i r, st'.trace[i]? = some r → Row i r := by
        intro i q hq
        rw [htr] at hq
        rcases Nat.lt_or_ge i st.trace.length with hi | hi
        · rw [List.getElem?_append_left hi] at hq; exact hT i q hq
        · rw [List.getElem?_append_right hi] at hq
          obtain ⟨h1, h2⟩ := List.getElem?_eq_some_iff.mp hq
          simp at h1 h2
          have : i = st.trace.length := by omega
          rw [this, ← h2]; exact hrow
      obtain ⟨w2, gr, hstop⟩ := hw.crit (Or.inl rfl)
      have htm : ∀ d r, timeStop o d r = r := by
        intro d r
        have : ¬ (lt (ofInt 0) o.maxDurationMs && lt o.maxDurationMs d) = true := by
          rw [Bool.and_eq_true, RealOps.lt_eq]; simp only [RealOps.ofInt_eq, Int.cast_zero]
          exact fun h => absurd h.1 (not_lt.mpr htime)
        exact if_neg this
      rw [htm, hnone] at hstop
      have hnorm : (envOf P sol fo).normSq ⟨n, dx⟩ = dotR dx dx := sqNorm_eq dx
      have hstopsBy : st'.out.stop = .kNone ∨ StopsBy o c g2 k (st'.trace.map (·.x)) r.x dx st'.out.stop := by
        rcases hcr : criteria o w2 ((envOf P sol fo).sol.cost s2).cost (relDerr st.out.finalCost.cost ((envOf P sol fo).sol.cost s2).cost)
          ((envOf P sol fo).normSq ⟨n, dx⟩) (gn2Of (envOf P sol fo) o s2) ⟨n, dx⟩ gr with ⟨res, w3⟩
        rw [hcr] at hstop
        cases res with
        | none => exact Or.inl hstop
        | some res =>
          simp only [Option.getD_some] at hstop
          right
          rw [hstop]
          have hcc : ((envOf P sol fo).sol.cost s2).cost = c st.x := hc2
          rw [hcc, hnorm] at hcr
          rcases criteria_just hcr with ⟨rfl, -, h⟩ | ⟨rfl, -, hp, h⟩ | ⟨rfl, -, h⟩ | ⟨rfl, hp, h⟩ | ⟨-, ⟨cb, w, h, -⟩ | ⟨cb, w, h, -⟩⟩
          · exact .error (by rw [hrx]; simpa using h)
          · have hrel : relDerr st.out.finalCost.cost (c st.x) = (st.out.finalCost.cost - c st.x) / st.out.finalCost.cost ∧ st.out.finalCost.cost < maxVal := by
              unfold relDerr at hp ⊢
              split at hp
              next hc =>
                rw [if_pos hc]
                simp only [Bool.and_eq_true, RealOps.lt_eq] at hc
                exact ⟨rfl, hc.2⟩
              next => simp at hp
            have hne : st.trace ≠ [] := fun h0 => absurd (hfirst h0) hrel.2.ne
            obtain ⟨l', r', hdl⟩ : ∃ l' r', st.trace = l' ++ [r'] := ⟨_, _, (List.dropLast_append_getLast hne).symm⟩
            have hfin := hlast _ _ hdl
            refine .relError r'.x ?_ (by rw [hrx, ← hfin]; exact hlt) ?_
            · rw [htr, hdl]
              have e1 : (l' ++ [r'] ++ [r]).map (·.x) = (l'.map (·.x) ++ [r'.x]) ++ [r.x] := by simp
              rw [e1, List.dropLast_concat, List.dropLast_concat]
              simp
            · rw [hrel.1, hfin] at h
              rw [hrx]; simpa using h
          · exact .step (by simpa using h)
          · refine .grad ?_
            have : gn2Of (envOf P sol fo) o s2 = g2 st.x := by
              unfold gn2Of hasGradNorm2
              rw [hp]
              exact hg2
            rw [this] at h
            rw [hrx]; simpa using h
          · rw [hcb1] at h; cases h
          · rw [hcb2] at h; cases h
      refine ⟨st', hb, fun hn hleft => ?_, hT', hit', st.trace, r, dx, htr, by rw [hrx]; exact hst, by rw [hrx', hrx]; exact hx', by rw [hrx]; exact hx', hstopsBy⟩
      have hbig : o.minError ≤ c st.x := by
        by_contra hlt
        have hlt : c st.x < o.minError := not_le.mp hlt
        have hcc : ((envOf P sol fo).sol.cost s2).cost = c st.x := hc2
        rw [hn, hcc] at hstop
        have hyes : (lt (ofInt 0) o.minError && lt (c st.x) o.minError) = true := by
          rw [Bool.and_eq_true, RealOps.lt_eq, RealOps.lt_eq]; exact ⟨by simpa using herr, hlt⟩
        unfold criteria at hstop
        rw [if_pos hyes] at hstop
        cases hstop
      obtain ⟨ho, hdec⟩ := hstep _ _ _ hom hbig hst
      have hl0 : (left == 0) = false := by simp; omega
      refine ⟨hw.consec hn, by omega, hit', ?_, by rw [hx']; exact ho, by rw [hfc, hx']; exact hdec, fun h => ?_, fun l q hq => ?_, hT'⟩
      · rw [hw.solver, hl0, Bool.and_false, hx', hlen']
        refine hok1 s3 ?_
        by_cases hpos : 0 < st.out.numIters
        · exact Or.inr ⟨_, fun hq => by rw [hq]; simp, hw.hookGood hpos rfl⟩
        · have := hw.hook
          rw [if_neg hpos] at this
          exact Or.inl ⟨this, by omega⟩
      · rw [h] at hlen'; simp at hlen'
      · rw [htr] at hq
        obtain ⟨-, hq⟩ := List.append_inj' hq rfl
        injection hq with hq
        rw [hfc, ← hq, hrx])
    hk ⟨Nat.zero_le _, rfl, rfl, hs, hx, hmax _ hx, fun _ => rfl, fun l r h => by simp [initSt] at h, fun i r hr => by simp [initSt] at hr⟩
  refine ⟨st, e, by rw [h2]; exact hj1, l, r, d, by rw [h2]; exact hl, hd, hxn, by rw [h1]; exact hxd, ?_⟩
  rw [h2, h5]
  by_cases hn : st0.out.stop = .kNone
  · have hlen := h4 hn
    rw [if_pos ⟨hn, by rw [hj2]; omega⟩]
    exact .iters (by simpa using hlen)
  · rw [if_neg fun h => hn h.1]
    exact hst.resolve_left hn

end
end Verif
