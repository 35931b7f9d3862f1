import Verif.Props.LinearLS
/-!
# Runs of solvers whose steps always decrease the cost
-/

set_option linter.unusedSectionVars false

namespace Verif
open FloatOps

section
variable {R W S : Type} {n : Nat}
variable {P : Problem ℝ R W (Vec ℝ n)} {o : Options ℝ W (DVec ℝ)}
variable {sol : SolverI ℝ R W S (Vec ℝ n) (DVec ℝ) (DMat ℝ)} {fo : Bool}

/-- A run in exact arithmetic, started where `Ω` holds, of a solver that delivers at every point of `Ω` a step that stays in `Ω`
and decreases the cost `c`, unless the point is stationary and the step zero: it ends normally and every iteration makes such a step. `Ok i` is what is known
of the solver before the `Build` of iteration `i`, `Step i` of the step. -/
theorem descent_run (hV : VecParams P) {Ok : Nat → S → Vec ℝ n → Prop} {Ω Stat : Vec ℝ n → Prop} {c : Vec ℝ n → ℝ} {Step : Nat → Vec ℝ n → Vec ℝ n → Prop}
    {k : Int}
    (hdel : ∀ i w s x, Ok i s x → Ω x → ∃ s2 d, Delivers (envOf P sol fo) w s x s2 ⟨n, d⟩ ∧ (sol.cost s2).cost = c x ∧ Step i x d ∧
      (∀ s3, ((s3 = s2 ∧ (i = 0 ∨ 65536 < k)) ∨ ∃ q, (o.useStepQuality = false → q = 0) ∧ sol.goodStep s2 q = .ok s3) → Ok (i + 1) (sol.rebuild s3 true) (x + d)) ∧
      (Stat x → ∀ s3 b, ((∃ q, sol.goodStep s2 q = .ok s3) ∨ sol.badStep s2 = .ok s3 ∨ (s3 = s2 ∧ 65536 < k)) → Ok (i + 1) (sol.rebuild s3 b) x))
    (hstep : ∀ i x d, Ω x → Step i x d → (Stat x → d = 0) ∧ Ω (x + d) ∧ (¬Stat x → c (x + d) < c x))
    (hmax : ∀ x, Ω x → c x < maxVal)
    {fuel : Nat} {mi : Int} (hk : loopBound o mi = some k) {w : W} {s : S} {x0 : Vec ℝ n} (hs : Ok 0 s x0) (hx : Ω x0) :
    ∃ st, optimizeAcc (envOf P sol fo) o (fuel + 1) mi w s x0 = .ok st ∧ Ω st.x ∧
      ∀ i r, st.trace[i]? = some r → Ω r.x ∧ ∃ d, Step i r.x d ∧ r.xNext = r.x + d ∧ (¬Stat r.x → r.succ = true) := by
  let Row : Nat → Rec ℝ R (Vec ℝ n) (DVec ℝ) (DMat ℝ) → Prop := fun i r => Ω r.x ∧ ∃ d, Step i r.x d ∧ r.xNext = r.x + d ∧ (¬Stat r.x → r.succ = true)
  obtain ⟨st, st0, e, hj, h1, h2, h3⟩ := run_works_left (E := envOf P sol fo) (o := o) (fuel := fuel + 1) (mi := mi) (m := k) (w := w) (s := s) (x := x0)
    (I := fun left st => st.out.numConsec ≤ maxTries o ∧ (k ≤ 65536 → left + st.trace.length ≤ 65536 ∧ st.out.numIters = st.trace.length) ∧
      Ok st.trace.length st.s st.x ∧ Ω st.x ∧
      (st.trace = [] → st.lastDx = none ∧ st.out.finalCost.cost = maxVal) ∧
      (∀ d, st.lastDx = some d → (d = ⟨n, 0⟩ ∧ Stat st.x) ∨ c st.x < st.out.finalCost.cost) ∧
      (st.lastDx = none → st.trace ≠ [] → Stat st.x) ∧ ∀ i r, st.trace[i]? = some r → Row i r)
    (J := fun st => Ω st.x ∧ ∀ i r, st.trace[i]? = some r → Row i r)
    (fun left st _ hI => by
      obtain ⟨hc, hlen, hok, hom, hfirst, hl, hln, hT⟩ := hI
      obtain ⟨s2, dx, hdel, hc2, hst, hok1, hok2⟩ := hdel st.trace.length st.w st.s st.x hok hom
      obtain ⟨st', succ, mdx, s3, hb, hw⟩ := body_works (o := o) (fuel := fuel) (last := left == 0) hdel hc
      obtain ⟨r, htr, hrx, hrx', -, hrs⟩ := hw.trace
      obtain ⟨hz, hom', hdec⟩ := hstep _ st.x dx hom hst
      have hup := hw.upd
      have hsu : succ = lt (sub (sol.cost s2).cost st.out.finalCost.cost) (ofInt 0) := hw.isSucc
      rw [hc2] at hsu
      have hfail : succ = false → st.trace ≠ [] ∧ Stat st.x ∧ ∀ d, st.lastDx = some d → d = ⟨n, 0⟩ := by
        intro hf
        rw [hf] at hsu
        have hle : st.out.finalCost.cost ≤ c st.x := by
          have := hsu.symm
          rw [RealOps.lt_eq_false] at this
          simp at this
          exact this
        have hne : st.trace ≠ [] := by
          intro h0
          rw [(hfirst h0).2] at hle
          exact absurd (hmax _ hom) (not_lt.mpr hle)
        refine ⟨hne, ?_, ?_⟩
        · cases hld : st.lastDx with
          | none => exact hln hld hne
          | some d =>
            rcases hl d hld with ⟨-, h⟩ | h
            · exact h
            · exact absurd h (not_lt.mpr hle)
        · intro d hd
          rcases hl d hd with ⟨h, -⟩ | h
          · exact h
          · exact absurd h (not_lt.mpr hle)
      have hmd : ∀ d, mdx = some d → d = ⟨n, dx⟩ := by
        intro d hd
        rcases hw.isMdx with hm | ⟨hm, -⟩
        · rw [hm] at hd; exact (Option.some.inj hd).symm
        · rw [hm] at hd; cases hd
      have main : st'.x = st.x + dx ∧
          (∀ d, st'.lastDx = some d → (d = ⟨n, 0⟩ ∧ Stat st'.x) ∨ c st'.x < st'.out.finalCost.cost) ∧
          (st'.lastDx = none → Stat st'.x) := by
        have hfc := hw.finalCost
        have hf' := hfail
        generalize st'.x = x1 at hup ⊢
        generalize st'.lastDx = l1 at hup ⊢
        generalize st'.lastSucc = b1 at hup
        cases hup with
        | succ dx' =>
          obtain rfl := hmd _ rfl
          have hfc' : st'.out.finalCost.cost = c st.x := by
            rw [hfc]; simp only [Bool.true_or, if_true]; exact hc2
          have hxx : (envOf P sol fo).plusEq st.x ⟨n, dx⟩ = st.x + dx := hV.plus _ _
          rw [hxx]
          refine ⟨rfl, fun d hd => ?_, fun h => by cases h⟩
          obtain rfl := Option.some.inj hd
          by_cases hg : Stat st.x
          · left
            rw [hz hg, add_zero]
            exact ⟨rfl, hg⟩
          · right
            rw [hfc']
            exact hdec hg
        | roll d _ h' =>
          obtain ⟨-, hg, hd⟩ := hf' rfl
          obtain rfl := hd d h'
          have hxx : (envOf P sol fo).plusEq st.x ((envOf P sol fo).negV ⟨n, 0⟩) = st.x := by
            show P.plusEq st.x ⟨n, negVec 0⟩ = _
            rw [plus_neg hV, sub_zero]
          rw [hxx]
          exact ⟨by rw [hz hg, add_zero], fun d hd => (nomatch hd), fun _ => hg⟩
        | adv dx' h' =>
          obtain ⟨-, hg, -⟩ := hf' rfl
          obtain rfl := hmd _ rfl
          have hxx : (envOf P sol fo).plusEq st.x ⟨n, dx⟩ = st.x := by
            show P.plusEq st.x ⟨n, dx⟩ = _
            rw [hV.plus, hz hg, add_zero]
          rw [hxx, hz hg]
          exact ⟨by rw [add_zero], fun d hd => Or.inl ⟨(Option.some.inj hd).symm, hg⟩, fun h => by cases h⟩
        | stay h' =>
          obtain ⟨-, hg, -⟩ := hf' rfl
          exact ⟨by rw [hz hg, add_zero], fun d hd => (nomatch hd), fun _ => hg⟩
      have hrow : Row st.trace.length r := by
        refine ⟨by rw [hrx]; exact hom, dx, by rw [hrx]; exact hst, by rw [hrx, hrx']; exact main.1, fun hg => ?_⟩
        rw [hrx] at hg
        rw [hrs]
        cases hsv : succ with
        | true => rfl
        | false => exact absurd (hfail hsv).2.1 hg
      have hT' : ∀ i r, st'.trace[i]? = some r → Row i r := by
        intro i q hq
        rw [htr] at hq
        rcases Nat.lt_or_ge i st.trace.length with hi | hi
        · rw [List.getElem?_append_left hi] at hq; exact hT i q hq
        · rw [List.getElem?_append_right hi] at hq
          obtain ⟨h1, h2⟩ := List.getElem?_eq_some_iff.mp hq
          simp at h1 h2
          have : i = st.trace.length := by omega
          rw [this, ← h2]; exact hrow
      have hO' : Ω st'.x := by rw [main.1]; exact hom'
      refine ⟨st', hb, fun hn hleft => ?_, hO', hT'⟩
      have hlen' : st'.trace.length = st.trace.length + 1 := by rw [htr]; simp
      have hl0 : (left == 0) = false := by simp; omega
      refine ⟨hw.consec hn, fun hk6 => ⟨?_, ?_⟩, ?_, hO', ?_, main.2.1, fun h _ => main.2.2 h, hT'⟩
      · have := (hlen hk6).1; omega
      · have := hlen hk6
        rw [hw.numIters, this.2, hlen']
        unfold inc16
        rw [Nat.mod_eq_of_lt (by omega)]
      · rw [hw.solver, hl0, Bool.and_false, main.1, hlen']
        show Ok _ (sol.rebuild s3 _) _
        cases hsv : succ with
        | true =>
          refine hok1 s3 ?_
          by_cases hpos : 0 < st.out.numIters
          · exact Or.inr ⟨_, fun hq => by rw [hq]; simp, hw.hookGood hpos hsv⟩
          · have := hw.hook
            rw [if_neg hpos] at this
            refine Or.inl ⟨this, ?_⟩
            by_cases hk6 : k ≤ 65536
            · have := (hlen hk6).2; left; omega
            · right; omega
        | false =>
          obtain ⟨hne, hg, -⟩ := hfail hsv
          rw [hz hg, add_zero]
          refine hok2 hg s3 _ ?_
          have := hw.hook
          split at this
          · rcases this with h | h
            · exact Or.inl h
            · exact Or.inr (Or.inl h)
          next h0 =>
            refine Or.inr (Or.inr ⟨this, ?_⟩)
            by_contra hk6
            have h4 := (hlen (by omega)).2
            have h5 := List.length_pos_iff.mpr hne
            omega
      · intro h0; rw [h0] at hlen'; simp at hlen')
    hk ⟨Nat.zero_le _, fun hk6 => ⟨by simp [initSt]; omega, rfl⟩, hs, hx, fun _ => ⟨rfl, rfl⟩, fun d hd => (nomatch hd), fun _ h => absurd rfl h, fun i r hr => by simp [initSt] at hr⟩
  exact ⟨st, e, by rw [h1]; exact hj.1, by rw [h2]; exact hj.2⟩

end
end Verif
