import Verif.Lemmas.Step
/-!
# Case analysis of one iteration, induction over the iterations
-/

set_option linter.unusedSectionVars false

namespace Verif
open FloatOps

section
variable {F R W S X V M : Type} [FloatOps F]
variable {E : Env F R W S X V M} {o : Options F W V}

/-- How `x`, `last_dx` and `last_was_success` change in one iteration. -/
inductive UpdSpec (E : Env F R W S X V M) (x : X) (lastDx : Option V) :
    Bool → Option V → X → Option V → Bool → Prop
  | succ (dx) : UpdSpec E x lastDx true (some dx) (E.plusEq x dx) (some dx) true
  | roll (d mdx) (h : lastDx = some d) : UpdSpec E x lastDx false mdx (E.plusEq x (E.negV d)) none false
  | adv (dx) (h : lastDx = none) : UpdSpec E x lastDx false (some dx) (E.plusEq x dx) (some dx) false
  | stay (h : lastDx = none) : UpdSpec E x lastDx false none x none false

/-- the time-out check at the end of an iteration -/
def timeStop (o : Options F W V) (dur : F) (r : StopReason) : StopReason :=
  if lt (ofInt 0) o.maxDurationMs && lt o.maxDurationMs dur then .kTimedOut else r

/-- One finished iteration. -/
structure BodySpec (E : Env F R W S X V M) (o : Options F W V) (st st' : LoopSt F R W S X V M)
    (succ : Bool) (mdx : Option V) (w1 : W) (s1 : S) (out1 : Output F R M) (ms : F) : Prop where
  step : StepSpec E o st.x st.out (succ, mdx) w1 s1 out1
  upd : UpdSpec E st.x st.lastDx succ mdx st'.x st'.lastDx st'.lastSucc
  out : st'.out = { out1 with duration := add out1.duration ms, numIters := inc16 out1.numIters,
                              stop := timeStop o (add out1.duration ms) out1.stop }
  trace : st'.trace = st.trace ++ [⟨st.x, succ, mdx, out1, st'.x⟩]
  clock : E.clock w1 = (ms, st'.w)
  solver : ∃ b, st'.s = E.sol.rebuild s1 b

theorem body_spec' {fuel : Nat} {last : Bool} {st st' : LoopSt F R W S X V M}
    (h : body E o fuel last st = .ok st') :
    ∃ succ mdx w1 s1 out1 ms, step E o fuel st.w st.s st.x st.out = .ok ((succ, mdx), w1, s1, out1) ∧
      BodySpec E o st st' succ mdx w1 s1 out1 ms := by
  unfold body at h
  rw [Res.bind_eq_ok] at h
  obtain ⟨⟨⟨succ, mdx⟩, w1, s1, out1⟩, hstep, h⟩ := h
  rw [Res.bind_eq_ok] at h
  obtain ⟨⟨x1, ld, ls, ev⟩, hupd, h⟩ := h
  simp only at hupd h
  injection h with h
  subst h
  refine ⟨succ, mdx, w1, s1, out1, (E.clock w1).1, hstep, step_spec hstep, ?_, rfl, rfl, rfl, ⟨_, rfl⟩⟩
  cases succ with
  | true =>
    rw [if_pos rfl] at hupd
    cases mdx with
    | none => cases hupd
    | some dx =>
      injection hupd with hupd
      obtain ⟨rfl, rfl, rfl, rfl⟩ := hupd
      exact .succ dx
  | false =>
    rw [if_neg (by decide)] at hupd
    cases hld : st.lastDx with
    | some d =>
      rw [hld] at hupd
      simp only at hupd
      injection hupd with hupd
      obtain ⟨rfl, rfl, rfl, rfl⟩ := hupd
      exact .roll d mdx rfl
    | none =>
      rw [hld] at hupd
      cases mdx with
      | some dx =>
        simp only at hupd
        injection hupd with hupd
        obtain ⟨rfl, rfl, rfl, rfl⟩ := hupd
        exact .adv dx rfl
      | none =>
        simp only at hupd
        injection hupd with hupd
        obtain ⟨rfl, rfl, rfl, rfl⟩ := hupd
        exact .stay rfl

theorem body_spec {fuel : Nat} {last : Bool} {st st' : LoopSt F R W S X V M}
    (h : body E o fuel last st = .ok st') :
    ∃ succ mdx w1 s1 out1 ms, BodySpec E o st st' succ mdx w1 s1 out1 ms := by
  obtain ⟨a, b, c, d, e, f, _, h⟩ := body_spec' h
  exact ⟨a, b, c, d, e, f, h⟩

/-- Induction over the iterations: `I` holds between iterations and `J` holds after the last one. -/
theorem loop_inv {I J : LoopSt F R W S X V M → Prop} {fuel : Nat}
    (hI : ∀ last st st', st.out.stop = .kNone → I st → body E o fuel last st = .ok st' →
      (st'.out.stop = .kNone → I st') ∧ J st') :
    ∀ {n : Nat} {st st' : LoopSt F R W S X V M}, st.out.stop = .kNone → I st → J st →
      loop E o fuel n st = .ok st' →
      J st' ∧ (st'.out.stop = .kNone → I st') := by
  intro n
  induction n with
  | zero =>
    intro st st' h0 h1 h2 h
    simp only [loop] at h
    injection h with h; subst h
    exact ⟨h2, fun _ => h1⟩
  | succ n ih =>
    intro st st' h0 h1 h2 h
    unfold loop at h
    rw [Res.bind_eq_ok] at h
    obtain ⟨st1, hb, h⟩ := h
    obtain ⟨hi, hj⟩ := hI _ _ _ h0 h1 hb
    split at h
    · injection h with h; subst h
      exact ⟨hj, hi⟩
    next hne =>
      have hn : st1.out.stop = .kNone := by
        by_cases h : st1.out.stop = .kNone
        · exact h
        · exact absurd h hne
      exact ih hn (hi hn) hj h

/-- Induction with a single invariant. -/
theorem loop_inv1 {I : LoopSt F R W S X V M → Prop} {fuel : Nat}
    (hI : ∀ last st st', st.out.stop = .kNone → I st → body E o fuel last st = .ok st' → I st')
    {n : Nat} {st st' : LoopSt F R W S X V M} (h0 : st.out.stop = .kNone) (h1 : I st)
    (h : loop E o fuel n st = .ok st') : I st' :=
  (loop_inv (I := I) (J := I) (fun last st st' a b c => ⟨fun _ => hI last st st' a b c,
    hI last st st' a b c⟩) h0 h1 h1 h).1

/-- number of iterations -/
theorem loop_length {fuel : Nat} : ∀ {n : Nat} {st st' : LoopSt F R W S X V M},
    st.out.stop = .kNone → loop E o fuel n st = .ok st' →
      st'.trace.length ≤ st.trace.length + n ∧
      (st'.out.stop = .kNone → st'.trace.length = st.trace.length + n) ∧
      st.trace.length + min n 1 ≤ st'.trace.length := by
  intro n
  induction n with
  | zero =>
    intro st st' h0 h
    simp only [loop] at h
    injection h with h; subst h
    exact ⟨Nat.le_refl _, fun _ => rfl, Nat.le_refl _⟩
  | succ n ih =>
    intro st st' h0 h
    unfold loop at h
    rw [Res.bind_eq_ok] at h
    obtain ⟨st1, hb, h⟩ := h
    obtain ⟨_, _, _, _, _, _, hs⟩ := body_spec hb
    have hl : st1.trace.length = st.trace.length + 1 := by rw [hs.trace]; simp
    split at h
    next hne =>
      injection h with h; subst h
      exact ⟨by omega, fun h => absurd h hne, by omega⟩
    next hne =>
      have hn : st1.out.stop = .kNone := by
        by_cases h : st1.out.stop = .kNone
        · exact h
        · exact absurd h hne
      obtain ⟨h1, h2, h3⟩ := ih hn h
      refine ⟨by omega, fun h => by have := h2 h; omega, by omega⟩

/-- The state returned by `optimizeAcc` is the final loop state with `stop` and `finalHessian`
filled in. -/
theorem optimizeAcc_spec {fuel : Nat} {mi : Int} {w : W} {s : S} {x : X} {st : LoopSt F R W S X V M}
    (h : optimizeAcc E o fuel mi w s x = .ok st) :
    ∃ m st0, loopBound o mi = some m ∧ loop E o fuel m.toNat (initSt E w s x) = .ok st0 ∧
      st = { st0 with out := { st0.out with
        finalHessian := if !E.firstOrder && o.saveLast then some (E.sol.hessian st0.s)
          else st0.out.finalHessian,
        stop := if st0.out.stop = .kNone ∧ (st0.out.numIters : Int) ≥ m then .kMaxIters
          else st0.out.stop } } := by
  unfold optimizeAcc at h
  cases hm : loopBound o mi with
  | none => rw [hm] at h; cases h
  | some m =>
    rw [hm] at h
    simp only at h
    rw [Res.bind_eq_ok] at h
    obtain ⟨st0, h0, h⟩ := h
    injection h with h
    refine ⟨m, st0, rfl, h0, ?_⟩
    rw [← h]
    simp only [Bool.and_eq_true, decide_eq_true_eq]

theorem loopBound_spec {o : Options F W V} {mi m : Int} (h : loopBound o mi = some m) :
    m = (if mi < 0 then (o.maxIters : Int) else mi) + 1 + (if o.checkFinalCost then 1 else 0) ∧
    1 ≤ m ∧ m < intMax := by
  unfold loopBound at h
  simp only at h
  generalize hk : (if mi < 0 then (o.maxIters : Int) else mi) = k at h
  have hk0 : 0 ≤ k := by rw [← hk]; split <;> omega
  generalize hc : o.checkFinalCost = c at h
  cases c <;> simp only [Bool.false_eq_true, if_false, if_true] at h ⊢ <;> split at h <;>
    first | (cases h; done) | (injection h with h; omega)

/-- induction over a whole run -/
theorem run_inv {I J : LoopSt F R W S X V M → Prop} {fuel : Nat}
    (hI : ∀ last st st', st.out.stop = .kNone → I st → body E o fuel last st = .ok st' →
      (st'.out.stop = .kNone → I st') ∧ J st')
    {mi : Int} {w : W} {s : S} {x : X} {st : LoopSt F R W S X V M}
    (h0 : I (initSt E w s x)) (hj : J (initSt E w s x))
    (h : optimizeAcc E o fuel mi w s x = .ok st) :
    ∃ m st0, loopBound o mi = some m ∧ J st0 ∧ (st0.out.stop = .kNone → I st0) ∧
      (st0.trace.length ≤ m ∧ (st0.out.stop = .kNone → (st0.trace.length : Int) = m) ∧
        1 ≤ st0.trace.length) ∧
      st = { st0 with out := { st0.out with
        finalHessian := if !E.firstOrder && o.saveLast then some (E.sol.hessian st0.s)
          else st0.out.finalHessian,
        stop := if st0.out.stop = .kNone ∧ (st0.out.numIters : Int) ≥ m then .kMaxIters
          else st0.out.stop } } := by
  obtain ⟨m, st0, hm, hl, hst⟩ := optimizeAcc_spec h
  have h1 := loop_inv hI rfl h0 hj hl
  have h2 := loop_length (st := initSt E w s x) rfl hl
  have h3 := loopBound_spec hm
  refine ⟨m, st0, hm, h1.1, h1.2, ?_, hst⟩
  simp only [initSt, List.length_nil] at h2
  refine ⟨by omega, fun h => by have := h2.2.1 h; omega, by omega⟩

end
end Verif
