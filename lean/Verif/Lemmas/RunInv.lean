import Verif.Lemmas.Sim
/-!
# Invariants of the solver state within an iteration

`Px` holds for all points of the run. `RunInv` splits an iteration in phases: between iterations (`I`), after `resize`
and before a new attempt to build (`Z`), after a successful `Build` at `x`
(`B x`), after a failed one (`N x`), after the step was judged (`A x`).
-/

set_option linter.unusedSectionVars false

namespace Verif
open FloatOps

section
variable {F R W S X V M : Type} [FloatOps F]
variable {E : Env F R W S X V M} {o : Options F W V}

/-- Invariants of the phases of an iteration. -/
structure StepInv (E : Env F R W S X V M) (Px : X → Prop) (I Z : S → Prop) (B N A : X → S → Prop) :
    Prop where
  resize : ∀ w s x s' w', Px x → (E.dimsDynamic = true → E.dynDims x ≠ 0) → I s → E.sol.resize w s (E.dynDims x) = (.done s', w') → Z s'
  build : ∀ w s x b s' w', Px x → Z s → E.sol.build w s x = (b, s', w') → if b then B x s' else N x s'
  good : ∀ x s q s', B x s → Quality q → E.sol.goodStep s q = .ok s' → A x s'
  bad : ∀ x s s', B x s → E.sol.badStep s = .ok s' → A x s'
  failedB : ∀ x s s', B x s → E.sol.failedStep s = .ok s' → Z s'
  failedN : ∀ x s s', N x s → E.sol.failedStep s = .ok s' → Z s'

/-- Invariants of a run: additionally those of the points and of `Rebuild`. No hook is called in the first iteration. -/
structure RunInv (E : Env F R W S X V M) (Px : X → Prop) (I Z : S → Prop) (B N A : X → S → Prop) : Prop
    extends StepInv E Px I Z B N A where
  plus : ∀ x v, Px x → Px (E.plusEq x v)
  rebuildB : ∀ x s b, B x s → I (E.sol.rebuild s b)
  rebuildA : ∀ x s b, A x s → I (E.sol.rebuild s b)

variable {Px : X → Prop} {I Z : S → Prop} {B N A : X → S → Prop}

theorem retry_runinv (h : StepInv E Px I Z B N A) {x : X} : ∀ {n : Nat} {w : W} {s : S}
    {out : Output F R M} {e w' s' out'}, Px x → Z s → retry E o x n w s out = .ok (e, w', s', out') →
    out'.numIters = out.numIters ∧ out'.errs = out.errs ∧
    match e with
    | .got dx c => B x s' ∧ E.sol.solve s' = some dx ∧ E.sol.cost s' = c ∧ out'.stop = out.stop
    | _ => True := by
  intro n
  induction n with
  | zero => intro w s out e w' s' out' _ _ hh; cases hh
  | succ n ih =>
    intro w s out e w' s' out' hx hI hh
    unfold retry at hh
    split at hh
    · rcases hb : E.sol.build w s x with ⟨b, s1, w1⟩
      have h1 := h.build _ _ _ _ _ _ hx hI hb
      rw [hb] at hh
      simp only at hh
      split at hh
      next dx hdx =>
        injection hh with hh; obtain ⟨rfl, -, rfl, rfl⟩ := hh
        cases b
        · simp at hdx
        · simp only [if_true] at h1 hdx; exact ⟨rfl, rfl, h1, hdx, rfl, rfl⟩
      · split at hh
        · injection hh with hh; obtain ⟨rfl, -, rfl, rfl⟩ := hh; exact ⟨rfl, rfl, trivial⟩
        · split at hh
          · injection hh with hh; obtain ⟨rfl, -, rfl, rfl⟩ := hh; exact ⟨rfl, rfl, trivial⟩
          · split at hh
            · injection hh with hh; obtain ⟨rfl, -, rfl, rfl⟩ := hh
              refine ⟨?_, ?_, trivial⟩ <;> (split <;> rfl)
            · rw [Res.bind_eq_ok] at hh
              obtain ⟨s2, hs2, hh⟩ := hh
              have hI2 : Z s2 := by
                cases b
                · exact h.failedN _ _ _ h1 hs2
                · exact h.failedB _ _ _ h1 hs2
              have h3 := ih hx hI2 hh
              exact h3
    · injection hh with hh; obtain ⟨rfl, -, rfl, rfl⟩ := hh; exact ⟨rfl, rfl, trivial⟩

/-- What an iteration that judged a step did: the step `dx` was solved from the state `t`. -/
def Judged (E : Env F R W S X V M) (B A : X → S → Prop) (x : X) (out : Output F R M) (p : Bool × Option V)
    (s' : S) (out' : Output F R M) : Prop :=
  ∃ t dx, B x t ∧ E.sol.solve t = some dx ∧ (p.2 = some dx ∨ p.2 = none ∧ out'.stop ≠ .kNone) ∧
    out'.errs = out.errs ++ [(E.sol.cost t).cost] ∧ finite (E.sol.cost t).cost = true ∧
    p.1 = lt (sub (E.sol.cost t).cost out.finalCost.cost) (ofInt 0) ∧
    (if out.numIters > 0 then A x s' else s' = t)

theorem afterSolve_runinv (h : StepInv E Px I Z B N A) {x : X} {dx : V} {c : Cost F R} {w : W} {s : S}
    {out : Output F R M} {p w' s' out'} (hB : B x s) (hs : E.sol.solve s = some dx) (hc : E.sol.cost s = c)
    (hh : afterSolve E o dx c w s out = .ok (p, w', s', out')) :
    (p = (false, none) ∧ out'.stop.code < 0 ∧ out'.errs = out.errs) ∨ Judged E B A x out p s' out' := by
  subst hc
  unfold afterSolve at hh
  simp only at hh
  split at hh
  · injection hh with hh; obtain ⟨rfl, -, rfl, rfl⟩ := hh; exact Or.inl ⟨rfl, (by decide : (-2 : Int) < 0), rfl⟩
  next hf =>
    have hf : finite (E.sol.cost s).cost = true := by
      unfold finite; revert hf; cases isNaN (E.sol.cost s).cost <;> cases isInf (E.sol.cost s).cost <;> simp
    split at hh
    · injection hh with hh; obtain ⟨rfl, -, rfl, rfl⟩ := hh; exact Or.inl ⟨rfl, (by decide : (-2 : Int) < 0), rfl⟩
    · split at hh
      next hgood =>
        rw [Res.bind_eq_ok] at hh
        obtain ⟨s1, h1, hh⟩ := hh
        injection hh with hh; obtain ⟨rfl, -, rfl, rfl⟩ := hh
        refine Or.inr ⟨s, dx, hB, hs, Or.inl rfl, rfl, hf, rfl, ?_⟩
        split at h1
        next hit =>
          rw [if_pos hit]
          refine h.good _ _ _ _ hB ?_ h1
          split
          · refine Or.inr ⟨_, _, rfl, ?_⟩
            rw [Bool.or_eq_true] at hgood
            rcases hgood with hg | hg
            · exact hg
            · simp at hg; omega
          · exact Or.inl rfl
        next hit => rw [if_neg hit]; injection h1 with h1; exact h1.symm
      next hgood =>
        have hit : out.numIters > 0 := by
          rw [Bool.or_eq_true] at hgood
          refine Nat.pos_of_ne_zero fun h0 => hgood (Or.inr (by simp [h0]))
        rw [Res.bind_eq_ok] at hh
        obtain ⟨s1, h1, hh⟩ := hh
        have hA := h.bad _ _ _ hB h1
        have hgood' : lt (sub (E.sol.cost s).cost out.finalCost.cost) (ofInt 0) = false := by
          rw [Bool.or_eq_true, not_or] at hgood; exact Bool.not_eq_true _ ▸ hgood.1
        have key : ∀ q o', p.1 = false → q = (p.2) → (q = some dx ∨ q = none ∧ out'.stop ≠ .kNone) → o' = out' →
            o'.errs = out.errs ++ [(E.sol.cost s).cost] → s1 = s' → Judged E B A x out p s' out' := by
          rintro q o' hp rfl hq rfl ho rfl
          exact ⟨s, dx, hB, hs, hq, ho, hf, by rw [hp, hgood'], by rw [if_pos hit]; exact hA⟩
        right
        split at hh
        · injection hh with hh; obtain ⟨rfl, -, rfl, rfl⟩ := hh; exact key _ _ rfl rfl (Or.inr ⟨rfl, by simp⟩) rfl rfl rfl
        · split at hh
          · injection hh with hh; obtain ⟨rfl, -, rfl, rfl⟩ := hh; exact key _ _ rfl rfl (Or.inr ⟨rfl, by simp⟩) rfl rfl rfl
          · injection hh with hh; obtain ⟨rfl, -, rfl, rfl⟩ := hh; exact key _ _ hgood' rfl (Or.inl rfl) rfl rfl rfl

theorem resizeIfNeeded_runinv (h : StepInv E Px I Z B N A) {w : W} {s : S} {x : X} {s1 w1} (hx : Px x) (hI : I s)
    (hh : resizeIfNeeded E w s x = (.inr s1, w1)) : Z s1 := by
  unfold resizeIfNeeded at hh
  simp only at hh
  split at hh
  · cases (Prod.mk.inj hh).1
  next h0 =>
    split at hh
    · cases (Prod.mk.inj hh).1
    · split at hh
      next hd =>
        obtain ⟨e1, e2⟩ := Prod.mk.inj hh; injection e1 with e1; subst e1
        exact h.resize _ _ _ _ _ hx (fun hd he => h0 (by simp [hd, he])) hI hd
      · cases (Prod.mk.inj hh).1
      · cases (Prod.mk.inj hh).1

theorem step_runinv (h : StepInv E Px I Z B N A) {fuel : Nat} {w : W} {s : S} {x : X}
    {out : Output F R M} {p w' s' out'} (hx : Px x) (hI : I s)
    (hh : step E o fuel w s x out = .ok (p, w', s', out')) :
    (p = (false, none) ∧ out'.stop.code < 0 ∧ out'.errs = out.errs) ∨ Judged E B A x out p s' out' := by
  unfold step at hh
  split at hh
  next r w1 hr =>
    injection hh with hh; obtain ⟨rfl, -, rfl, rfl⟩ := hh
    exact Or.inl ⟨rfl, FailCause.code (resizeIfNeeded_cause (o := o) (out := out) (a := 0) hr), rfl⟩
  next s1 w1 hr =>
    rw [Res.bind_eq_ok] at hh
    obtain ⟨⟨e, w2, s2, out2⟩, h1, hh⟩ := hh
    obtain ⟨e1, e2, h3⟩ := retry_runinv h hx (resizeIfNeeded_runinv h hx hI hr) h1
    obtain ⟨a, b, r, ho, hs⟩ := retry_spec h1
    cases e with
    | ret =>
      injection hh with hh; obtain ⟨rfl, -, rfl, rfl⟩ := hh
      refine Or.inl ⟨rfl, ?_, e2⟩
      have h5 := FailCause.code hs
      rw [ho]; exact h5
    | failed =>
      injection hh with hh; obtain ⟨rfl, -, rfl, rfl⟩ := hh
      exact Or.inl ⟨rfl, (by decide : (-3 : Int) < 0), e2⟩
    | got dx c =>
      obtain ⟨hB, hsol, hc, -⟩ := h3
      have := afterSolve_runinv h hB hsol hc hh
      unfold Judged at this ⊢
      have e3 : out2.finalCost = out.finalCost := by rw [ho]; rfl
      rw [e1, e2, e3] at this
      exact this

/-- the final solver state, if the last iteration `r` did not fail -/
def FinalState (E : Env F R W S X V M) (B A : X → S → Prop) (st : LoopSt F R W S X V M) : Prop :=
  ∀ r, st.trace.getLast? = some r → 0 ≤ r.out.stop.code →
    ∃ t b, st.s = E.sol.rebuild t b ∧ (if r.out.numIters > 0 then A r.x t else B r.x t)

/-- Every step of a run was solved from a state satisfying `B`, and the final solver state satisfies
`A` (or `B` if the last iteration was the first one) whenever the last iteration did not fail. -/
theorem run_runinv (h : RunInv E Px I Z B N A) {fuel : Nat} {mi : Int} {w : W} {s : S} {x : X}
    {st : LoopSt F R W S X V M} (hx : Px x) (hI : I s) (hh : optimizeAcc E o fuel mi w s x = .ok st) :
    (∀ r ∈ st.trace, ∀ dx, r.dx = some dx →
      ∃ t, B r.x t ∧ E.sol.solve t = some dx ∧ r.out.errs.getLast? = some (E.sol.cost t).cost) ∧
      FinalState E B A st := by
  obtain ⟨m, st0, -, hj, -, -, hst⟩ := run_inv
    (I := fun st => Px st.x ∧ I st.s ∧ ∀ r ∈ st.trace, ∀ dx, r.dx = some dx →
      ∃ t, B r.x t ∧ E.sol.solve t = some dx ∧ r.out.errs.getLast? = some (E.sol.cost t).cost)
    (J := fun st => (∀ r ∈ st.trace, ∀ dx, r.dx = some dx →
      ∃ t, B r.x t ∧ E.sol.solve t = some dx ∧ r.out.errs.getLast? = some (E.sol.cost t).cost) ∧
      FinalState E B A st)
    (fun last st st' _ h1 hb => by
      obtain ⟨succ, mdx, w1, s1, out1, ms, hstep, hs⟩ := body_spec' hb
      have h2 := step_runinv h.toStepInv h1.1 h1.2.1 hstep
      have hit : out1.numIters = st.out.numIters := by cases hs.step <;> rfl
      obtain ⟨b, hb⟩ := hs.solver
      have htr : ∀ r ∈ st'.trace, ∀ dx, r.dx = some dx →
          ∃ t, B r.x t ∧ E.sol.solve t = some dx ∧ r.out.errs.getLast? = some (E.sol.cost t).cost := by
        intro r hr dx hdx
        rw [hs.trace, List.mem_append, List.mem_singleton] at hr
        rcases hr with hr | rfl
        · exact h1.2.2 r hr dx hdx
        · simp only at hdx
          rcases h2 with ⟨h2, -, -⟩ | ⟨t, dx', hB, hsol, hp, he, -, -, -⟩
          · rw [(Prod.mk.inj h2).2] at hdx; cases hdx
          · rcases hp with hp | ⟨hp, -⟩
            · rw [hdx] at hp; rw [← Option.some.inj hp] at hsol
              exact ⟨t, hB, hsol, by simp [he]⟩
            · rw [hdx] at hp; cases hp
      refine ⟨fun hn => ⟨?_, ?_, htr⟩, htr, ?_⟩
      · have := hs.upd
        revert this
        generalize st'.x = x1
        generalize st'.lastDx = l1
        generalize st'.lastSucc = b1
        intro this
        cases this with
        | succ dx => exact h.plus _ _ h1.1
        | roll d _ _ => exact h.plus _ _ h1.1
        | adv dx _ => exact h.plus _ _ h1.1
        | stay _ => exact h1.1
      · have hn1 : out1.stop = .kNone := by
          rw [hs.out] at hn
          simp only [timeStop] at hn
          split at hn
          · cases hn
          · exact hn
        rw [hb]
        rcases h2 with ⟨-, h2, -⟩ | ⟨t, dx', hB, hsol, hp, -, -, -, hA⟩
        · rw [hn1] at h2; exact absurd h2 (by decide)
        · split at hA
          · exact h.rebuildA _ _ _ hA
          · subst hA; exact h.rebuildB _ _ _ hB
      · intro r hr hd
        rw [hs.trace, List.getLast?_concat] at hr
        obtain rfl := Option.some.inj hr
        simp only at hd ⊢
        refine ⟨s1, b, hb, ?_⟩
        rw [hit]
        rcases h2 with ⟨-, h2, -⟩ | ⟨t, dx', hB, hsol, hp, -, -, -, hA⟩
        · exact absurd hd (Int.not_le.mpr h2)
        · split
          next h0 => rw [if_pos h0] at hA; exact hA
          next h0 => rw [if_neg h0] at hA; rw [hA]; exact hB)
    (show _ from ⟨hx, hI, by simp [initSt]⟩) (by simp [initSt, FinalState]) hh
  rw [hst]; exact hj

/-! ### The rebuild flag -/

/-- `eval_only` at the end of an iteration, optimizer.h:274-297 -/
theorem body_flag {fuel : Nat} {last : Bool} {st st' : LoopSt F R W S X V M}
    (h : body E o fuel last st = .ok st') :
    ∃ succ mdx w1 s1 out1 ms, step E o fuel st.w st.s st.x st.out = .ok ((succ, mdx), w1, s1, out1) ∧
      BodySpec E o st st' succ mdx w1 s1 out1 ms ∧
      st'.s = E.sol.rebuild s1 (if succ then !(o.checkFinalCost && last) else st.lastSucc) ∧
      st'.lastSucc = succ := by
  obtain ⟨succ, mdx, w1, s1, out1, ms, hstep, hs⟩ := body_spec' h
  refine ⟨succ, mdx, w1, s1, out1, ms, hstep, hs, ?_⟩
  unfold body at h
  rw [hstep, Res.bind_ok] at h
  simp only at h
  rw [Res.bind_eq_ok] at h
  obtain ⟨⟨x1, ld, ls, ev⟩, hupd, h⟩ := h
  simp only at h
  injection h with h
  subst h
  cases succ with
  | true =>
    rw [if_pos rfl] at hupd
    cases mdx with
    | none => cases hupd
    | some dx =>
      injection hupd with hupd
      simp only [Prod.mk.injEq] at hupd
      obtain ⟨-, -, rfl, rfl⟩ := hupd
      exact ⟨rfl, rfl⟩
  | false =>
    rw [if_neg (by decide)] at hupd
    cases hld : st.lastDx with
    | some d =>
      rw [hld] at hupd
      injection hupd with hupd
      simp only [Prod.mk.injEq] at hupd
      obtain ⟨-, -, rfl, rfl⟩ := hupd
      exact ⟨by simp, rfl⟩
    | none =>
      rw [hld] at hupd
      cases mdx with
      | some dx =>
        injection hupd with hupd
        simp only [Prod.mk.injEq] at hupd
        obtain ⟨-, -, rfl, rfl⟩ := hupd
        exact ⟨by simp, rfl⟩
      | none =>
        injection hupd with hupd
        simp only [Prod.mk.injEq] at hupd
        obtain ⟨-, -, rfl, rfl⟩ := hupd
        exact ⟨by simp, rfl⟩

/-- Induction over a run; the invariant `I` need not hold after the last iteration. -/
theorem loop_inv2 {I J : LoopSt F R W S X V M → Prop} {fuel : Nat}
    (hI : ∀ last st st', st.out.stop = .kNone → I st → body E o fuel last st = .ok st' →
      (st'.out.stop = .kNone → last = false → I st') ∧ J st') :
    ∀ {n : Nat} {st st' : LoopSt F R W S X V M}, st.out.stop = .kNone → I st → J st →
      loop E o fuel n st = .ok st' → J st' := by
  intro n
  induction n with
  | zero =>
    intro st st' h0 h1 h2 h
    simp only [loop] at h
    injection h with h; subst h
    exact h2
  | succ n ih =>
    intro st st' h0 h1 h2 h
    unfold loop at h
    rw [Res.bind_eq_ok] at h
    obtain ⟨st1, hb, h⟩ := h
    obtain ⟨hi, hj⟩ := hI _ _ _ h0 h1 hb
    split at h
    · injection h with h; subst h
      exact hj
    next hne =>
      have hn : st1.out.stop = .kNone := by
        by_cases h : st1.out.stop = .kNone
        · exact h
        · exact absurd h hne
      cases n with
      | zero => simp only [loop] at h; injection h with h; subst h; exact hj
      | succ n => exact ih hn (hi hn (by simp)) hj h

theorem run_inv2 {I J : LoopSt F R W S X V M → Prop} {fuel : Nat}
    (hI : ∀ last st st', st.out.stop = .kNone → I st → body E o fuel last st = .ok st' →
      (st'.out.stop = .kNone → last = false → I st') ∧ J st')
    {mi : Int} {w : W} {s : S} {x : X} {st : LoopSt F R W S X V M}
    (h0 : I (initSt E w s x)) (hj : J (initSt E w s x))
    (h : optimizeAcc E o fuel mi w s x = .ok st) :
    ∃ m st0, loopBound o mi = some m ∧ J st0 ∧ (st0.trace.length : Int) ≤ m ∧
      st = { st0 with out := { st0.out with
        finalHessian := if !E.firstOrder && o.saveLast then some (E.sol.hessian st0.s)
          else st0.out.finalHessian,
        stop := if st0.out.stop = .kNone ∧ (st0.out.numIters : Int) ≥ m then .kMaxIters
          else st0.out.stop } } := by
  obtain ⟨m, st0, hm, hl, hst⟩ := optimizeAcc_spec h
  have h2 := loop_length (st := initSt E w s x) rfl hl
  have h3 := loopBound_spec hm
  refine ⟨m, st0, hm, loop_inv2 hI rfl h0 hj hl, ?_, hst⟩
  simp only [initSt, List.length_nil] at h2
  omega

end
end Verif
