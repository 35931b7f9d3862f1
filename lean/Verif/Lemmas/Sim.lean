import Verif.Lemmas.Loop
/-!
# Simulation between two runs, invariants of the solver state
-/

set_option linter.unusedSectionVars false

namespace Verif
open FloatOps

/-- two outcomes of the same kind with related values -/
def Res.Rel {α β : Type} (r : α → β → Prop) : Res α → Res β → Prop
  | .ok a, .ok b => r a b
  | .ub, .ub => True
  | .throw, .throw => True
  | .fuel, .fuel => True
  | _, _ => False

theorem Res.Rel.bind {α β γ δ : Type} {r : α → β → Prop} {q : γ → δ → Prop} {a : Res α} {b : Res β}
    {f : α → Res γ} {g : β → Res δ} (h : Res.Rel r a b) (hf : ∀ x y, r x y → Res.Rel q (f x) (g y)) :
    Res.Rel q (a.bind f) (b.bind g) := by
  cases a <;> cases b <;> first | exact h.elim | exact hf _ _ h | trivial

section
variable {F R W S S' X V M : Type} [FloatOps F]
variable {E : Env F R W S X V M} {E' : Env F R W S' X V M} {o : Options F W V}

/-- The solvers of `E` and `E'` behave in the same way on related states. `Rel` relates the states
between iterations, `RelR` after the resize, `RelB` after a successful `Build`, `RelF` after a failed one. -/
structure Sim (E : Env F R W S X V M) (E' : Env F R W S' X V M) (Rel RelR RelB RelF : S → S' → Prop) : Prop where
  dimsDynamic : ∀ x, (E.dimsDynamic && E.dynDims x == 0) = (E'.dimsDynamic && E.dynDims x == 0)
  dynDims : E.dynDims = E'.dynDims
  plusEq : E.plusEq = E'.plusEq
  negV : E.negV = E'.negV
  normSq : E.normSq = E'.normSq
  clock : E.clock = E'.clock
  ratio1 : E.ratio1 = E'.ratio1
  firstOrder : E.firstOrder = E'.firstOrder
  resize : ∀ w s s' x, Rel s s' →
    (∃ t t' w', E.sol.resize w s (E.dynDims x) = (.done t, w') ∧ E'.sol.resize w s' (E.dynDims x) = (.done t', w') ∧ RelR t t') ∨
    (∃ w', E.sol.resize w s (E.dynDims x) = (.badAlloc, w') ∧ E'.sol.resize w s' (E.dynDims x) = (.badAlloc, w')) ∨
    (∃ w', E.sol.resize w s (E.dynDims x) = (.invalidArg, w') ∧ E'.sol.resize w s' (E.dynDims x) = (.invalidArg, w'))
  build : ∀ w s s' x, RelR s s' → ∃ b t t' w',
    E.sol.build w s x = (b, t, w') ∧ E'.sol.build w s' x = (b, t', w') ∧ E.sol.cost t = E'.sol.cost t' ∧
      if b then RelB t t' else RelF t t'
  solve : ∀ s s', RelB s s' → E.sol.solve s = E'.sol.solve s'
  gradSq : ∀ s s', RelB s s' → E.sol.gradSq s = E'.sol.gradSq s'
  gradient : ∀ s s', RelB s s' → E.sol.gradient s = E'.sol.gradient s'
  good : ∀ s s' q, RelB s s' → Res.Rel RelB (E.sol.goodStep s q) (E'.sol.goodStep s' q)
  bad : ∀ s s', RelB s s' → Res.Rel RelB (E.sol.badStep s) (E'.sol.badStep s')
  failedB : ∀ s s', RelB s s' → Res.Rel RelR (E.sol.failedStep s) (E'.sol.failedStep s')
  failedF : ∀ s s', RelF s s' → Res.Rel RelR (E.sol.failedStep s) (E'.sol.failedStep s')
  rebuild : ∀ s s' b, RelB s s' → Rel (E.sol.rebuild s b) (E'.sol.rebuild s' b)

/-- same results, related solver states if a step was obtained -/
def RetryRel {B : Type} (RelB : S → S' → Prop) (p : RetryExit F R V × W × S × B)
    (p' : RetryExit F R V × W × S' × B) : Prop :=
  p.1 = p'.1 ∧ p.2.1 = p'.2.1 ∧ p.2.2.2 = p'.2.2.2 ∧
    match p.1 with
    | .got _ _ => RelB p.2.2.1 p'.2.2.1
    | _ => True

theorem retry_sim {Rel RelR RelB RelF : S → S' → Prop} (h : Sim E E' Rel RelR RelB RelF) {x : X} : ∀ (n : Nat) (w : W)
    (s : S) (s' : S') (out : Output F R M), RelR s s' →
    Res.Rel (RetryRel RelB) (retry E o x n w s out) (retry E' o x n w s' out) := by
  intro n
  induction n with
  | zero => intro _ _ _ _ _; trivial
  | succ n ih =>
    intro w s s' out hr
    unfold retry
    split
    · obtain ⟨b, t, t', w', e, e', hc, ht⟩ := h.build w s s' x hr
      rw [e, e']
      simp only
      have hsol : (if b = true then E.sol.solve t else none) = (if b = true then E'.sol.solve t' else none) := by
        cases b
        · rfl
        · simp only [if_true] at ht ⊢; exact h.solve _ _ ht
      have hfail : Res.Rel RelR (E.sol.failedStep t) (E'.sol.failedStep t') := by
        cases b
        · exact h.failedF _ _ ht
        · exact h.failedB _ _ ht
      rw [hsol, hc]
      split
      next dx hdx =>
        cases b
        · cases hdx
        · exact ⟨rfl, rfl, rfl, ht⟩
      · split
        · exact ⟨rfl, rfl, rfl, trivial⟩
        · split
          · exact ⟨rfl, rfl, rfl, trivial⟩
          · split
            · exact ⟨rfl, rfl, rfl, trivial⟩
            · exact hfail.bind (fun a b hab => ih _ _ _ _ hab)
    · exact ⟨rfl, rfl, rfl, trivial⟩

/-- same results, related solver states if the run goes on -/
def StepRel {A : Type} (Rel : S → S' → Prop) (p : A × W × S × Output F R M)
    (p' : A × W × S' × Output F R M) : Prop :=
  p.1 = p'.1 ∧ p.2.1 = p'.2.1 ∧ p.2.2.2 = p'.2.2.2 ∧ (p.2.2.2.stop = .kNone → Rel p.2.2.1 p'.2.2.1)

theorem afterSolve_sim {Rel RelR RelB RelF : S → S' → Prop} (h : Sim E E' Rel RelR RelB RelF) (dx : V) (c : Cost F R)
    (w : W) (s : S) (s' : S') (out : Output F R M) (hr : RelB s s') :
    Res.Rel (StepRel RelB) (afterSolve E o dx c w s out) (afterSolve E' o dx c w s' out) := by
  unfold afterSolve
  simp only
  rw [h.normSq, h.gradSq _ _ hr]
  split
  · exact ⟨rfl, rfl, rfl, fun _ => hr⟩
  · split
    · exact ⟨rfl, rfl, rfl, fun _ => hr⟩
    · split
      · refine Res.Rel.bind (r := RelB) ?_ ?_
        · split
          · exact h.good _ _ _ hr
          · exact hr
        · intro a b hab
          rw [h.gradient _ _ hab]
          exact ⟨rfl, rfl, rfl, fun _ => hab⟩
      · refine Res.Rel.bind (r := RelB) (h.bad _ _ hr) ?_
        intro a b hab
        rw [h.gradient _ _ hab]
        split
        · exact ⟨rfl, rfl, rfl, fun _ => hab⟩
        · split
          · exact ⟨rfl, rfl, rfl, fun _ => hab⟩
          · exact ⟨rfl, rfl, rfl, fun _ => hab⟩

/-- the outcomes of `resizeIfNeeded` on related states -/
theorem resizeIfNeeded_sim {Rel RelR RelB RelF : S → S' → Prop} (h : Sim E E' Rel RelR RelB RelF) (w : W) (s : S)
    (s' : S') (x : X) (hr : Rel s s') :
    (∃ t t' w', resizeIfNeeded E w s x = (.inr t, w') ∧ resizeIfNeeded E' w s' x = (.inr t', w') ∧ RelR t t') ∨
    (∃ r w', r ≠ .kNone ∧ resizeIfNeeded E w s x = (.inl r, w') ∧ resizeIfNeeded E' w s' x = (.inl r, w')) := by
  unfold resizeIfNeeded
  simp only
  rw [h.dimsDynamic, ← h.dynDims]
  split
  · exact Or.inr ⟨_, _, by decide, rfl, rfl⟩
  · split
    · exact Or.inr ⟨_, _, by decide, rfl, rfl⟩
    · rcases h.resize w s s' x hr with ⟨t, t', w', e1, e2, ht⟩ | ⟨w', e1, e2⟩ | ⟨w', e1, e2⟩ <;>
        rw [e1, e2]
      · exact Or.inl ⟨_, _, _, rfl, rfl, ht⟩
      · exact Or.inr ⟨_, _, by decide, rfl, rfl⟩
      · exact Or.inr ⟨_, _, by decide, rfl, rfl⟩

theorem step_sim {Rel RelR RelB RelF : S → S' → Prop} (h : Sim E E' Rel RelR RelB RelF) (fuel : Nat) (w : W) (s : S)
    (s' : S') (x : X) (out : Output F R M) (hr : Rel s s') :
    Res.Rel (StepRel RelB) (step E o fuel w s x out) (step E' o fuel w s' x out) := by
  unfold step
  rcases resizeIfNeeded_sim h w s s' x hr with ⟨t, t', w', e1, e2, ht⟩ | ⟨r, w', hne, e1, e2⟩ <;> rw [e1, e2]
  · simp only
    have h1 := retry_sim (o := o) h (x := x) fuel w' t t' out ht
    revert h1
    cases hre : retry E o x fuel w' t out with
    | ok p =>
      cases hre' : retry E' o x fuel w' t' out with
      | ok p' =>
        intro h1
        obtain ⟨e, w2, s2, out2⟩ := p
        obtain ⟨e', w2', s2', out2'⟩ := p'
        obtain ⟨h1, h2, h3, h4⟩ := h1
        simp only at h1 h2 h3
        subst h1; subst h2; subst h3
        obtain ⟨a, b, r, ho, hs⟩ := retry_spec hre
        cases e with
        | ret => exact ⟨rfl, rfl, rfl, fun hn => by
            have h5 : r.code < 0 := FailCause.code hs
            have h6 : r = .kNone := by
              have : out2.stop = .kNone := hn
              rw [ho] at this; exact this
            rw [h6] at h5; exact absurd h5 (by decide)⟩
        | failed => exact ⟨rfl, rfl, rfl, fun hn => by cases hn⟩
        | got dx c => exact afterSolve_sim h dx c _ _ _ _ h4
      | ub => intro h; exact h.elim
      | throw => intro h; exact h.elim
      | fuel => intro h; exact h.elim
    | ub => cases retry E' o x fuel w' t' out <;> intro h <;> first | exact h.elim | trivial
    | throw => cases retry E' o x fuel w' t' out <;> intro h <;> first | exact h.elim | trivial
    | fuel => cases retry E' o x fuel w' t' out <;> intro h <;> first | exact h.elim | trivial
  · exact ⟨rfl, rfl, rfl, fun hn => absurd hn hne⟩

/-- loop states that agree except for the solver -/
def LoopRel (Rel : S → S' → Prop) (st : LoopSt F R W S X V M) (st' : LoopSt F R W S' X V M) : Prop :=
  st.w = st'.w ∧ (st.out.stop = .kNone → Rel st.s st'.s) ∧ st.x = st'.x ∧ st.out = st'.out ∧
    st.lastDx = st'.lastDx ∧ st.lastSucc = st'.lastSucc ∧ st.trace = st'.trace

theorem body_sim {Rel RelR RelB RelF : S → S' → Prop} (h : Sim E E' Rel RelR RelB RelF) (fuel : Nat) (last : Bool)
    (st : LoopSt F R W S X V M) (st' : LoopSt F R W S' X V M) (h0 : st.out.stop = .kNone)
    (hr : LoopRel Rel st st') :
    Res.Rel (LoopRel Rel) (body E o fuel last st) (body E' o fuel last st') := by
  obtain ⟨w, s, x, out, ld, ls, tr⟩ := st
  obtain ⟨w', s', x', out', ld', ls', tr'⟩ := st'
  obtain ⟨h1, h2, h3, h4, h5, h6, h7⟩ := hr
  simp only at h0 h1 h2 h3 h4 h5 h6 h7
  subst h1; subst h3; subst h4; subst h5; subst h6; subst h7
  unfold body
  refine Res.Rel.bind (step_sim h fuel w s s' x out (h2 h0)) ?_
  rintro ⟨⟨succ, mdx⟩, w2, s2, out2⟩ ⟨⟨succ', mdx'⟩, w2', s2', out2'⟩ ⟨g1, g2, g3, g4⟩
  simp only at g1 g2 g3 g4
  obtain ⟨rfl, rfl⟩ := Prod.mk.inj g1
  subst g2; subst g3
  simp only
  rw [h.plusEq, h.negV]
  have hclk : ∀ w, E.clock w = E'.clock w := fun w => by rw [h.clock]
  simp only [hclk]
  generalize (if succ = true then _ else _ : Res (X × Option V × Bool × Bool)) = u
  cases u with
  | ok u =>
    simp only [Res.bind_ok]
    refine ⟨rfl, fun hn => h.rebuild _ _ _ (g4 ?_), rfl, rfl, rfl, rfl, rfl⟩
    simp only at hn
    split at hn
    · cases hn
    · exact hn
  | ub => trivial
  | throw => trivial
  | fuel => trivial

theorem loop_sim {Rel RelR RelB RelF : S → S' → Prop} (h : Sim E E' Rel RelR RelB RelF) (fuel : Nat) : ∀ (n : Nat)
    (st : LoopSt F R W S X V M) (st' : LoopSt F R W S' X V M), st.out.stop = .kNone → LoopRel Rel st st' →
    Res.Rel (LoopRel Rel) (loop E o fuel n st) (loop E' o fuel n st') := by
  intro n
  induction n with
  | zero => intro st st' _ hr; exact hr
  | succ n ih =>
    intro st st' h0 hr
    unfold loop
    refine Res.Rel.bind (body_sim h fuel _ st st' h0 hr) ?_
    intro a b hab
    rw [hab.2.2.2.1]
    split
    · exact hab
    next hne =>
      refine ih _ _ ?_ hab
      rw [hab.2.2.2.1]
      by_cases hn : b.out.stop = .kNone
      · exact hn
      · exact absurd hn hne

/-- final states that agree except for the solver and the saved Hessian -/
def FinalRel (st : LoopSt F R W S X V M) (st' : LoopSt F R W S' X V M) : Prop :=
  st.w = st'.w ∧ st.x = st'.x ∧
    ({ st.out with finalHessian := none } : Output F R M) = { st'.out with finalHessian := none } ∧
    st.lastDx = st'.lastDx ∧ st.lastSucc = st'.lastSucc ∧ st.trace = st'.trace

theorem run_sim {Rel RelR RelB RelF : S → S' → Prop} (h : Sim E E' Rel RelR RelB RelF) (fuel : Nat) (mi : Int) (w : W)
    (s : S) (s' : S') (x : X) (hr : Rel s s') :
    Res.Rel FinalRel (optimizeAcc E o fuel mi w s x) (optimizeAcc E' o fuel mi w s' x) := by
  unfold optimizeAcc
  cases loopBound o mi with
  | none => trivial
  | some m =>
    simp only
    refine Res.Rel.bind (loop_sim h fuel m.toNat (initSt E w s x) (initSt E' w s' x) rfl
      ⟨rfl, fun _ => hr, rfl, by simp [initSt, h.ratio1], rfl, rfl, rfl⟩) ?_
    rintro ⟨w, s, x, out, ld, ls, tr⟩ ⟨w', s', x', out', ld', ls', tr'⟩ ⟨h1, h2, h3, h4, h5, h6, h7⟩
    simp only at h1 h2 h3 h4 h5 h6 h7
    subst h1; subst h3; subst h4; subst h5; subst h6; subst h7
    exact ⟨rfl, rfl, rfl, rfl, rfl, rfl⟩

/-- the step qualities the optimizer passes to `GoodStep`: 0, or the relative decrease of a cost that
decreased -/
def Quality (q : F) : Prop :=
  q = ofInt 0 ∨ ∃ fin err : F, q = relDerr fin err ∧ lt (sub err fin) (ofInt 0) = true

/-- `I` is preserved by everything the optimizer does with its solver. -/
structure SolInv (E : Env F R W S X V M) (I : S → Prop) : Prop where
  resize : ∀ w s d s' w', I s → E.sol.resize w s d = (.done s', w') → I s'
  build : ∀ w s x b s' w', I s → E.sol.build w s x = (b, s', w') → I s'
  good : ∀ s q s', I s → Quality q → E.sol.goodStep s q = .ok s' → I s'
  bad : ∀ s s', I s → E.sol.badStep s = .ok s' → I s'
  failed : ∀ s s', I s → E.sol.failedStep s = .ok s' → I s'
  rebuild : ∀ s b, I s → I (E.sol.rebuild s b)

theorem retry_solinv {I : S → Prop} (h : SolInv E I) {x : X} : ∀ {n : Nat} {w : W} {s : S}
    {out : Output F R M} {e w' s' out'}, I s → retry E o x n w s out = .ok (e, w', s', out') → I s' := by
  intro n
  induction n with
  | zero => intro w s out e w' s' out' _ hh; cases hh
  | succ n ih =>
    intro w s out e w' s' out' hI hh
    unfold retry at hh
    split at hh
    · rcases hb : E.sol.build w s x with ⟨b, s1, w1⟩
      have h1 := h.build _ _ _ _ _ _ hI hb
      rw [hb] at hh
      simp only at hh
      split at hh
      · injection hh with hh; obtain ⟨-, -, rfl, -⟩ := hh; exact h1
      · split at hh
        · injection hh with hh; obtain ⟨-, -, rfl, -⟩ := hh; exact h1
        · split at hh
          · injection hh with hh; obtain ⟨-, -, rfl, -⟩ := hh; exact h1
          · split at hh
            · injection hh with hh; obtain ⟨-, -, rfl, -⟩ := hh; exact h1
            · rw [Res.bind_eq_ok] at hh
              obtain ⟨s2, hs2, hh⟩ := hh
              exact ih (h.failed _ _ h1 hs2) hh
    · injection hh with hh; obtain ⟨-, -, rfl, -⟩ := hh; exact hI

theorem afterSolve_solinv {I : S → Prop} (h : SolInv E I) {dx : V} {c : Cost F R} {w : W} {s : S}
    {out : Output F R M} {p w' s' out'} (hI : I s)
    (hh : afterSolve E o dx c w s out = .ok (p, w', s', out')) : I s' := by
  unfold afterSolve at hh
  simp only at hh
  split at hh
  · injection hh with hh; obtain ⟨-, -, rfl, -⟩ := hh; exact hI
  · split at hh
    · injection hh with hh; obtain ⟨-, -, rfl, -⟩ := hh; exact hI
    · split at hh
      next hgood =>
        rw [Res.bind_eq_ok] at hh
        obtain ⟨s1, h1, hh⟩ := hh
        injection hh with hh; obtain ⟨-, -, rfl, -⟩ := hh
        split at h1
        next hit =>
          refine h.good _ _ _ hI ?_ h1
          split
          · refine Or.inr ⟨_, _, rfl, ?_⟩
            rw [Bool.or_eq_true] at hgood
            rcases hgood with hg | hg
            · exact hg
            · simp at hg; omega
          · exact Or.inl rfl
        · injection h1 with h1; subst h1; exact hI
      · rw [Res.bind_eq_ok] at hh
        obtain ⟨s1, h1, hh⟩ := hh
        have := h.bad _ _ hI h1
        split at hh
        · injection hh with hh; obtain ⟨-, -, rfl, -⟩ := hh; exact this
        · split at hh
          · injection hh with hh; obtain ⟨-, -, rfl, -⟩ := hh; exact this
          · injection hh with hh; obtain ⟨-, -, rfl, -⟩ := hh; exact this

theorem resizeIfNeeded_solinv {I : S → Prop} (h : SolInv E I) {w : W} {s : S} {x : X} {s1 w1} (hI : I s)
    (hh : resizeIfNeeded E w s x = (.inr s1, w1)) : I s1 := by
  unfold resizeIfNeeded at hh
  simp only at hh
  split at hh
  · cases (Prod.mk.inj hh).1
  · split at hh
    · cases (Prod.mk.inj hh).1
    · split at hh
      next hd => obtain ⟨e1, e2⟩ := Prod.mk.inj hh; injection e1 with e1; subst e1; exact h.resize _ _ _ _ _ hI hd
      · cases (Prod.mk.inj hh).1
      · cases (Prod.mk.inj hh).1

theorem step_solinv {I : S → Prop} (h : SolInv E I) {fuel : Nat} {w : W} {s : S} {x : X}
    {out : Output F R M} {p w' s' out'} (hI : I s)
    (hh : step E o fuel w s x out = .ok (p, w', s', out')) : I s' := by
  unfold step at hh
  split at hh
  · injection hh with hh; obtain ⟨-, -, rfl, -⟩ := hh; exact hI
  next s1 w1 hr =>
    rw [Res.bind_eq_ok] at hh
    obtain ⟨⟨e, w2, s2, out2⟩, h1, hh⟩ := hh
    have h2 := retry_solinv h (resizeIfNeeded_solinv h hI hr) h1
    cases e with
    | ret => injection hh with hh; obtain ⟨-, -, rfl, -⟩ := hh; exact h2
    | failed => injection hh with hh; obtain ⟨-, -, rfl, -⟩ := hh; exact h2
    | got dx c => exact afterSolve_solinv h h2 hh

/-- An invariant of the solver state holds at the end of every run. -/
theorem run_solinv {I : S → Prop} (h : SolInv E I) {fuel : Nat} {mi : Int} {w : W} {s : S} {x : X}
    {st : LoopSt F R W S X V M} (hI : I s) (hh : optimizeAcc E o fuel mi w s x = .ok st) : I st.s := by
  obtain ⟨m, st0, -, hj, -, -, hst⟩ := run_inv (I := fun st => I st.s) (J := fun st => I st.s)
    (fun last st st' _ h1 hb => by
      obtain ⟨succ, mdx, w1, s1, out1, ms, hstep, hs⟩ := body_spec' hb
      have h2 := step_solinv h h1 hstep
      obtain ⟨b, hb⟩ := hs.solver
      have h3 : I st'.s := by rw [hb]; exact h.rebuild _ _ h2
      exact ⟨fun _ => h3, h3⟩) (show I (initSt E w s x).s from hI) hI hh
  rw [hst]; exact hj

end
end Verif
