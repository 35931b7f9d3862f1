import Verif.Lemmas.CoSim
/-!
# Simulation between runs with related costs

As `Lemmas/CoSim`, but the costs, the norms of steps and gradients and the gradients of the two runs are related too instead of being equal or ignored.
-/

set_option linter.unusedSectionVars false

namespace Verif
open FloatOps

section
variable {F R W S S' X X' V V' M M' : Type} [FloatOps F]

/-- how the quantities of two runs are related -/
structure Rels (F R X X' V V' : Type) where
  /-- costs that were computed -/
  cost : Cost F R → Cost F R → Prop
  /-- the best costs so far, which are the initial ones at first -/
  final : Cost F R → Cost F R → Prop
  /-- relative decreases -/
  rel : F → F → Prop
  /-- parameters -/
  x : X → X' → Prop
  /-- steps -/
  dx : V → V' → Prop
  /-- squared norms of steps -/
  dn : F → F → Prop
  /-- squared norms of gradients -/
  gn : F → F → Prop
  /-- gradients -/
  grad : V → V' → Prop

variable {E : Env F R W S X V M} {E' : Env F R W S' X' V' M'} {o : Options F W V} {o' : Options F W V'}
variable {K : Rels F R X X' V V'} {Rel RelR RelB RelF RelH : S → S' → Prop}

/-- related quantities lead to the same decisions -/
structure OptSim (o : Options F W V) (o' : Options F W V') (K : Rels F R X X' V V') : Prop where
  checkFinalCost : o.checkFinalCost = o'.checkFinalCost
  useStepQuality : o.useStepQuality = o'.useStepQuality
  maxIters : o.maxIters = o'.maxIters
  maxTotalFailures : o.maxTotalFailures = o'.maxTotalFailures
  maxConsecFailures : o.maxConsecFailures = o'.maxConsecFailures
  maxDurationMs : o.maxDurationMs = o'.maxDurationMs
  gradNorm : hasGradNorm2 o = hasGradNorm2 o'
  gnZero : K.gn (ofInt 0) (ofInt 0)
  final : ∀ c c', K.cost c c' → K.final c c'
  num : ∀ c c', K.cost c c' → (c.num = 0 ↔ c'.num = 0)
  bad : ∀ c c', K.cost c c' → (isNaN c.cost || isInf c.cost) = (isNaN c'.cost || isInf c'.cost)
  started : ∀ f f', K.final f f' → lt f.cost scalarMax = lt f'.cost scalarMax
  init : ∀ r : R, K.final { cost := maxVal, num := 0, inlier := r } { cost := maxVal, num := 0, inlier := r }
  relInit : K.rel maxVal maxVal
  less : ∀ c c' f f', K.cost c c' → K.final f f' → lt (sub c.cost f.cost) (ofInt 0) = lt (sub c'.cost f'.cost) (ofInt 0)
  rel : ∀ c c' f f', K.cost c c' → K.final f f' → K.rel (relDerr f.cost c.cost) (relDerr f'.cost c'.cost)
  quality : ∀ a b, K.rel a b → o.useStepQuality = true → a = b
  criteria : ∀ w c c' f f' dn dn' gn gn' dx dx' g g', K.cost c c' → K.final f f' → K.dn dn dn' → K.gn gn gn' → K.dx dx dx' → K.grad g g' →
    criteria o w c.cost (relDerr f.cost c.cost) dn gn dx g = Verif.criteria o' w c'.cost (relDerr f'.cost c'.cost) dn' gn' dx' g'

/-- The solvers of `E` and `E'` behave in the same way on related states and parameters. `Rel`
relates the states between iterations, `RelR` after the resize, `RelB` after a successful `Build`, `RelF` after a failed one, `RelH` after `GoodStep` or `BadStep`. -/
structure RunSim (E : Env F R W S X V M) (E' : Env F R W S' X' V' M') (K : Rels F R X X' V V')
    (Rel RelR RelB RelF RelH : S → S' → Prop) : Prop where
  dimsDynamic : E.dimsDynamic = E'.dimsDynamic
  dynDims : ∀ x x', K.x x x' → (E.dynDims x = 0 ↔ E'.dynDims x' = 0) ∧ (E.dynDims x < 0 ↔ E'.dynDims x' < 0)
  plusEq : ∀ x x' d d', K.x x x' → K.dx d d' → K.x (E.plusEq x d) (E'.plusEq x' d')
  negV : ∀ d d', K.dx d d' → K.dx (E.negV d) (E'.negV d')
  norm : ∀ d d', K.dx d d' → K.dn (E.normSq d) (E'.normSq d')
  normSq : ∀ d d', K.dx d d' → (isNaN (E.normSq d) || isInf (E.normSq d)) = (isNaN (E'.normSq d') || isInf (E'.normSq d'))
  clock : E.clock = E'.clock
  ratio1 : E.ratio1 = E'.ratio1
  resize : ∀ w s s' x x', K.x x x' → Rel s s' →
    (∃ t t' w', E.sol.resize w s (E.dynDims x) = (.done t, w') ∧ E'.sol.resize w s' (E'.dynDims x') = (.done t', w') ∧
      RelR t t') ∨
    (∃ w', E.sol.resize w s (E.dynDims x) = (.badAlloc, w') ∧ E'.sol.resize w s' (E'.dynDims x') = (.badAlloc, w')) ∨
    (∃ w', E.sol.resize w s (E.dynDims x) = (.invalidArg, w') ∧ E'.sol.resize w s' (E'.dynDims x') = (.invalidArg, w'))
  build : ∀ w s s' x x', K.x x x' → RelR s s' → ∃ b t t' w',
    E.sol.build w s x = (b, t, w') ∧ E'.sol.build w s' x' = (b, t', w') ∧ K.cost (E.sol.cost t) (E'.sol.cost t') ∧
      if b then RelB t t' else RelF t t'
  gradSq : ∀ s s', RelB s s' → K.gn (E.sol.gradSq s) (E'.sol.gradSq s')
  gradient : ∀ s s', RelH s s' → K.grad (E.sol.gradient s) (E'.sol.gradient s')
  gradientB : ∀ s s', RelB s s' → K.grad (E.sol.gradient s) (E'.sol.gradient s')
  solve : ∀ s s', RelB s s' → Option.Rel K.dx (E.sol.solve s) (E'.sol.solve s')
  good : ∀ s s' q, RelB s s' → Res.Rel RelH (E.sol.goodStep s q) (E'.sol.goodStep s' q)
  bad : ∀ s s', RelB s s' → Res.Rel RelH (E.sol.badStep s) (E'.sol.badStep s')
  failedB : ∀ s s', RelB s s' → Res.Rel RelR (E.sol.failedStep s) (E'.sol.failedStep s')
  failedF : ∀ s s', RelF s s' → Res.Rel RelR (E.sol.failedStep s) (E'.sol.failedStep s')
  rebuild : ∀ s s' b, RelH s s' → Rel (E.sol.rebuild s b) (E'.sol.rebuild s' b)
  rebuildT : ∀ s s', RelB s s' → Rel (E.sol.rebuild s true) (E'.sol.rebuild s' true)

/-- outputs that agree up to the relations between costs and norms, except for the saved Hessian -/
structure OutSim (K : Rels F R X X' V V') (a : Output F R M) (b : Output F R M') : Prop where
  finalCost : K.final a.finalCost b.finalCost
  finalRerr : K.rel a.finalRerr b.finalRerr
  stop : a.stop = b.stop
  numResiduals : a.numResiduals = b.numResiduals
  numIters : a.numIters = b.numIters
  numFailures : a.numFailures = b.numFailures
  numConsec : a.numConsec = b.numConsec
  duration : a.duration = b.duration
  numDiffUsed : a.numDiffUsed = b.numDiffUsed
  errs : List.Forall₂ (fun e e' => ∃ c c', K.cost c c' ∧ e = c.cost ∧ e' = c'.cost) a.errs b.errs
  deltas2 : List.Forall₂ K.dn a.deltas2 b.deltas2
  successes : a.successes = b.successes

/-- the way the retry loop is left -/
def ExitSim (K : Rels F R X X' V V') : RetryExit F R V → RetryExit F R V' → Prop
  | .ret, .ret => True
  | .failed, .failed => True
  | .got d c, .got d' c' => K.dx d d' ∧ K.cost c c'
  | _, _ => False

/-- related results of the retry loop -/
def RetrySim (K : Rels F R X X' V V') (RelB : S → S' → Prop) (p : RetryExit F R V × W × S × Output F R M)
    (p' : RetryExit F R V' × W × S' × Output F R M') : Prop :=
  ExitSim K p.1 p'.1 ∧ p.2.1 = p'.2.1 ∧ OutSim K p.2.2.2 p'.2.2.2 ∧
    match p.1 with
    | .got _ _ => RelB p.2.2.1 p'.2.2.1
    | _ => True

theorem Res.Rel.mono {α β : Type} {r q : α → β → Prop} {a : Res α} {b : Res β} (h : Res.Rel r a b) (hq : ∀ x y, r x y → q x y) : Res.Rel q a b := by
  cases a <;> cases b <;> first | exact h.elim | exact hq _ _ h | exact trivial

theorem retry_runsim (h : RunSim E E' K Rel RelR RelB RelF RelH) (ho : OptSim o o' K) {x : X} {x' : X'} (hx : K.x x x') :
    ∀ (n : Nat) (w : W) (s : S) (s' : S') (out : Output F R M) (out' : Output F R M'), RelR s s' → OutSim K out out' →
    Res.Rel (RetrySim K RelB) (retry E o x n w s out) (retry E' o' x' n w s' out') := by
  intro n
  have hmt : maxTries o = maxTries o' := by simp only [maxTries, ho.maxConsecFailures]
  induction n with
  | zero => intro _ _ _ _ _ _ _; trivial
  | succ n ih =>
    intro w s s' out out' hr hout
    obtain ⟨a1, a2, a3, a4, a5, a6, a7, a8, a9, a10, a11, a12, a13⟩ := out
    obtain ⟨b1, b2, b3, b4, b5, b6, b7, b8, b9, b10, b11, b12, b13⟩ := out'
    obtain ⟨hf, hrr, rfl, rfl, rfl, rfl, rfl, rfl, rfl, he, hdl, rfl⟩ := hout
    simp only at hf hrr he hdl
    unfold retry
    rw [hmt]
    split
    · obtain ⟨b, t, t', w', e, e', hc, ht⟩ := h.build w s s' x x' hx hr
      rw [e, e']
      simp only
      have hsol : Option.Rel K.dx (if b = true then E.sol.solve t else none) (if b = true then E'.sol.solve t' else none) := by
        cases b
        · exact Option.Rel.none
        · simp only [if_true] at ht ⊢; exact h.solve _ _ ht
      have hfail : Res.Rel RelR (E.sol.failedStep t) (E'.sol.failedStep t') := by
        cases b
        · exact h.failedF _ _ ht
        · exact h.failedB _ _ ht
      have hB : (if b = true then E.sol.solve t else none) ≠ none → RelB t t' := by
        cases b
        · intro hne; exact absurd rfl hne
        · intro _; exact ht
      revert hB
      generalize (if b = true then E.sol.solve t else none) = a at hsol
      generalize (if b = true then E'.sol.solve t' else none) = a' at hsol
      intro hB
      cases hsol with
      | some hab => exact ⟨⟨hab, hc⟩, rfl, ⟨hf, hrr, rfl, rfl, rfl, rfl, rfl, rfl, rfl, he, hdl, rfl⟩, hB (by simp)⟩
      | none =>
        simp only
        rw [← ho.bad _ _ hc, ho.maxConsecFailures, ho.started _ _ hf]
        simp only [← ho.num _ _ hc]
        split
        · exact ⟨trivial, rfl, ⟨hf, hrr, rfl, rfl, rfl, rfl, rfl, rfl, rfl, he, hdl, rfl⟩, trivial⟩
        · split
          · exact ⟨trivial, rfl, ⟨hf, hrr, rfl, rfl, rfl, rfl, rfl, rfl, rfl, he, hdl, rfl⟩, trivial⟩
          · split
            · refine ⟨trivial, rfl, ?_, trivial⟩
              simp only
              split
              · exact ⟨hf, hrr, rfl, rfl, rfl, rfl, rfl, rfl, rfl, he, hdl, rfl⟩
              · exact ⟨hf, hrr, rfl, rfl, rfl, rfl, rfl, rfl, rfl, he, hdl, rfl⟩
            · exact hfail.bind (fun a b hab =>
                ih _ _ _ _ _ hab ⟨hf, hrr, rfl, rfl, rfl, rfl, rfl, rfl, rfl, he, hdl, rfl⟩)
    · exact ⟨trivial, rfl, ⟨hf, hrr, rfl, rfl, rfl, rfl, rfl, rfl, rfl, he, hdl, rfl⟩, trivial⟩

/-- related results of `Step` -/
def StepSim (K : Rels F R X X' V V') (RelB RelH : S → S' → Prop) (z : Prop) (p : (Bool × Option V) × W × S × Output F R M)
    (p' : (Bool × Option V') × W × S' × Output F R M') : Prop :=
  p.1.1 = p'.1.1 ∧ Option.Rel K.dx p.1.2 p'.1.2 ∧ p.2.1 = p'.2.1 ∧ OutSim K p.2.2.2 p'.2.2.2 ∧
    (p.2.2.2.stop = .kNone → RelH p.2.2.1 p'.2.2.1 ∨ (RelB p.2.2.1 p'.2.2.1 ∧ z))

theorem afterSolve_runsim (h : RunSim E E' K Rel RelR RelB RelF RelH) (ho : OptSim o o' K) (dx : V) (dx' : V') (hd : K.dx dx dx') (c c' : Cost F R)
    (hc : K.cost c c') (w : W) (s : S) (s' : S') (out : Output F R M) (out' : Output F R M') (hr : RelB s s') (hout : OutSim K out out') :
    Res.Rel (StepSim K RelB RelH (out.numIters = 0)) (afterSolve E o dx c w s out) (afterSolve E' o' dx' c' w s' out') := by
  obtain ⟨a1, a2, a3, a4, a5, a6, a7, a8, a9, a10, a11, a12, a13⟩ := out
  obtain ⟨b1, b2, b3, b4, b5, b6, b7, b8, b9, b10, b11, b12, b13⟩ := out'
  obtain ⟨hf, hrr, rfl, rfl, rfl, rfl, rfl, rfl, rfl, he, hdl, rfl⟩ := hout
  simp only at hf hrr he hdl
  have hdl1 : List.Forall₂ K.dn (a12 ++ [E.normSq dx]) (b12 ++ [E'.normSq dx']) := forall₂_append_one hdl (h.norm _ _ hd)
  have he1 : List.Forall₂ (fun e e' => ∃ c c', K.cost c c' ∧ e = c.cost ∧ e' = c'.cost) (a11 ++ [c.cost]) (b11 ++ [c'.cost]) :=
    forall₂_append_one he ⟨c, c', hc, rfl, rfl⟩
  have hrel := ho.rel c c' a1 b1 hc hf
  have hg : K.gn (if hasGradNorm2 o then E.sol.gradSq s else ofInt 0) (if hasGradNorm2 o' then E'.sol.gradSq s' else ofInt 0) := by
    rw [ho.gradNorm]
    split
    · exact h.gradSq _ _ hr
    · exact ho.gnZero
  unfold afterSolve
  simp only
  rw [h.normSq _ _ hd, ho.bad _ _ hc, ho.less c c' a1 b1 hc hf]
  split
  · exact ⟨rfl, .none, rfl, ⟨hf, hrr, rfl, rfl, rfl, rfl, rfl, rfl, rfl, he, hdl, rfl⟩, fun hn => by cases hn⟩
  · split
    · exact ⟨rfl, .none, rfl, ⟨hf, hrr, rfl, rfl, rfl, rfl, rfl, rfl, rfl, he, hdl, rfl⟩, fun hn => by cases hn⟩
    · split
      · have hq : (if o.useStepQuality = true then relDerr a1.cost c.cost else ofInt 0) =
            (if o'.useStepQuality = true then relDerr b1.cost c'.cost else ofInt 0) := by
          rw [← ho.useStepQuality]
          split
          next hu => exact ho.quality _ _ hrel hu
          next => rfl
        rw [hq]
        refine Res.Rel.bind (r := fun a b => RelH a b ∨ (RelB a b ∧ a5 = 0)) ?_ ?_
        · split
          · exact (h.good _ _ _ hr).mono fun _ _ h => Or.inl h
          next hi => exact Or.inr ⟨hr, Nat.eq_zero_of_not_pos hi⟩
        · intro a b hab
          have hgr : K.grad (E.sol.gradient a) (E'.sol.gradient b) := hab.elim (h.gradient _ _) fun h1 => h.gradientB _ _ h1.1
          rw [ho.criteria w c c' a1 b1 _ _ _ _ dx dx' _ _ hc hf (h.norm _ _ hd) hg hd hgr]
          exact ⟨rfl, .some hd, rfl, ⟨ho.final _ _ hc, hrel, rfl, rfl, rfl, rfl, rfl, rfl, rfl, he1, hdl1, rfl⟩, fun _ => hab⟩
      · refine Res.Rel.bind (r := RelH) (h.bad _ _ hr) ?_
        intro a b hab
        rw [ho.maxConsecFailures, ho.maxTotalFailures]
        split
        · exact ⟨rfl, .none, rfl, ⟨hf, hrr, rfl, rfl, rfl, rfl, rfl, rfl, rfl, he1, hdl1, rfl⟩, fun _ => Or.inl hab⟩
        · split
          · exact ⟨rfl, .none, rfl, ⟨hf, hrr, rfl, rfl, rfl, rfl, rfl, rfl, rfl, he1, hdl1, rfl⟩, fun _ => Or.inl hab⟩
          · rw [ho.criteria w c c' a1 b1 _ _ _ _ dx dx' _ _ hc hf (h.norm _ _ hd) hg hd (h.gradient _ _ hab)]
            exact ⟨rfl, .some hd, rfl, ⟨hf, hrr, rfl, rfl, rfl, rfl, rfl, rfl, rfl, he1, hdl1, rfl⟩, fun _ => Or.inl hab⟩

/-- the outcomes of `resizeIfNeeded` on related states -/
theorem resizeIfNeeded_runsim (h : RunSim E E' K Rel RelR RelB RelF RelH) (w : W) (s : S) (s' : S') (x : X) (x' : X') (hx : K.x x x') (hr : Rel s s') :
    (∃ t t' w', resizeIfNeeded E w s x = (.inr t, w') ∧ resizeIfNeeded E' w s' x' = (.inr t', w') ∧ RelR t t') ∨
    (∃ r w', r ≠ .kNone ∧ resizeIfNeeded E w s x = (.inl r, w') ∧ resizeIfNeeded E' w s' x' = (.inl r, w')) := by
  unfold resizeIfNeeded
  simp only
  obtain ⟨hz, hneg⟩ := h.dynDims x x' hx
  have hz' : (E'.dynDims x' == 0) = (E.dynDims x == 0) := by
    rw [Bool.eq_iff_iff]; simp [hz]
  rw [h.dimsDynamic, hz']
  split
  · exact Or.inr ⟨_, _, by decide, rfl, rfl⟩
  · by_cases hd : E.dynDims x < 0
    · rw [if_pos hd, if_pos (hneg.mp hd)]
      exact Or.inr ⟨_, _, by decide, rfl, rfl⟩
    · rw [if_neg hd, if_neg fun h => hd (hneg.mpr h)]
      rcases h.resize w s s' x x' hx hr with ⟨t, t', w', e1, e2, ht⟩ | ⟨w', e1, e2⟩ | ⟨w', e1, e2⟩ <;>
        rw [e1, e2]
      · exact Or.inl ⟨_, _, _, rfl, rfl, ht⟩
      · exact Or.inr ⟨_, _, by decide, rfl, rfl⟩
      · exact Or.inr ⟨_, _, by decide, rfl, rfl⟩

theorem step_runsim (h : RunSim E E' K Rel RelR RelB RelF RelH) (ho : OptSim o o' K) (fuel : Nat) (w : W) (s : S)
    (s' : S') (x : X) (x' : X') (hx : K.x x x') (out : Output F R M) (out' : Output F R M') (hr : Rel s s')
    (hout : OutSim K out out') :
    Res.Rel (StepSim K RelB RelH (out.numIters = 0)) (step E o fuel w s x out) (step E' o' fuel w s' x' out') := by
  unfold step
  rcases resizeIfNeeded_runsim h w s s' x x' hx hr with ⟨t, t', w', e1, e2, ht⟩ | ⟨r, w', hne, e1, e2⟩ <;> rw [e1, e2]
  · simp only
    have h1 := retry_runsim h ho hx fuel w' t t' out out' ht hout
    revert h1
    cases hre : retry E o x fuel w' t out with
    | ok p =>
      cases hre' : retry E' o' x' fuel w' t' out' with
      | ok p' =>
        intro h1
        obtain ⟨e, w2, s2, out2⟩ := p
        obtain ⟨e', w2', s2', out2'⟩ := p'
        obtain ⟨h1, h2, h3, h4⟩ := h1
        simp only at h1 h2 h3
        subst h2
        obtain ⟨a, b, r, hot, hs⟩ := retry_spec hre
        cases e with
        | ret =>
          cases e' <;> first | exact h1.elim | skip
          exact ⟨rfl, .none, rfl, h3, fun hn => by
            have h5 : r.code < 0 := FailCause.code hs
            have h6 : r = .kNone := by
              have : out2.stop = .kNone := hn
              rw [hot] at this; exact this
            rw [h6] at h5; exact absurd h5 (by decide)⟩
        | failed =>
          cases e' <;> first | exact h1.elim | skip
          exact ⟨rfl, .none, rfl, { h3 with stop := rfl }, fun hn => by cases hn⟩
        | got dx c =>
          cases e' <;> first | exact h1.elim | skip
          obtain ⟨hd, hc⟩ := h1
          have hit : out2.numIters = out.numIters := by rw [hot]; rfl
          have h5 := afterSolve_runsim h ho _ _ hd _ _ hc w2 _ _ _ _ h4 h3
          rw [hit] at h5
          exact h5
      | ub => intro h; exact h.elim
      | throw => intro h; exact h.elim
      | fuel => intro h; exact h.elim
    | ub => cases retry E' o' x' fuel w' t' out' <;> intro h <;> first | exact h.elim | trivial
    | throw => cases retry E' o' x' fuel w' t' out' <;> intro h <;> first | exact h.elim | trivial
    | fuel => cases retry E' o' x' fuel w' t' out' <;> intro h <;> first | exact h.elim | trivial
  · exact ⟨rfl, .none, rfl, { hout with stop := rfl }, fun hn => absurd hn hne⟩

/-- related records of one iteration -/
structure RecSim (K : Rels F R X X' V V') (r : Rec F R X V M) (r' : Rec F R X' V' M') : Prop where
  x : K.x r.x r'.x
  succ : r.succ = r'.succ
  dx : Option.Rel K.dx r.dx r'.dx
  out : OutSim K r.out r'.out
  xNext : K.x r.xNext r'.xNext

/-- related loop states -/
structure LoopSim (K : Rels F R X X' V V') (Rel : S → S' → Prop)
    (st : LoopSt F R W S X V M) (st' : LoopSt F R W S' X' V' M') : Prop where
  w : st.w = st'.w
  s : st.out.stop = .kNone → Rel st.s st'.s
  x : K.x st.x st'.x
  out : OutSim K st.out st'.out
  lastDx : Option.Rel K.dx st.lastDx st'.lastDx
  lastSucc : st.lastSucc = st'.lastSucc
  trace : List.Forall₂ (RecSim K) st.trace st'.trace

theorem body_runsim (h : RunSim E E' K Rel RelR RelB RelF RelH) (ho : OptSim o o' K) (fuel : Nat) (last : Bool)
    (st : LoopSt F R W S X V M) (st' : LoopSt F R W S' X' V' M') (h0 : st.out.stop = .kNone)
    (hr : LoopSim K Rel st st')
    (hq : (∀ s s', RelB s s' → RelH s s') ∨ (st.out.numIters = 0 → st.lastSucc = true ∧ (o.checkFinalCost && last) = false)) :
    Res.Rel (LoopSim K Rel) (body E o fuel last st) (body E' o' fuel last st') := by
  obtain ⟨w, s, x, out, ld, ls, tr⟩ := st
  obtain ⟨w', s', x', out', ld', ls', tr'⟩ := st'
  obtain ⟨h1, h2, h3, h4, h5, h6, h7⟩ := hr
  simp only at h0 h1 h2 h3 h4 h5 h6 h7
  subst h1; subst h6
  unfold body
  refine Res.Rel.bind (step_runsim h ho fuel w s s' x x' h3 out out' (h2 h0) h4) ?_
  rintro ⟨⟨succ, mdx⟩, w2, s2, out2⟩ ⟨⟨succ', mdx'⟩, w2', s2', out2'⟩ ⟨g1, g2, g3, g4, g5⟩
  simp only at g1 g2 g3 g4 g5
  subst g1; subst g3
  simp only
  refine Res.Rel.bind
    (r := fun u u' => K.x u.1 u'.1 ∧ Option.Rel K.dx u.2.1 u'.2.1 ∧ u.2.2.1 = u'.2.2.1 ∧ u.2.2.2 = u'.2.2.2 ∧
      (ls = true → (o.checkFinalCost && last) = false → u.2.2.2 = false)) ?_ ?_
  · split
    · cases g2 with
      | none => trivial
      | some hd => exact ⟨h.plusEq _ _ _ _ h3 hd, .some hd, rfl, by simp only [ho.checkFinalCost], fun _ h => h⟩
    · cases h5 with
      | some hd => exact ⟨h.plusEq _ _ _ _ h3 (h.negV _ _ hd), .none, rfl, rfl, fun h _ => by simp [h]⟩
      | none =>
        cases g2 with
        | none => exact ⟨h3, .none, rfl, rfl, fun h _ => by simp [h]⟩
        | some hd => exact ⟨h.plusEq _ _ _ _ h3 hd, .some hd, rfl, rfl, fun h _ => by simp [h]⟩
  · rintro ⟨x1, d1, l1, e1⟩ ⟨x1', d1', l1', e1'⟩ ⟨k1, k2, k3, k4, k5⟩
    simp only at k1 k2 k3 k4 k5
    subst k3; subst k4
    simp only [h.clock, ho.maxDurationMs, ← g4.duration]
    refine ⟨rfl, fun hn => ?_, k1, ?_, k2, rfl, ?_⟩
    · rcases g5 (by
        simp only at hn
        split at hn
        · cases hn
        · exact hn) with h8 | ⟨h8, h9⟩
      · exact h.rebuild _ _ _ h8
      · rcases hq with hq | hq
        · exact h.rebuild _ _ _ (hq _ _ h8)
        · rw [k5 (hq h9).1 (hq h9).2]
          exact h.rebuildT _ _ h8
    · exact { g4 with
        duration := rfl
        stop := by simp only [g4.stop]
        numIters := by simp only [g4.numIters] }
    · exact forall₂_append_one h7 ⟨h3, rfl, g2, g4, k1⟩

theorem loop_runsim (h : RunSim E E' K Rel RelR RelB RelF RelH) (ho : OptSim o o' K) (fuel : Nat) : ∀ (n : Nat)
    (st : LoopSt F R W S X V M) (st' : LoopSt F R W S' X' V' M'), st.out.stop = .kNone → LoopSim K Rel st st' →
    ((∀ s s', RelB s s' → RelH s s') ∨ (st.out.numIters + n ≤ 65536 ∧ (n = 0 ∨ (st.out.numIters = 0 → st.lastSucc = true ∧ (o.checkFinalCost = true → 2 ≤ n))))) →
    Res.Rel (LoopSim K Rel) (loop E o fuel n st) (loop E' o' fuel n st') := by
  intro n
  induction n with
  | zero => intro st st' _ hr _; exact hr
  | succ n ih =>
    intro st st' h0 hr hq
    unfold loop
    have hb := body_runsim h ho fuel (n == 0) st st' h0 hr (hq.imp_right fun hq hz => by
      obtain ⟨h1, h2⟩ := hq.2.resolve_left (by omega) hz
      refine ⟨h1, ?_⟩
      cases hc : o.checkFinalCost with
      | false => rfl
      | true => have := h2 hc; simp; omega)
    revert hb
    cases hbo : body E o fuel (n == 0) st with
    | ub => cases body E' o' fuel (n == 0) st' <;> intro h <;> first | exact h.elim | trivial
    | throw => cases body E' o' fuel (n == 0) st' <;> intro h <;> first | exact h.elim | trivial
    | fuel => cases body E' o' fuel (n == 0) st' <;> intro h <;> first | exact h.elim | trivial
    | ok a =>
    cases hbo' : body E' o' fuel (n == 0) st' with
    | ub => intro h; exact h.elim
    | throw => intro h; exact h.elim
    | fuel => intro h; exact h.elim
    | ok b =>
    intro hab
    have hab : LoopSim K Rel a b := hab
    show Res.Rel (LoopSim K Rel) (if a.out.stop ≠ .kNone then _ else _) (if b.out.stop ≠ .kNone then _ else _)
    have hit : a.out.numIters = inc16 st.out.numIters := by
      obtain ⟨succ, mdx, w1, s1, out1, ms, hstep, hs⟩ := body_spec' hbo
      rw [hs.out]
      have : out1.numIters = st.out.numIters := by cases hs.step <;> rfl
      simp only [this]
    rw [← hab.out.stop]
    split
    · exact hab
    next hne =>
      refine ih _ _ ?_ hab (hq.imp_right fun hq => ?_)
      swap
      · have := hq.1
        by_cases hw : st.out.numIters + 1 < 65536
        · have e : inc16 st.out.numIters = st.out.numIters + 1 := by unfold inc16; omega
          rw [hit, e]
          exact ⟨by omega, Or.inr fun hz => by omega⟩
        · have e : n = 0 := by omega
          have e2 : inc16 st.out.numIters = 0 := by unfold inc16; omega
          rw [hit, e2, e]
          exact ⟨by omega, Or.inl rfl⟩
      by_cases hn : a.out.stop = .kNone
      · exact hn
      · exact absurd hn hne

/-- What two related runs agree on: the world, the related parameters, the outputs except for the
squared norms of the steps and the saved Hessian, and iteration by iteration the related points, the
acceptance, the related steps and the outputs. -/
structure FinalSim (K : Rels F R X X' V V') (st : LoopSt F R W S X V M)
    (st' : LoopSt F R W S' X' V' M') : Prop where
  w : st.w = st'.w
  x : K.x st.x st'.x
  out : OutSim K st.out st'.out
  trace : List.Forall₂ (RecSim K) st.trace st'.trace

theorem run_runsim (h : RunSim E E' K Rel RelR RelB RelF RelH) (ho : OptSim o o' K) (fuel : Nat) (mi : Int) (w : W)
    (s : S) (s' : S') (x : X) (x' : X') (hx : K.x x x') (hr : Rel s s')
    (hq : (∀ s s', RelB s s' → RelH s s') ∨ ∀ m, loopBound o mi = some m → m ≤ 65536) :
    Res.Rel (FinalSim K) (optimizeAcc E o fuel mi w s x) (optimizeAcc E' o' fuel mi w s' x') := by
  unfold optimizeAcc
  have hb : loopBound o mi = loopBound o' mi := by simp only [loopBound, ho.maxIters, ho.checkFinalCost]
  cases hm : loopBound o mi with
  | none => rw [hb] at hm; rw [hm]; trivial
  | some m =>
    rw [← hb, hm]
    simp only
    refine Res.Rel.bind (loop_runsim h ho fuel m.toNat (initSt E w s x) (initSt E' w s' x') rfl
      ⟨rfl, fun _ => hr, hx, ?_, .none, rfl, .nil⟩ (hq.imp_right fun hq => ?_)) ?_
    · simp only [initSt, h.ratio1]
      exact ⟨ho.init _, ho.relInit, rfl, rfl, rfl, rfl, rfl, rfl, rfl, .nil, .nil, rfl⟩
    · have h1 := hq m hm
      obtain ⟨h2, h3, -⟩ := loopBound_spec hm
      refine ⟨by show 0 + m.toNat ≤ 65536; omega, Or.inr fun _ => ⟨rfl, fun hc => ?_⟩⟩
      rw [hc] at h2
      split at h2 <;> simp at h2 <;> omega
    rintro ⟨w, s, x, out, ld, ls, tr⟩ ⟨w', s', x', out', ld', ls', tr'⟩ ⟨h1, h2, h3, h4, h5, h6, h7⟩
    simp only at h1 h2 h3 h4 h5 h6 h7
    refine ⟨h1, h3, ?_, h7⟩
    exact { h4 with stop := by simp only [h4.stop, h4.numIters] }

end
end Verif
