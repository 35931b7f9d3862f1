import Verif.Lemmas.Loop
/-!
# Homomorphisms of solvers

A map between the states of two solvers that commutes with everything the optimizer does with its solver commutes
with whole runs. Unlike `Sim` (Lemmas/Sim) it also speaks of the solver state and of the saved Hessian at the
end of every run, and the Hessians may have different types.
-/

namespace Verif
open FloatOps

/-- change of the state of a `ResizeOut` -/
def ResizeOut.map {S S' : Type} (α : S → S') : ResizeOut S → ResizeOut S'
  | .done s => .done (α s)
  | .badAlloc => .badAlloc
  | .invalidArg => .invalidArg

/-- the same output with another representation of the Hessian -/
def Output.mapH {F R M M' : Type} (μ : M → M') (out : Output F R M) : Output F R M' where
  finalCost := out.finalCost
  finalRerr := out.finalRerr
  stop := out.stop
  numResiduals := out.numResiduals
  numIters := out.numIters
  numFailures := out.numFailures
  numConsec := out.numConsec
  duration := out.duration
  finalHessian := out.finalHessian.map μ
  numDiffUsed := out.numDiffUsed
  errs := out.errs
  deltas2 := out.deltas2
  successes := out.successes

/-- the same record with another representation of the Hessian -/
def Rec.mapH {F R X V M M' : Type} (μ : M → M') (r : Rec F R X V M) : Rec F R X V M' :=
  ⟨r.x, r.succ, r.dx, r.out.mapH μ, r.xNext⟩

/-- the same loop state with another representation of solver and Hessian -/
def LoopSt.mapSt {F R W S S' X V M M' : Type} (α : S → S') (μ : M → M') (st : LoopSt F R W S X V M) :
    LoopSt F R W S' X V M' :=
  ⟨st.w, α st.s, st.x, st.out.mapH μ, st.lastDx, st.lastSucc, st.trace.map (Rec.mapH μ)⟩

section
variable {F R W S S' X V M M' : Type} [FloatOps F]

/-- `α` commutes with every operation of the solver. -/
structure Hom (E : Env F R W S X V M) (E' : Env F R W S' X V M') (α : S → S') (μ : M → M') : Prop where
  dimsDynamic : E'.dimsDynamic = E.dimsDynamic
  dynDims : E'.dynDims = E.dynDims
  plusEq : E'.plusEq = E.plusEq
  negV : E'.negV = E.negV
  normSq : E'.normSq = E.normSq
  clock : E'.clock = E.clock
  ratio1 : E'.ratio1 = E.ratio1
  firstOrder : E'.firstOrder = E.firstOrder
  resize : ∀ w s d, E'.sol.resize w (α s) d = ((E.sol.resize w s d).1.map α, (E.sol.resize w s d).2)
  build : ∀ w s x, E'.sol.build w (α s) x =
    ((E.sol.build w s x).1, α (E.sol.build w s x).2.1, (E.sol.build w s x).2.2)
  solve : ∀ s, E'.sol.solve (α s) = E.sol.solve s
  cost : ∀ s, E'.sol.cost (α s) = E.sol.cost s
  gradSq : ∀ s, E'.sol.gradSq (α s) = E.sol.gradSq s
  gradient : ∀ s, E'.sol.gradient (α s) = E.sol.gradient s
  good : ∀ s q, E'.sol.goodStep (α s) q = (E.sol.goodStep s q).map α
  bad : ∀ s, E'.sol.badStep (α s) = (E.sol.badStep s).map α
  failed : ∀ s, E'.sol.failedStep (α s) = (E.sol.failedStep s).map α
  rebuild : ∀ s b, E'.sol.rebuild (α s) b = α (E.sol.rebuild s b)
  hessian : ∀ s, E'.sol.hessian (α s) = μ (E.sol.hessian s)

theorem Res.map_bind {α β γ : Type} (r : Res α) (f : α → Res β) (g : β → γ) :
    (r.bind f).map g = r.bind (fun a => (f a).map g) := by cases r <;> rfl

theorem Res.bind_map {α β γ : Type} (r : Res α) (f : α → β) (g : β → Res γ) :
    (r.map f).bind g = r.bind (fun a => g (f a)) := by cases r <;> rfl

theorem Res.bind_congr {α β : Type} {r : Res α} {f g : α → Res β} (h : ∀ a, f a = g a) : r.bind f = r.bind g := by
  cases r <;> first | exact h _ | rfl

variable {E : Env F R W S X V M} {E' : Env F R W S' X V M'} {α : S → S'} {μ : M → M'} {o : Options F W V}

theorem retry_hom (h : Hom E E' α μ) (x : X) : ∀ (n : Nat) (w : W) (s : S) (out : Output F R M),
    retry E' o x n w (α s) (out.mapH μ) =
      (retry E o x n w s out).map (fun p => (p.1, p.2.1, α p.2.2.1, p.2.2.2.mapH μ)) := by
  intro n
  induction n with
  | zero => intro w s out; rfl
  | succ n ih =>
    intro w s out
    unfold retry
    rw [h.build]
    rcases E.sol.build w s x with ⟨b, t, w'⟩
    simp only [h.solve, h.cost, h.failed]
    have e1 : (out.mapH μ).numConsec = out.numConsec := rfl
    have e2 : (out.mapH μ).numFailures = out.numFailures := rfl
    have e3 : (out.mapH μ).finalCost = out.finalCost := rfl
    rw [e1, e2, e3]
    split
    · split
      · rfl
      · split
        · rfl
        · split
          · rfl
          · split
            · split <;> rfl
            · rw [Res.map_bind, Res.bind_map]
              refine Res.bind_congr fun a => ?_
              exact ih w' a { out with numConsec := inc8 out.numConsec, numFailures := inc8 out.numFailures }
    · rfl

theorem afterSolve_hom (h : Hom E E' α μ) (dx : V) (c : Cost F R) (w : W) (s : S) (out : Output F R M) :
    afterSolve E' o dx c w (α s) (out.mapH μ) =
      (afterSolve E o dx c w s out).map (fun p => (p.1, p.2.1, α p.2.2.1, p.2.2.2.mapH μ)) := by
  unfold afterSolve
  simp only [h.normSq, h.gradSq, h.bad]
  have e1 : (out.mapH μ).numConsec = out.numConsec := rfl
  have e2 : (out.mapH μ).numFailures = out.numFailures := rfl
  have e3 : (out.mapH μ).finalCost = out.finalCost := rfl
  have e4 : (out.mapH μ).numIters = out.numIters := rfl
  have e5 : (out.mapH μ).stop = out.stop := rfl
  rw [e1, e2, e3, e4, e5]
  split
  · rfl
  · split
    · rfl
    · split
      · rw [Res.map_bind]
        split
        · rw [h.good, Res.bind_map]
          refine Res.bind_congr fun a => ?_
          rw [h.gradient]; rfl
        · show Res.ok _ = Res.map _ (Res.ok _)
          rw [h.gradient]; rfl
      · rw [Res.map_bind, Res.bind_map]
        refine Res.bind_congr fun a => ?_
        rw [h.gradient]
        split
        · rfl
        · split <;> rfl

theorem resizeIfNeeded_hom (h : Hom E E' α μ) (w : W) (s : S) (x : X) :
    resizeIfNeeded E' w (α s) x =
      ((resizeIfNeeded E w s x).1.map id α, (resizeIfNeeded E w s x).2) := by
  unfold resizeIfNeeded
  rw [h.dynDims, h.dimsDynamic]
  simp only
  split
  · rfl
  · split
    · rfl
    · rw [h.resize]
      rcases E.sol.resize w s (E.dynDims x) with ⟨r, w'⟩
      cases r <;> rfl

theorem step_hom (h : Hom E E' α μ) (fuel : Nat) (w : W) (s : S) (x : X) (out : Output F R M) :
    step E' o fuel w (α s) x (out.mapH μ) =
      (step E o fuel w s x out).map (fun p => (p.1, p.2.1, α p.2.2.1, p.2.2.2.mapH μ)) := by
  unfold step
  rw [resizeIfNeeded_hom h]
  rcases resizeIfNeeded E w s x with ⟨r, w'⟩
  cases r with
  | inl r => rfl
  | inr t =>
    show (retry E' o x fuel w' (α t) (out.mapH μ)).bind _ = Res.map _ ((retry E o x fuel w' t out).bind _)
    rw [retry_hom h, Res.map_bind, Res.bind_map]
    refine Res.bind_congr fun p => ?_
    obtain ⟨e, w2, s2, out2⟩ := p
    cases e with
    | ret => rfl
    | failed => rfl
    | got dx c => exact afterSolve_hom h dx c w2 s2 out2

theorem body_hom (h : Hom E E' α μ) (fuel : Nat) (last : Bool) (st : LoopSt F R W S X V M) :
    body E' o fuel last (st.mapSt α μ) = (body E o fuel last st).map (LoopSt.mapSt α μ) := by
  unfold body
  have e : step E' o fuel (st.mapSt α μ).w (st.mapSt α μ).s (st.mapSt α μ).x (st.mapSt α μ).out = _ :=
    step_hom h fuel st.w st.s st.x st.out
  rw [e, Res.map_bind, Res.bind_map]
  refine Res.bind_congr fun p => ?_
  obtain ⟨⟨succ, mdx⟩, w2, s2, out2⟩ := p
  simp only
  rw [h.plusEq, h.negV, Res.map_bind]
  have hclk : ∀ w, E'.clock w = E.clock w := fun w => by rw [h.clock]
  simp only [hclk]
  have e1 : (st.mapSt α μ).x = st.x := rfl
  have e2 : (st.mapSt α μ).lastDx = st.lastDx := rfl
  have e3 : (st.mapSt α μ).lastSucc = st.lastSucc := rfl
  rw [e1, e2, e3]
  refine Res.bind_congr fun q => ?_
  obtain ⟨x1, ld, ls, ev⟩ := q
  simp only [h.rebuild]
  simp [Res.map, LoopSt.mapSt, Output.mapH, Rec.mapH]

theorem loop_hom (h : Hom E E' α μ) (fuel : Nat) : ∀ (n : Nat) (st : LoopSt F R W S X V M),
    loop E' o fuel n (st.mapSt α μ) = (loop E o fuel n st).map (LoopSt.mapSt α μ) := by
  intro n
  induction n with
  | zero => intro st; rfl
  | succ n ih =>
    intro st
    unfold loop
    rw [body_hom h, Res.map_bind, Res.bind_map]
    refine Res.bind_congr fun a => ?_
    have e : (a.mapSt α μ).out.stop = a.out.stop := rfl
    rw [e]
    split
    · rfl
    · exact ih a

/-- A homomorphism of solvers commutes with whole runs, including the outcome (undefined behaviour, exceptions). -/
theorem run_hom (h : Hom E E' α μ) (fuel : Nat) (mi : Int) (w : W) (s : S) (x : X) :
    optimizeAcc E' o fuel mi w (α s) x = (optimizeAcc E o fuel mi w s x).map (LoopSt.mapSt α μ) := by
  unfold optimizeAcc
  cases loopBound o mi with
  | none => rfl
  | some m =>
    have e : initSt E' w (α s) x = (initSt E w s x).mapSt α μ := by
      simp [initSt, LoopSt.mapSt, Output.mapH, Output.init, h.ratio1]
    simp only [e]
    rw [loop_hom h, Res.map_bind, Res.bind_map]
    refine Res.bind_congr fun a => ?_
    rw [h.firstOrder]
    show Res.ok _ = Res.ok _
    congr 1
    simp only [LoopSt.mapSt, Output.mapH, h.hessian]
    cases (!E.firstOrder && o.saveLast) <;> rfl

end
end Verif
