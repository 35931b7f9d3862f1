import Verif.Lemmas.Hom
/-!
# Homomorphisms of arithmetics

A map between two arithmetics that commutes with what the optimizer does with its numbers, together with maps of parameters, steps, solver states and Hessians, commutes with whole runs. As `Lemmas/Hom`, but the
numbers of the two runs are of different types.
-/

namespace Verif
open FloatOps

section
variable {F F' R W S S' X X' V V' M M' : Type}

/-- the same cost in another arithmetic -/
def Cost.mapN (φ : F → F') (c : Cost F R) : Cost F' R := ⟨φ c.cost, c.num, c.inlier, c.log⟩

/-- the same output in another arithmetic -/
def Output.mapN (φ : F → F') (μ : M → M') (out : Output F R M) : Output F' R M' where
  finalCost := out.finalCost.mapN φ
  finalRerr := φ out.finalRerr
  stop := out.stop
  numResiduals := out.numResiduals
  numIters := out.numIters
  numFailures := out.numFailures
  numConsec := out.numConsec
  duration := φ out.duration
  finalHessian := out.finalHessian.map μ
  numDiffUsed := out.numDiffUsed
  errs := out.errs.map φ
  deltas2 := out.deltas2.map φ
  successes := out.successes

/-- the same record in another arithmetic -/
def Rec.mapN (φ : F → F') (ξ : X → X') (ν : V → V') (μ : M → M') (r : Rec F R X V M) : Rec F' R X' V' M' :=
  ⟨ξ r.x, r.succ, r.dx.map ν, r.out.mapN φ μ, ξ r.xNext⟩

/-- the same loop state in another arithmetic -/
def LoopSt.mapN (φ : F → F') (ξ : X → X') (ν : V → V') (α : S → S') (μ : M → M') (st : LoopSt F R W S X V M) : LoopSt F' R W S' X' V' M' :=
  ⟨st.w, α st.s, ξ st.x, st.out.mapN φ μ, st.lastDx.map ν, st.lastSucc, st.trace.map (Rec.mapN φ ξ ν μ)⟩

/-- the way the retry loop is left, in another arithmetic -/
def RetryExit.mapN (φ : F → F') (ν : V → V') : RetryExit F R V → RetryExit F' R V'
  | .ret => .ret
  | .failed => .failed
  | .got dx c => .got (ν dx) (c.mapN φ)

/-- the same options in another arithmetic; the callbacks of the first are those of the second -/
structure OptNum (φ : F → F') (ν : V → V') (o : Options F W V) (o' : Options F' W V') : Prop where
  checkFinalCost : o'.checkFinalCost = o.checkFinalCost
  useStepQuality : o'.useStepQuality = o.useStepQuality
  saveLast : o'.saveLast = o.saveLast
  maxIters : o'.maxIters = o.maxIters
  minError : o'.minError = φ o.minError
  minRerrDec : o'.minRerrDec = φ o.minRerrDec
  minStepNorm2 : o'.minStepNorm2 = φ o.minStepNorm2
  minGradNorm2 : o'.minGradNorm2 = φ o.minGradNorm2
  maxTotalFailures : o'.maxTotalFailures = o.maxTotalFailures
  maxConsecFailures : o'.maxConsecFailures = o.maxConsecFailures
  maxDurationMs : o'.maxDurationMs = φ o.maxDurationMs
  stopCallback : o.stopCallback = o'.stopCallback.map fun cb w a b c => cb w (φ a) (φ b) (φ c)
  stopCallback2 : o.stopCallback2 = o'.stopCallback2.map fun cb w a d g => cb w (φ a) (ν d) (ν g)

variable [FloatOps F] [FloatOps F']

/-- what the optimizer does with numbers -/
structure NumMap (φ : F → F') : Prop where
  add : ∀ a b, φ (add a b) = FloatOps.add (φ a) (φ b)
  sub : ∀ a b, φ (sub a b) = FloatOps.sub (φ a) (φ b)
  ofInt : ∀ n, φ (ofInt n) = FloatOps.ofInt n
  lt : ∀ a b, lt a b = FloatOps.lt (φ a) (φ b)
  isNaN : ∀ a, isNaN a = FloatOps.isNaN (φ a)
  isInf : ∀ a, isInf a = FloatOps.isInf (φ a)
  maxVal : φ maxVal = FloatOps.maxVal
  scalarMax : φ scalarMax = FloatOps.scalarMax
  rel : ∀ a b, φ (relDerr a b) = relDerr (φ a) (φ b)

/-- The maps commute with every operation of the solver, on the states that satisfy `Inv`. -/
structure NumHom (E : Env F R W S X V M) (E' : Env F' R W S' X' V' M') (φ : F → F') (ξ : X → X') (ν : V → V') (α : S → S') (μ : M → M') (Inv : S → Prop) : Prop where
  dimsDynamic : E'.dimsDynamic = E.dimsDynamic
  dynDims : ∀ x, E'.dynDims (ξ x) = E.dynDims x
  plusEq : ∀ x d, E'.plusEq (ξ x) (ν d) = ξ (E.plusEq x d)
  negV : ∀ d, E'.negV (ν d) = ν (E.negV d)
  normSq : ∀ d, E'.normSq (ν d) = φ (E.normSq d)
  clock : ∀ w, E'.clock w = (φ (E.clock w).1, (E.clock w).2)
  ratio1 : E'.ratio1 = E.ratio1
  firstOrder : E'.firstOrder = E.firstOrder
  resize : ∀ w s d, Inv s → E'.sol.resize w (α s) d = ((E.sol.resize w s d).1.map α, (E.sol.resize w s d).2) ∧
    ∀ t, (E.sol.resize w s d).1 = .done t → Inv t
  build : ∀ w s x, Inv s → E'.sol.build w (α s) (ξ x) = ((E.sol.build w s x).1, α (E.sol.build w s x).2.1, (E.sol.build w s x).2.2) ∧ Inv (E.sol.build w s x).2.1
  solve : ∀ s, Inv s → E'.sol.solve (α s) = (E.sol.solve s).map ν
  cost : ∀ s, E'.sol.cost (α s) = (E.sol.cost s).mapN φ
  gradSq : ∀ s, E'.sol.gradSq (α s) = φ (E.sol.gradSq s)
  gradient : ∀ s, E'.sol.gradient (α s) = ν (E.sol.gradient s)
  good : ∀ s q, Inv s → E'.sol.goodStep (α s) (φ q) = (E.sol.goodStep s q).map α ∧ ∀ t, E.sol.goodStep s q = .ok t → Inv t
  bad : ∀ s, Inv s → E'.sol.badStep (α s) = (E.sol.badStep s).map α ∧ ∀ t, E.sol.badStep s = .ok t → Inv t
  failed : ∀ s, Inv s → E'.sol.failedStep (α s) = (E.sol.failedStep s).map α ∧ ∀ t, E.sol.failedStep s = .ok t → Inv t
  rebuild : ∀ s b, Inv s → E'.sol.rebuild (α s) b = α (E.sol.rebuild s b) ∧ Inv (E.sol.rebuild s b)
  hessian : ∀ s, Inv s → E'.sol.hessian (α s) = μ (E.sol.hessian s)

variable {E : Env F R W S X V M} {E' : Env F' R W S' X' V' M'} {φ : F → F'} {ξ : X → X'} {ν : V → V'} {α : S → S'} {μ : M → M'} {Inv : S → Prop}
variable {o : Options F W V} {o' : Options F' W V'}

/-- the second run is the image of the first, and the state of the first satisfies the invariant -/
def ResNum {A B : Type} (g : A → B) (P : A → Prop) (r : Res A) (r' : Res B) : Prop := r' = r.map g ∧ ∀ a, r = .ok a → P a

theorem ResNum.bind {A B C D : Type} {g : A → B} {P : A → Prop} {r : Res A} {r' : Res B} {k : C → D} {Q : C → Prop} {f : A → Res C} {f' : B → Res D}
    (h : ResNum g P r r') (hf : ∀ a, P a → ResNum k Q (f a) (f' (g a))) : ResNum k Q (r.bind f) (r'.bind f') := by
  obtain ⟨rfl, hP⟩ := h
  cases r with
  | ok a => exact hf a (hP a rfl)
  | _ => exact ⟨rfl, fun a h => by cases h⟩

theorem ResNum.ok {A B : Type} {g : A → B} {P : A → Prop} {a : A} {b : B} (h : b = g a) (hP : P a) : ResNum g P (.ok a) (.ok b) :=
  ⟨by rw [h]; rfl, fun _ e => by cases e; exact hP⟩

theorem maxTries_num (ho : OptNum φ ν o o') : maxTries o' = maxTries o := by simp only [maxTries, ho.maxConsecFailures]

theorem criteria_num (hφ : NumMap φ) (ho : OptNum φ ν o o') (w : W) (err rel dn gn : F) (dx g : V) :
    criteria o' w (φ err) (φ rel) (φ dn) (φ gn) (ν dx) (ν g) = criteria o w err rel dn gn dx g := by
  have e1 : callStop1 o w err dn gn = callStop1 o' w (φ err) (φ dn) (φ gn) := by
    unfold callStop1; rw [ho.stopCallback]; cases o'.stopCallback <;> rfl
  have e2 : ∀ w, callStop2 o w err dx g = callStop2 o' w (φ err) (ν dx) (ν g) := by
    intro w; unfold callStop2; rw [ho.stopCallback2]; cases o'.stopCallback2 <;> rfl
  unfold criteria
  simp only [e1, e2, hφ.lt, hφ.ofInt, ho.minError, ho.minRerrDec, ho.minStepNorm2, ho.minGradNorm2]

theorem hasGradNorm2_num (hφ : NumMap φ) (ho : OptNum φ ν o o') : hasGradNorm2 o' = hasGradNorm2 o := by
  unfold hasGradNorm2
  rw [hφ.lt, hφ.ofInt, ho.minGradNorm2, ho.stopCallback, ho.stopCallback2]
  cases o'.stopCallback <;> cases o'.stopCallback2 <;> rfl

/-- what is related after the retry loop -/
abbrev RetryNum (φ : F → F') (ν : V → V') (α : S → S') (μ : M → M') (p : RetryExit F R V × W × S × Output F R M) : RetryExit F' R V' × W × S' × Output F' R M' :=
  (p.1.mapN φ ν, p.2.1, α p.2.2.1, p.2.2.2.mapN φ μ)

theorem retry_num (hφ : NumMap φ) (h : NumHom E E' φ ξ ν α μ Inv) (ho : OptNum φ ν o o') (x : X) : ∀ (n : Nat) (w : W) (s : S) (out : Output F R M), Inv s →
    ResNum (RetryNum φ ν α μ) (fun p => Inv p.2.2.1) (retry E o x n w s out) (retry E' o' (ξ x) n w (α s) (out.mapN φ μ)) := by
  intro n
  induction n with
  | zero => intro w s out _; exact ⟨rfl, fun a h => by cases h⟩
  | succ n ih =>
    intro w s out hs
    obtain ⟨hb, hi⟩ := h.build w s x hs
    unfold retry
    rw [hb, maxTries_num ho]
    rcases hB : E.sol.build w s x with ⟨b, t, w'⟩
    rw [hB] at hi
    simp only at hi ⊢
    have e0 : (if b = true then E'.sol.solve (α t) else none) = (if b = true then E.sol.solve t else none).map ν := by
      rw [h.solve t hi]; cases b <;> rfl
    have e1 : (out.mapN φ μ).numConsec = out.numConsec := rfl
    have e2 : (out.mapN φ μ).numFailures = out.numFailures := rfl
    have e3 : lt (out.mapN φ μ).finalCost.cost scalarMax = lt out.finalCost.cost scalarMax := by rw [hφ.lt, hφ.scalarMax]; rfl
    have e4 : (E'.sol.cost (α t)).num = (E.sol.cost t).num := by rw [h.cost]; rfl
    have e5 : (isNaN (E'.sol.cost (α t)).cost || isInf (E'.sol.cost (α t)).cost) = (isNaN (E.sol.cost t).cost || isInf (E.sol.cost t).cost) := by
      rw [h.cost, hφ.isNaN, hφ.isInf]; rfl
    rw [e0, e1, e2, e3, e4, e5, ho.maxConsecFailures]
    split
    · cases (if b = true then E.sol.solve t else none) with
      | some dx => exact .ok (by rw [h.cost]; rfl) hi
      | none =>
        simp only [Option.map_none]
        split
        · exact .ok rfl hi
        · split
          · exact .ok rfl hi
          · split
            · refine .ok ?_ hi
              split <;> rfl
            · exact (show ResNum α Inv _ _ from h.failed t hi).bind fun a ha =>
                ih w' a { out with numConsec := inc8 out.numConsec, numFailures := inc8 out.numFailures } ha
    · exact .ok rfl hs

/-- what is related after a step -/
abbrev StepNum (φ : F → F') (ν : V → V') (α : S → S') (μ : M → M') (p : (Bool × Option V) × W × S × Output F R M) : (Bool × Option V') × W × S' × Output F' R M' :=
  ((p.1.1, p.1.2.map ν), p.2.1, α p.2.2.1, p.2.2.2.mapN φ μ)

theorem afterSolve_num (hφ : NumMap φ) (h : NumHom E E' φ ξ ν α μ Inv) (ho : OptNum φ ν o o') (dx : V) (c : Cost F R) (w : W) (s : S) (out : Output F R M) (hs : Inv s) :
    ResNum (StepNum φ ν α μ) (fun p => Inv p.2.2.1) (afterSolve E o dx c w s out) (afterSolve E' o' (ν dx) (c.mapN φ) w (α s) (out.mapN φ μ)) := by
  have e1 : (isNaN (c.mapN φ).cost || isInf (c.mapN φ).cost) = (isNaN c.cost || isInf c.cost) := by rw [hφ.isNaN, hφ.isInf]; rfl
  have e2 : (isNaN (E'.normSq (ν dx)) || isInf (E'.normSq (ν dx))) = (isNaN (E.normSq dx) || isInf (E.normSq dx)) := by rw [h.normSq, hφ.isNaN, hφ.isInf]
  have e3 : lt (sub (c.mapN φ).cost (out.mapN φ μ).finalCost.cost) (ofInt 0) = lt (sub c.cost out.finalCost.cost) (ofInt 0) := by rw [hφ.lt, hφ.sub, hφ.ofInt]; rfl
  have e4 : relDerr (out.mapN φ μ).finalCost.cost (c.mapN φ).cost = φ (relDerr out.finalCost.cost c.cost) := (hφ.rel _ _).symm
  have e5 : (if hasGradNorm2 o' = true then E'.sol.gradSq (α s) else ofInt 0) = φ (if hasGradNorm2 o = true then E.sol.gradSq s else ofInt 0) := by
    rw [hasGradNorm2_num hφ ho, h.gradSq]; split
    · rfl
    · exact (hφ.ofInt 0).symm
  have e6 : (if o'.useStepQuality = true then φ (relDerr out.finalCost.cost c.cost) else ofInt 0) = φ (if o.useStepQuality = true then relDerr out.finalCost.cost c.cost else ofInt 0) := by
    rw [ho.useStepQuality]; split
    · rfl
    · exact (hφ.ofInt 0).symm
  have e7 : (out.mapN φ μ).numIters = out.numIters := rfl
  have e8 : (c.mapN φ).cost = φ c.cost := rfl
  unfold afterSolve
  simp only [e1, e2, e3, e4, e5, e6, e7]
  split
  · exact .ok rfl hs
  · split
    · exact .ok rfl hs
    · split
      · refine ResNum.bind (g := α) (P := Inv) ?_ fun a ha => ?_
        · split
          · exact h.good s _ hs
          · exact .ok rfl hs
        · refine .ok ?_ ha
          rw [h.gradient, h.normSq, e8, criteria_num hφ ho]
          simp [StepNum, Output.mapN, e8]
      · refine (show ResNum α Inv _ _ from h.bad s hs).bind fun a ha => ?_
        have e9 : (out.mapN φ μ).numConsec = out.numConsec := rfl
        have e10 : (out.mapN φ μ).numFailures = out.numFailures := rfl
        rw [h.gradient, h.normSq, e8, criteria_num hφ ho, ho.maxConsecFailures, ho.maxTotalFailures, e9, e10]
        split
        · exact .ok (by simp [StepNum, Output.mapN]) ha
        · split
          · exact .ok (by simp [StepNum, Output.mapN]) ha
          · exact .ok (by simp [StepNum, Output.mapN]) ha

theorem step_num (hφ : NumMap φ) (h : NumHom E E' φ ξ ν α μ Inv) (ho : OptNum φ ν o o') (fuel : Nat) (w : W) (s : S) (x : X) (out : Output F R M) (hs : Inv s) :
    ResNum (StepNum φ ν α μ) (fun p => Inv p.2.2.1) (step E o fuel w s x out) (step E' o' fuel w (α s) (ξ x) (out.mapN φ μ)) := by
  have hr : resizeIfNeeded E' w (α s) (ξ x) = ((resizeIfNeeded E w s x).1.map id α, (resizeIfNeeded E w s x).2) ∧ ∀ t, (resizeIfNeeded E w s x).1 = .inr t → Inv t := by
    obtain ⟨h1, h2⟩ := h.resize w s (E.dynDims x) hs
    unfold resizeIfNeeded
    rw [h.dynDims, h.dimsDynamic]
    simp only
    split
    · exact ⟨rfl, fun t h => by cases h⟩
    · split
      · exact ⟨rfl, fun t h => by cases h⟩
      · rw [h1]
        rcases hR : E.sol.resize w s (E.dynDims x) with ⟨r, w'⟩
        rw [hR] at h2
        cases r with
        | done t => exact ⟨rfl, fun u hu => by cases hu; exact h2 t rfl⟩
        | _ => exact ⟨rfl, fun t h => by cases h⟩
  unfold step
  rw [hr.1]
  have h2 := hr.2
  rcases hR : resizeIfNeeded E w s x with ⟨r, w'⟩
  rw [hR] at h2
  cases r with
  | inl r => exact .ok rfl hs
  | inr t =>
    refine (retry_num hφ h ho x fuel w' t out (h2 t rfl)).bind fun p hp => ?_
    obtain ⟨e, w2, s2, out2⟩ := p
    cases e with
    | ret => exact .ok rfl hp
    | failed => exact .ok rfl hp
    | got dx c => exact afterSolve_num hφ h ho dx c w2 s2 out2 hp

theorem body_num (hφ : NumMap φ) (h : NumHom E E' φ ξ ν α μ Inv) (ho : OptNum φ ν o o') (fuel : Nat) (last : Bool) (st : LoopSt F R W S X V M) (hs : Inv st.s) :
    ResNum (LoopSt.mapN φ ξ ν α μ) (fun st => Inv st.s) (body E o fuel last st) (body E' o' fuel last (st.mapN φ ξ ν α μ)) := by
  unfold body
  refine (step_num hφ h ho fuel st.w st.s st.x st.out hs).bind fun p hp => ?_
  obtain ⟨⟨succ, mdx⟩, w2, s2, out2⟩ := p
  simp only
  have e1 : (st.mapN φ ξ ν α μ).x = ξ st.x := rfl
  have e2 : (st.mapN φ ξ ν α μ).lastDx = st.lastDx.map ν := rfl
  have e3 : (st.mapN φ ξ ν α μ).lastSucc = st.lastSucc := rfl
  rw [e1, e2, e3]
  refine ResNum.bind (g := fun q : X × Option V × Bool × Bool => (ξ q.1, q.2.1.map ν, q.2.2)) (P := fun _ => True) ?_ fun q _ => ?_
  · rw [ho.checkFinalCost]
    cases succ
    · cases st.lastDx with
      | some d => exact .ok (by simp [h.negV, h.plusEq]) trivial
      | none =>
        cases mdx with
        | some d => exact .ok (by simp [h.plusEq]) trivial
        | none => exact .ok rfl trivial
    · cases mdx with
      | some d => exact .ok (by simp [h.plusEq]) trivial
      | none => exact ⟨rfl, fun _ h => by cases h⟩
  · obtain ⟨x1, ld, ls, ev⟩ := q
    obtain ⟨hr1, hr2⟩ := h.rebuild s2 (!ev) hp
    refine .ok ?_ hr2
    rw [hr1]
    have e4 : ∀ a b : F, lt (φ a) (φ b) = lt a b := fun a b => (hφ.lt a b).symm
    have e5 : ∀ w, E'.clock w = (φ (E.clock w).1, (E.clock w).2) := h.clock
    simp [LoopSt.mapN, Output.mapN, Rec.mapN, ho.maxDurationMs, ← hφ.ofInt, ← hφ.add, e4, e5]

theorem loop_num (hφ : NumMap φ) (h : NumHom E E' φ ξ ν α μ Inv) (ho : OptNum φ ν o o') (fuel : Nat) : ∀ (n : Nat) (st : LoopSt F R W S X V M), Inv st.s →
    ResNum (LoopSt.mapN φ ξ ν α μ) (fun st => Inv st.s) (loop E o fuel n st) (loop E' o' fuel n (st.mapN φ ξ ν α μ)) := by
  intro n
  induction n with
  | zero => intro st hs; exact .ok rfl hs
  | succ n ih =>
    intro st hs
    unfold loop
    refine (body_num hφ h ho fuel (n == 0) st hs).bind fun a ha => ?_
    have e : (a.mapN φ ξ ν α μ).out.stop = a.out.stop := rfl
    rw [e]
    split
    · exact .ok rfl ha
    · exact ih a ha

/-- A homomorphism of arithmetics commutes with whole runs, including the outcome. -/
theorem run_num (hφ : NumMap φ) (h : NumHom E E' φ ξ ν α μ Inv) (ho : OptNum φ ν o o') (fuel : Nat) (mi : Int) (w : W) (s : S) (x : X) (hs : Inv s) :
    optimizeAcc E' o' fuel mi w (α s) (ξ x) = (optimizeAcc E o fuel mi w s x).map (LoopSt.mapN φ ξ ν α μ) := by
  have hl : loopBound o' mi = loopBound o mi := by unfold loopBound; rw [ho.maxIters, ho.checkFinalCost]
  unfold optimizeAcc
  rw [hl]
  cases loopBound o mi with
  | none => rfl
  | some m =>
    have e : initSt E' w (α s) (ξ x) = (initSt E w s x).mapN φ ξ ν α μ := by
      simp [initSt, LoopSt.mapN, Output.mapN, Output.init, Cost.mapN, h.ratio1, hφ.maxVal, hφ.ofInt]
    simp only [e]
    refine ((loop_num hφ h ho fuel m.toNat (initSt E w s x) hs).bind (k := LoopSt.mapN φ ξ ν α μ) (Q := fun _ => True) fun a ha => ?_).1
    rw [h.firstOrder, ho.saveLast]
    refine .ok ?_ trivial
    simp only [LoopSt.mapN, Output.mapN, h.hessian _ ha]
    cases (!E.firstOrder && o.saveLast) <;> rfl

end
end Verif
