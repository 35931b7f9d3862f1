import Verif.Lemmas.Lie
import Verif.Props.Position
import Verif.Props.Termination
import Verif.Props.LmSystem
import Verif.Lemmas.RealLin
/-!
# C87: rotations and poses as parameters

The traits of 3rdparty/traits move a rotation or a pose by `x = x * exp(dx)`. Rotations stay rotations, a rolled back step is undone exactly, the choice
of the world frame does not matter, and Gauss-Newton finds a prior in one step.
-/

set_option linter.unusedSectionVars false

namespace Verif
open FloatOps Matrix NormedSpace

/-! ### Points of a run -/

section
variable {F R W S X V M : Type} [FloatOps F] {E : Env F R W S X V M} {o : Options F W V}

/-- what every update preserves holds at all points of a run -/
theorem run_keeps {Q : X → Prop} (hadd : ∀ x d, Q x → Q (E.plusEq x d)) {fuel : Nat} {mi : Int} {w : W} {s : S} {x : X}
    {st : LoopSt F R W S X V M} (hx : Q x) (h : optimizeAcc E o fuel mi w s x = .ok st) :
    Q st.x ∧ ∀ r ∈ st.trace, Q r.x ∧ Q r.xNext := by
  let I : LoopSt F R W S X V M → Prop := fun st => Q st.x ∧ ∀ r ∈ st.trace, Q r.x ∧ Q r.xNext
  have hI0 : I (initSt E w s x) := ⟨hx, fun _ e => nomatch e⟩
  obtain ⟨m, st0, -, hj, -, -, hst⟩ := run_inv (I := I) (J := I)
    (fun last st st' _ hI hb => by
      obtain ⟨hQ, hT⟩ := hI
      obtain ⟨succ, mdx, w1, s1, out1, ms, hs⟩ := body_spec hb
      have hx' : Q st'.x := by
        have hu := hs.upd
        generalize st'.x = x' at hu ⊢
        generalize st'.lastDx = l' at hu
        generalize st'.lastSucc = b' at hu
        cases hu with
        | succ dx => exact hadd _ _ hQ
        | roll d _ h => exact hadd _ _ hQ
        | adv dx _ => exact hadd _ _ hQ
        | stay _ => exact hQ
      have : I st' := ⟨hx', fun r hr => by
        rw [hs.trace] at hr
        rcases List.mem_append.1 hr with hr | hr
        · exact hT r hr
        · rw [List.mem_singleton.1 hr]; exact ⟨hQ, hx'⟩⟩
      exact ⟨fun _ => this, this⟩) hI0 hI0 h
  rw [hst]
  exact hj

end

/-! ### Rotations stay rotations -/

/-- a rotation matrix -/
def IsRotation (R : Matrix (Fin 3) (Fin 3) ℝ) : Prop := Rᵀ * R = 1 ∧ R.det = 1

/-- a rotation and `k` translations -/
def IsPose {k : ℕ} (x : PoseMat k) : Prop := ∃ R t, x = fromBlocks R t 0 1 ∧ IsRotation R

theorem IsRotation.mul {A B : Matrix (Fin 3) (Fin 3) ℝ} (hA : IsRotation A) (hB : IsRotation B) : IsRotation (A * B) := by
  refine ⟨?_, by rw [det_mul, hA.2, hB.2, one_mul]⟩
  rw [transpose_mul, Matrix.mul_assoc, ← Matrix.mul_assoc Aᵀ, hA.1, Matrix.one_mul, hB.1]

theorem IsPose.mul {k : ℕ} {x y : PoseMat k} (hx : IsPose x) (hy : IsPose y) : IsPose (x * y) := by
  obtain ⟨R, t, rfl, hR⟩ := hx
  obtain ⟨R', t', rfl, hR'⟩ := hy
  exact ⟨R * R', R * t' + t, by rw [fromBlocks_multiply]; simp, hR.mul hR'⟩

section
variable {R W S M : Type}

/-- **C87**: a run on rotation matrices (any solver, any options) evaluates and returns rotation matrices only. -/
theorem C87_rotations_stay {E : Env ℝ R W S (Matrix (Fin 3) (Fin 3) ℝ) (DVec ℝ) M} (hE : E.plusEq = so3Plus) {o : Options ℝ W (DVec ℝ)}
    {fuel : Nat} {mi : Int} {w : W} {s : S} {x : Matrix (Fin 3) (Fin 3) ℝ} {st : LoopSt ℝ R W S (Matrix (Fin 3) (Fin 3) ℝ) (DVec ℝ) M}
    (hx : IsRotation x) (h : optimizeAcc E o fuel mi w s x = .ok st) :
    IsRotation st.x ∧ ∀ r ∈ st.trace, IsRotation r.x ∧ IsRotation r.xNext := by
  refine run_keeps (fun x d hx => ?_) hx h
  rw [hE, so3Plus]
  split
  · exact hx.mul (exp_hat3 _)
  · exact hx

/-- **C87**: a run on quaternions that starts at a unit quaternion evaluates and returns unit quaternions only. -/
theorem C87_quaternions_stay {E : Env ℝ R W S (Quaternion ℝ) (DVec ℝ) M} (hE : E.plusEq = quatPlus) {o : Options ℝ W (DVec ℝ)}
    {fuel : Nat} {mi : Int} {w : W} {s : S} {x : Quaternion ℝ} {st : LoopSt ℝ R W S (Quaternion ℝ) (DVec ℝ) M}
    (hx : ‖x‖ = 1) (h : optimizeAcc E o fuel mi w s x = .ok st) :
    ‖st.x‖ = 1 ∧ ∀ r ∈ st.trace, ‖r.x‖ = 1 ∧ ‖r.xNext‖ = 1 := by
  refine run_keeps (Q := fun x => ‖x‖ = 1) (fun x d hx => ?_) hx h
  rw [hE, quatPlus]
  split
  · rw [norm_mul, hx, norm_exp_halfIm, one_mul]
  · exact hx

/-- **C87**: a run on poses evaluates and returns poses only: the rotation part is a rotation, the last rows are those of the identity. -/
theorem C87_poses_stay {k : ℕ} {e : Fin 3 ⊕ (Fin 3 × Fin k) ≃ Fin (3 + 3 * k)} {E : Env ℝ R W S (PoseMat k) (DVec ℝ) M}
    (hE : E.plusEq = posePlus e) {o : Options ℝ W (DVec ℝ)}
    {fuel : Nat} {mi : Int} {w : W} {s : S} {x : PoseMat k} {st : LoopSt ℝ R W S (PoseMat k) (DVec ℝ) M}
    (hx : IsPose x) (h : optimizeAcc E o fuel mi w s x = .ok st) :
    IsPose st.x ∧ ∀ r ∈ st.trace, IsPose r.x ∧ IsPose r.xNext := by
  refine run_keeps (fun x d hx => ?_) hx h
  rw [hE, posePlus]
  split
  · exact hx.mul (exp_hatPose _)
  · exact hx

end

/-! ### Movements along one direction add up -/

/-- Moving twice in the same direction is moving once by the sum: what an exponential map, or the addition of vectors, satisfies. -/
structure OneParam {X : Type} (plus : X → DVec ℝ → X) (n : ℕ) : Prop where
  add : ∀ x (v : Vec ℝ n) (a b : ℝ), plus (plus x ⟨n, a • v⟩) ⟨n, b • v⟩ = plus x ⟨n, (a + b) • v⟩
  zero : ∀ x, plus x ⟨n, 0⟩ = x
  other : ∀ x (d : DVec ℝ), d.n ≠ n → plus x d = x

theorem hat3_smul (a : ℝ) (w : Fin 3 → ℝ) : hat3 (a • w) = a • hat3 w := by
  ext i j; fin_cases i <;> fin_cases j <;> simp [hat3]

theorem exp_smul_mul {m : Type} [Fintype m] [DecidableEq m] (A : Matrix m m ℝ) (a b : ℝ) : exp (a • A) * exp (b • A) = exp ((a + b) • A) := by
  rw [add_smul, Matrix.exp_add_of_commute]
  exact ((Commute.refl A).smul_left a).smul_right b

theorem oneParam_so3 : OneParam so3Plus 3 where
  add x v a b := by
    simp only [so3Plus, dif_pos]
    rw [Matrix.mul_assoc]
    congr 1
    exact (congrArg₂ (fun A B => exp A * exp B) (hat3_smul a v) (hat3_smul b v)).trans ((exp_smul_mul _ a b).trans (congrArg exp (hat3_smul (a + b) v).symm))
  zero x := by
    simp only [so3Plus, dif_pos]
    have : hat3 (fun i => (0 : Vec ℝ 3) (i.cast rfl)) = 0 := by
      have := hat3_smul 0 (0 : Fin 3 → ℝ)
      rw [zero_smul, zero_smul] at this
      exact this
    rw [this, NormedSpace.exp_zero, Matrix.mul_one]
  other x d h := by rw [so3Plus, dif_neg h]

theorem halfIm_smul (a : ℝ) (w : Fin 3 → ℝ) : halfIm (a • w) = a • halfIm w := by
  refine QuaternionAlgebra.ext ?_ ?_ ?_ ?_
  · exact (mul_zero a).symm
  · exact mul_div_assoc a (w 0) 2
  · exact mul_div_assoc a (w 1) 2
  · exact mul_div_assoc a (w 2) 2

theorem quat_exp_smul_mul (q : Quaternion ℝ) (a b : ℝ) : exp (a • q) * exp (b • q) = exp ((a + b) • q) := by
  let +nondep : NormedAlgebra ℚ (Quaternion ℝ) := .restrictScalars ℚ ℝ (Quaternion ℝ)
  rw [add_smul, NormedSpace.exp_add_of_commute (((Commute.refl q).smul_left a).smul_right b)]

theorem oneParam_quat : OneParam quatPlus 3 where
  add x v a b := by
    simp only [quatPlus, dif_pos]
    rw [mul_assoc]
    congr 1
    exact (congrArg₂ (fun A B => exp A * exp B) (halfIm_smul a v) (halfIm_smul b v)).trans ((quat_exp_smul_mul _ a b).trans (congrArg exp (halfIm_smul (a + b) v).symm))
  zero x := by
    simp only [quatPlus, dif_pos]
    have : halfIm (fun i => (0 : Vec ℝ 3) (i.cast rfl)) = 0 := by
      have := halfIm_smul 0 (0 : Fin 3 → ℝ)
      rw [zero_smul, zero_smul] at this
      exact this
    rw [this, NormedSpace.exp_zero, mul_one]
  other x d h := by rw [quatPlus, dif_neg h]

variable {k : ℕ} {e : Fin 3 ⊕ (Fin 3 × Fin k) ≃ Fin (3 + 3 * k)}

theorem hatPose_smul (a : ℝ) (v : Fin (3 + 3 * k) → ℝ) : hatPose e (a • v) = a • hatPose e v := by
  rw [hatPose, hatPose, fromBlocks_smul, smul_zero, smul_zero, ← hat3_smul]
  rfl

theorem oneParam_pose : OneParam (posePlus e) (3 + 3 * k) where
  add x v a b := by
    simp only [posePlus, dif_pos]
    rw [Matrix.mul_assoc]
    congr 1
    exact (congrArg₂ (fun A B => exp A * exp B) (hatPose_smul a v) (hatPose_smul b v)).trans ((exp_smul_mul _ a b).trans (congrArg exp (hatPose_smul (a + b) v).symm))
  zero x := by
    simp only [posePlus, dif_pos]
    have : hatPose e (fun i => (0 : Vec ℝ (3 + 3 * k)) (i.cast rfl)) = 0 := by
      have := hatPose_smul (e := e) 0 (0 : Fin (3 + 3 * k) → ℝ)
      rw [zero_smul, zero_smul] at this
      exact this
    rw [this, NormedSpace.exp_zero, Matrix.mul_one]
  other x d h := by rw [posePlus, dif_neg h]

/-- the addition of vectors is of this kind too -/
theorem oneParam_vec (n : ℕ) : OneParam (fun (x : Vec ℝ n) (d : DVec ℝ) => if h : d.n = n then x + (fun i => d.v (i.cast h.symm)) else x) n where
  add x v a b := by
    simp only [dif_pos]
    rw [add_assoc, add_smul]
    rfl
  zero x := by simp only [dif_pos]; exact add_zero x
  other x d h := dif_neg h

/-! ### Rolled back steps -/

section
variable {R W S X : Type} {n : ℕ} {P : Problem ℝ R W X} {sol : SolverI ℝ R W S X (DVec ℝ) (DMat ℝ)} {fo : Bool} {o : Options ℝ W (DVec ℝ)}

/-- **C87**: taking a step back restores the parameters. -/
theorem C87_undo (h : OneParam P.plusEq n) (x : X) (d : DVec ℝ) : (envOf P sol fo).plusEq ((envOf P sol fo).plusEq x d) ((envOf P sol fo).negV d) = x := by
  show P.plusEq (P.plusEq x d) ⟨d.n, negVec d.v⟩ = x
  obtain ⟨m, v⟩ := d
  by_cases hm : m = n
  · subst hm
    have := h.add x v 1 (-1)
    rw [one_smul, add_neg_cancel, zero_smul, h.zero] at this
    rw [← this]
    congr 2
    funext i
    simp [negVec]
  · rw [h.other _ _ hm, h.other _ _ hm]

/-- **C87**: on rotations and poses (any solver, any options) the returned parameters are those of the best cost, or one step from there;
they are exactly those of the best cost when the run ended because a step failed. -/
theorem C87_returned_x (h : OneParam P.plusEq n) {fuel : Nat} {mi : Int} (hmi : budget o mi ≤ 65536) {w : W} {s : S} {x : X}
    {st : LoopSt ℝ R W S X (DVec ℝ) (DMat ℝ)} (hr : optimizeAcc (envOf P sol fo) o fuel mi w s x = .ok st) :
    AtBestOrOneStep (envOf P sol fo) x st.trace st.out.finalCost st.x ∧
    (st.out.stop.code < 0 ∨ st.out.stop = .kMaxNoDecr ∨ st.out.stop = .kMaxConsecNoDecr →
      AtBest (envOf P sol fo) x st.trace st.out.finalCost st.x) :=
  C05_returned_x_partial (C87_undo h) hmi hr

end

/-! ### Change of the world frame -/

section
variable {F R W S X X' V M : Type} [FloatOps F]

/-- the same user function, seen through `tx` -/
structure PulledEnv (tx : X' → X) (E : Env F R W S X V M) (E' : Env F R W S X' V M) : Prop where
  dimsDynamic : E.dimsDynamic = E'.dimsDynamic
  dynDims : ∀ y, E.dynDims (tx y) = E'.dynDims y
  plusEq : ∀ y d, E.plusEq (tx y) d = tx (E'.plusEq y d)
  negV : E.negV = E'.negV
  normSq : E.normSq = E'.normSq
  clock : E.clock = E'.clock
  ratio1 : E.ratio1 = E'.ratio1
  firstOrder : E.firstOrder = E'.firstOrder
  build : ∀ w s y, E.sol.build w s (tx y) = E'.sol.build w s y
  resize : E.sol.resize = E'.sol.resize
  solve : E.sol.solve = E'.sol.solve
  cost : E.sol.cost = E'.sol.cost
  gradSq : E.sol.gradSq = E'.sol.gradSq
  gradient : E.sol.gradient = E'.sol.gradient
  goodStep : E.sol.goodStep = E'.sol.goodStep
  badStep : E.sol.badStep = E'.sol.badStep
  failedStep : E.sol.failedStep = E'.sol.failedStep
  rebuild : E.sol.rebuild = E'.sol.rebuild
  hessian : E.sol.hessian = E'.sol.hessian

/-- the run with all its points moved -/
def LoopSt.move (tx : X' → X) (st : LoopSt F R W S X' V M) : LoopSt F R W S X V M :=
  { w := st.w, s := st.s, x := tx st.x, out := st.out, lastDx := st.lastDx, lastSucc := st.lastSucc,
    trace := st.trace.map fun r => { x := tx r.x, succ := r.succ, dx := r.dx, out := r.out, xNext := tx r.xNext } }

variable {tx : X' → X} {E : Env F R W S X V M} {E' : Env F R W S X' V M} {o : Options F W V}

theorem retry_pulled (h : PulledEnv tx E E') (y : X') : ∀ (n : Nat) (w : W) (s : S) (out : Output F R M),
    retry E o (tx y) n w s out = retry E' o y n w s out := by
  intro n
  induction n with
  | zero => intros; rfl
  | succ n ih =>
    intro w s out
    unfold retry
    simp only [h.build, h.solve, h.cost, h.failedStep, ih]

theorem step_pulled (h : PulledEnv tx E E') (fuel : Nat) (w : W) (s : S) (y : X') (out : Output F R M) :
    step E o fuel w s (tx y) out = step E' o fuel w s y out := by
  unfold step resizeIfNeeded afterSolve
  simp only [h.dimsDynamic, h.dynDims, h.resize, retry_pulled h, h.normSq, h.gradSq, h.goodStep, h.badStep, h.gradient]

theorem body_pulled (h : PulledEnv tx E E') (fuel : Nat) (last : Bool) (st : LoopSt F R W S X' V M) :
    body E o fuel last (st.move tx) = (body E' o fuel last st).map (LoopSt.move tx) := by
  unfold body
  simp only [LoopSt.move, step_pulled h]
  cases step E' o fuel st.w st.s st.x st.out with
  | ok p =>
    obtain ⟨⟨succ, mdx⟩, w1, s1, out1⟩ := p
    simp only [Res.bind_ok, h.rebuild, h.clock, h.negV, h.plusEq]
    cases succ with
    | true =>
      cases mdx with
      | none => rfl
      | some d => simp [Res.map, LoopSt.move]
    | false =>
      cases st.lastDx with
      | some d => simp [Res.map, LoopSt.move]
      | none =>
        cases mdx with
        | none => simp [Res.map, LoopSt.move]
        | some d => simp [Res.map, LoopSt.move]
  | ub => rfl
  | throw => rfl
  | fuel => rfl

theorem loop_pulled (h : PulledEnv tx E E') (fuel : Nat) : ∀ (n : Nat) (st : LoopSt F R W S X' V M),
    loop E o fuel n (st.move tx) = (loop E' o fuel n st).map (LoopSt.move tx) := by
  intro n
  induction n with
  | zero => intros; rfl
  | succ n ih =>
    intro st
    unfold loop
    rw [body_pulled h]
    cases body E' o fuel (n == 0) st with
    | ok st1 =>
      simp only [Res.map, Res.bind_ok]
      have e : (st1.move tx).out = st1.out := rfl
      rw [e]
      split
      · rfl
      · exact ih st1
    | ub => rfl
    | throw => rfl
    | fuel => rfl

theorem run_pulled (h : PulledEnv tx E E') (fuel : Nat) (mi : Int) (w : W) (s : S) (y : X') :
    optimizeAcc E o fuel mi w s (tx y) = (optimizeAcc E' o fuel mi w s y).map (LoopSt.move tx) := by
  unfold optimizeAcc
  cases loopBound o mi with
  | none => rfl
  | some m =>
    simp only
    have e : initSt E w s (tx y) = (initSt E' w s y).move tx := by simp only [initSt, LoopSt.move, h.ratio1]; rfl
    rw [e, loop_pulled h]
    cases loop E' o fuel m.toNat (initSt E' w s y) with
    | ok st => simp only [Res.map, Res.bind_ok, h.firstOrder, h.hessian]; rfl
    | ub => rfl
    | throw => rfl
    | fuel => rfl

end

section
variable {F R W X X' : Type} [FloatOps F]

/-- `P'` is the problem `P` in other coordinates of the parameters: its user function computes the place `tx y` and calls that of `P`. -/
structure Pulled (tx : X' → X) (P : Problem F R W X) (P' : Problem F R W X') : Prop where
  dims : P.dims = P'.dims
  dyn : ∀ y, P.dynDims (tx y) = P'.dynDims y
  plus : ∀ y d, P.plusEq (tx y) d = tx (P'.plusEq y d)
  full : ∀ w y, P.acc.full w (tx y) = P'.acc.full w y
  eval : ∀ w y, P.acc.eval w (tx y) = P'.acc.eval w y
  clock : P.clock = P'.clock
  alloc : P.alloc = P'.alloc
  ratio1 : P.ratio1 = P'.ratio1

variable {tx : X' → X} {P : Problem F R W X} {P' : Problem F R W X'} {so : SolverOpts F} {L : LinAlg F} {o : Options F W (DVec F)}

theorem gnResize_pulled (h : Pulled tx P P') : (gnResize P : W → GNState F R → Int → _) = gnResize P' := by
  funext w s d
  unfold gnResize
  rw [h.dims, h.alloc]

theorem gnAccumulate_pulled (h : Pulled tx P P') (w : W) (s : GNState F R) (y : X') : gnAccumulate so P w s (tx y) = gnAccumulate so P' w s y := by
  unfold gnAccumulate
  rw [h.full]

theorem buildSystem_pulled (h : Pulled tx P P') (w : W) (s : GNState F R) (y : X') : buildSystem so P w s (tx y) = buildSystem so P' w s y := by
  unfold buildSystem
  rw [gnAccumulate_pulled h]

/-- **C87, frames**: moving all the parameters by `tx` (in any arithmetic) moves the Gauss-Newton run, and changes nothing else. -/
theorem C87_frame_gn (h : Pulled tx P P') (fuel : Nat) (mi : Int) (w : W) (s : GNState F R) (y : X') :
    optimizeAcc (gnEnv so L P) o fuel mi w s (tx y) = (optimizeAcc (gnEnv so L P') o fuel mi w s y).map (LoopSt.move tx) :=
  have hp : PulledEnv tx (gnEnv so L P) (gnEnv so L P') := {
    dimsDynamic := by simp only [gnEnv, envOf, h.dims]
    dynDims := h.dyn
    plusEq := h.plus
    negV := rfl
    normSq := rfl
    clock := h.clock
    ratio1 := h.ratio1
    firstOrder := rfl
    build := fun w s y => buildSystem_pulled h w s y
    resize := gnResize_pulled h
    solve := by simp only [gnEnv, envOf, gnSolver, h.dims]
    cost := rfl
    gradSq := rfl
    gradient := rfl
    goodStep := rfl
    badStep := rfl
    failedStep := rfl
    rebuild := rfl
    hessian := rfl }
  run_pulled hp fuel mi w s y

/-- **C87, frames**, Levenberg-Marquardt. -/
theorem C87_frame_lm (h : Pulled tx P P') (fuel : Nat) (mi : Int) (w : W) (s : LMState F R) (y : X') :
    optimizeAcc (lmEnv so L P) o fuel mi w s (tx y) = (optimizeAcc (lmEnv so L P') o fuel mi w s y).map (LoopSt.move tx) :=
  have hp : PulledEnv tx (lmEnv so L P) (lmEnv so L P') := {
    dimsDynamic := by simp only [lmEnv, envOf, h.dims]
    dynDims := h.dyn
    plusEq := h.plus
    negV := rfl
    normSq := rfl
    clock := h.clock
    ratio1 := h.ratio1
    firstOrder := rfl
    build := fun w s y => by
      show lmBuild so P w s (tx y) = lmBuild so P' w s y
      unfold lmBuild lmEvaluate
      rw [buildSystem_pulled h, h.eval]
    resize := by
      simp only [lmEnv, envOf, lmSolver, gnResize_pulled h]
    solve := by simp only [lmEnv, envOf, lmSolver, h.dims]
    cost := rfl
    gradSq := rfl
    gradient := rfl
    goodStep := rfl
    badStep := rfl
    failedStep := rfl
    rebuild := rfl
    hessian := rfl }
  run_pulled hp fuel mi w s y

/-- **C87, frames**, gradient descent. -/
theorem C87_frame_gd (h : Pulled tx P P') (fuel : Nat) (mi : Int) (w : W) (s : GNState F R) (y : X') :
    optimizeAcc (gdEnv so P) o fuel mi w s (tx y) = (optimizeAcc (gdEnv so P') o fuel mi w s y).map (LoopSt.move tx) :=
  have hp : PulledEnv tx (gdEnv so P) (gdEnv so P') := {
    dimsDynamic := by simp only [gdEnv, envOf, h.dims]
    dynDims := h.dyn
    plusEq := h.plus
    negV := rfl
    normSq := rfl
    clock := h.clock
    ratio1 := h.ratio1
    firstOrder := rfl
    build := fun w s y => by
      show gdBuild so P w s (tx y) = gdBuild so P' w s y
      unfold gdBuild
      rw [gnAccumulate_pulled h]
    resize := gnResize_pulled h
    solve := rfl
    cost := rfl
    gradSq := rfl
    gradient := rfl
    goodStep := rfl
    badStep := rfl
    failedStep := rfl
    rebuild := rfl
    hessian := rfl }
  run_pulled hp fuel mi w s y

end

/-- a change of the world frame is of this kind: the updates of the traits multiply on the right -/
theorem C87_frame_commutes :
    (∀ g x d, so3Plus (g * x) d = g * so3Plus x d) ∧ (∀ g x d, quatPlus (g * x) d = g * quatPlus x d) ∧
    ∀ {k : ℕ} (e : Fin 3 ⊕ (Fin 3 × Fin k) ≃ Fin (3 + 3 * k)) g x d, posePlus e (g * x) d = g * posePlus e x d := by
  refine ⟨fun g x d => ?_, fun g x d => ?_, fun e g x d => ?_⟩
  · unfold so3Plus; split
    · rw [Matrix.mul_assoc]
    · rfl
  · unfold quatPlus; split
    · rw [mul_assoc]
    · rfl
  · unfold posePlus; split
    · rw [Matrix.mul_assoc]
    · rfl

/-! ### Examples -/

/-- a least squares problem with residuals `r` and Jacobian `J` on parameters of the type `X` with `n` degrees of freedom -/
noncomputable def nlsOnProb {X : Type} {m n : Nat} (plus : X → DVec ℝ → X) (r : X → Vec ℝ m) (J : X → Fin m → Fin n → ℝ) : Problem ℝ ℝ Unit X where
  acc :=
    { full := fun w x _ g H => (({ cost := dotR (r x) (r x), num := m, inlier := 1 },
        fun i => if h : i.1 < n then g i + tmv (J x) (r x) ⟨i.1, h⟩ else g i,
        fun i j => if h : i.1 < n ∧ j.1 < n then H i j + gram (J x) ⟨i.1, h.1⟩ ⟨j.1, h.2⟩ else H i j), w)
      eval := fun w x => ({ cost := dotR (r x) (r x), num := m, inlier := 1 }, w) }
  dims := some n
  dynDims := fun _ => n
  plusEq := plus
  clock := fun w => (1, w)
  alloc := fun w _ => (some (fun _ => 7, fun _ _ => 7), w)
  ratio1 := 1

/-- Gauss-Newton runs on such problems always end -/
theorem nlsOnProb_ends {X : Type} {m n : Nat} (plus : X → DVec ℝ → X) (r : X → Vec ℝ m) (J : X → Fin m → Fin n → ℝ) (L : LinAlg ℝ) (so : SolverOpts ℝ)
    (s : GNState ℝ ℝ) (x : X) : ∃ st, optimizeAcc (gnEnv so L (nlsOnProb plus r J)) { optsR 10 with maxConsecFailures := 3 } 3 (-1) () s x = .ok st := by
  obtain ⟨st, h, -⟩ := C01_bounded_work (E := gnEnv so L (nlsOnProb plus r J)) (o := { optsR 10 with maxConsecFailures := 3 }) (cnt := fun _ => 0)
    ⟨fun s q => ⟨_, rfl⟩, fun s => ⟨_, rfl⟩, fun s => ⟨_, rfl⟩⟩
    ⟨fun _ _ _ => Nat.zero_le _, fun _ _ _ => rfl, fun _ => rfl, fun _ h => (nomatch h), fun _ h => (nomatch h)⟩
    (by decide) (by decide) (mi := -1) (by decide) (fuel := 3) (by decide) () s x
  exact ⟨st, h⟩

/-- the vector of the skew-symmetric part of a matrix, which is zero for the identity -/
noncomputable def skewVec (x : Matrix (Fin 3) (Fin 3) ℝ) : Vec ℝ 3 := ![(x 2 1 - x 1 2) / 2, (x 0 2 - x 2 0) / 2, (x 1 0 - x 0 1) / 2]

/-- A run from the rotation by one radian about the third axis ends at a rotation. -/
example (L : LinAlg ℝ) (s : GNState ℝ ℝ) : ∃ st, optimizeAcc (gnEnv soptsR L (nlsOnProb so3Plus skewVec fun _ i j => if i = j then 1 else 0))
    { optsR 10 with maxConsecFailures := 3 } 3 (-1) () s (exp (hat3 ![0, 0, 1])) = .ok st ∧ IsRotation st.x := by
  obtain ⟨st, h⟩ := nlsOnProb_ends so3Plus skewVec (fun _ i j => if i = j then 1 else 0) L soptsR s (exp (hat3 ![0, 0, 1]))
  exact ⟨st, h, (C87_rotations_stay rfl (exp_hat3 _) h).1⟩

/-- The same with quaternions. -/
example (L : LinAlg ℝ) (s : GNState ℝ ℝ) : ∃ st, optimizeAcc (gnEnv soptsR L (nlsOnProb quatPlus (fun q => ![q.imI, q.imJ, q.imK]) fun _ i j => if i = j then 1 else 0))
    { optsR 10 with maxConsecFailures := 3 } 3 (-1) () s (exp (halfIm ![0, 0, 1])) = .ok st ∧ ‖st.x‖ = 1 := by
  obtain ⟨st, h⟩ := nlsOnProb_ends quatPlus (fun q => ![q.imI, q.imJ, q.imK]) (fun _ i j => if i = j then 1 else 0) L soptsR s (exp (halfIm ![0, 0, 1]))
  exact ⟨st, h, (C87_quaternions_stay rfl (norm_exp_halfIm _) h).1⟩

/-- The same with poses, in the order of lie++ (rotation first), starting at the identity with translation (5, 6, 7). -/
example (L : LinAlg ℝ) (s : GNState ℝ ℝ) : ∃ st, optimizeAcc (gnEnv soptsR L (nlsOnProb (n := 6)
      (posePlus (k := 1) ((Equiv.sumCongr (Equiv.refl _) finProdFinEquiv).trans finSumFinEquiv)) (fun x => ![x (.inl 0) (.inr 0) - 1, x (.inl 1) (.inl 0)])
        fun _ i j => if i.1 = j.1 then 1 else 0))
    { optsR 10 with maxConsecFailures := 3 } 3 (-1) () s (fromBlocks 1 !![5; 6; 7] 0 1) = .ok st ∧ IsPose st.x := by
  obtain ⟨st, h⟩ := nlsOnProb_ends (n := 6) (posePlus (k := 1) ((Equiv.sumCongr (Equiv.refl _) finProdFinEquiv).trans finSumFinEquiv))
    (fun x => ![x (.inl 0) (.inr 0) - 1, x (.inl 1) (.inl 0)]) (fun _ i j => if i.1 = j.1 then 1 else 0) L soptsR s (fromBlocks 1 !![5; 6; 7] 0 1)
  exact ⟨st, h, (C87_poses_stay rfl ⟨1, _, rfl, by rw [IsRotation]; simp⟩ h).1⟩

/-- the parameters of the examples meet `OneParam`, the limit of the number of iterations is met too -/
example : OneParam (nlsOnProb so3Plus skewVec fun _ i j => if i = j then 1 else 0).plusEq 3 ∧ OneParam (nlsOnProb quatPlus (n := 3) (fun q => ![q.imI]) fun _ _ _ => 1).plusEq 3 ∧
    budget { optsR 10 with maxConsecFailures := 3 } (-1) ≤ 65536 :=
  ⟨oneParam_so3, oneParam_quat, by decide⟩

/-- A change of the world frame: the residuals of the second problem are those of the first after rotation by `g`. -/
example (g : Matrix (Fin 3) (Fin 3) ℝ) (r : Matrix (Fin 3) (Fin 3) ℝ → Vec ℝ 3) (J : Matrix (Fin 3) (Fin 3) ℝ → Fin 3 → Fin 3 → ℝ) :
    Pulled (fun y => g * y) (nlsOnProb so3Plus r J) (nlsOnProb so3Plus (fun y => r (g * y)) fun y => J (g * y)) :=
  ⟨rfl, fun _ => rfl, fun y d => C87_frame_commutes.1 g y d, fun _ _ => rfl, fun _ _ => rfl, rfl, rfl, rfl⟩

end Verif
