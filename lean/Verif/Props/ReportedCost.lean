import Verif.Props.Failures
import Verif.Props.CostScaling
import Verif.Lemmas.RunInv
/-!
# C66: the recorded errors are the user's costs, scaled as the options say; C10: sizes
-/

set_option linter.unusedSectionVars false

namespace Verif
open FloatOps

section
variable {F R W S X V M : Type} [FloatOps F]
variable {E : Env F R W S X V M} {o : Options F W V}
variable {Px : X → Prop} {I Z : S → Prop} {B N A : X → S → Prop}

/-- the `i`-th entry of `errs` is the cost of a state built in the `i`-th iteration -/
def ErrsFrom (E : Env F R W S X V M) (B : X → S → Prop) (st : LoopSt F R W S X V M) : Prop :=
  ∀ (i : Nat) (e : F), st.out.errs[i]? = some e → ∃ r t, st.trace[i]? = some r ∧ B r.x t ∧ e = (E.sol.cost t).cost

/-- Each entry of `errs` belongs to the iteration with the same number. -/
theorem run_errs (h : RunInv E Px I Z B N A) {fuel : Nat} {mi : Int} {w : W} {s : S} {x : X}
    {st : LoopSt F R W S X V M} (hx : Px x) (hI : I s) (hh : optimizeAcc E o fuel mi w s x = .ok st) :
    ErrsFrom E B st := by
  obtain ⟨m, st0, -, hj, -, -, hst⟩ := run_inv
    (I := fun st => Px st.x ∧ I st.s ∧ st.out.errs.length = st.trace.length ∧ ErrsFrom E B st)
    (J := fun st => ErrsFrom E B st)
    (fun last st st' _ h1 hb => by
      obtain ⟨succ, mdx, w1, s1, out1, ms, hstep, hs⟩ := body_spec' hb
      have h2 := step_runinv h.toStepInv h1.1 h1.2.1 hstep
      obtain ⟨b, hb⟩ := hs.solver
      have hold : ∀ (i : Nat) (e : F), st.out.errs[i]? = some e →
          ∃ r t, st'.trace[i]? = some r ∧ B r.x t ∧ e = (E.sol.cost t).cost := by
        intro i e he
        obtain ⟨r, t, h3, h4⟩ := h1.2.2.2 i e he
        refine ⟨r, t, ?_, h4⟩
        rw [hs.trace, List.getElem?_append_left (List.getElem?_eq_some_iff.mp h3).1]; exact h3
      have herr : st'.out.errs = out1.errs := by rw [hs.out]
      have hj : ErrsFrom E B st' := by
        intro i e he
        rw [herr] at he
        rcases h2 with ⟨-, -, h2⟩ | ⟨t, dx', hB, -, -, h2, -⟩
        · rw [h2] at he; exact hold i e he
        · rw [h2] at he
          by_cases hi : i < st.out.errs.length
          · rw [List.getElem?_append_left hi] at he; exact hold i e he
          · have hi' : i = st.out.errs.length := by
              have := (List.getElem?_eq_some_iff.mp he).1
              simp at this; omega
            subst hi'
            rw [List.getElem?_concat_length] at he
            refine ⟨⟨st.x, succ, mdx, out1, st'.x⟩, t, ?_, hB, (Option.some.inj he).symm⟩
            rw [hs.trace, h1.2.2.1, List.getElem?_concat_length]
      refine ⟨fun hn => ⟨?_, ?_, ?_, hj⟩, hj⟩
      · have := hs.upd
        revert this
        generalize st'.x = x1
        generalize st'.lastDx = l1
        generalize st'.lastSucc = b1
        intro this
        cases this with
        | succ dx => exact h.plus _ _ h1.1
        | roll d _ _ => exact h.plus _ _ h1.1
        | adv dx _ => exact h.plus _ _ h1.1
        | stay _ => exact h1.1
      · have hn1 : out1.stop = .kNone := by
          rw [hs.out] at hn
          simp only [timeStop] at hn
          split at hn
          · cases hn
          · exact hn
        rw [hb]
        rcases h2 with ⟨-, h2, -⟩ | ⟨t, dx', hB, hsol, hp, -, -, -, hA⟩
        · rw [hn1] at h2; exact absurd h2 (by decide)
        · split at hA
          · exact h.rebuildA _ _ _ hA
          · subst hA; exact h.rebuildB _ _ _ hB
      · have hn1 : out1.stop = .kNone := by
          rw [hs.out] at hn
          simp only [timeStop] at hn
          split at hn
          · cases hn
          · exact hn
        rw [herr, hs.trace]
        rcases h2 with ⟨-, h2, -⟩ | ⟨t, dx', -, -, -, h2, -⟩
        · rw [hn1] at h2; exact absurd h2 (by decide)
        · rw [h2, List.length_append, List.length_append, h1.2.2.1]; rfl)
    (show _ from ⟨hx, hI, rfl, by intro i e he; simp [initSt, Output.init] at he⟩)
    (by intro i e he; simp [initSt, Output.init] at he) hh
  rw [hst]; exact hj

end

section
variable {F R W X : Type} [FloatOps F]

/-- the user's function returned the cost `c` at `x`, in a call with or (only with LM) without derivatives -/
def UserCost (P : Problem F R W X) (x : X) (c : Cost F R) : Prop :=
  (∃ w n g H w', P.acc.full w x n (fun _ => ofInt 0) (fun _ _ => ofInt 0) = ((c, g, H), w')) ∨
    ∃ w w', P.acc.eval w x = (c, w')

/-- What the options ask to report for the cost `c` of `num` residuals: the square root unless `use_squared_norm`, halved
if `downscale_by_2`, divided by the number of residuals (if any) if `normalize`. -/
inductive Reports (so : SolverOpts F) (c : F) (num : Int) : F → Prop
  | mk (a b v) (ha : so.useSquaredNorm = true ∧ a = c ∨ so.useSquaredNorm = false ∧ a = sqrt c)
      (hb : so.downscaleBy2 = true ∧ b = mul a half ∨ so.downscaleBy2 = false ∧ b = a)
      (hv : so.normalize = true ∧ 0 < num ∧ v = div b (ofInt num) ∨ (so.normalize = false ∨ num ≤ 0) ∧ v = b) :
      Reports so c num v

theorem reports_normalize (so : SolverOpts F) (c : Cost F R) : Reports so c.cost c.num (normalizeCost so c).cost := by
  refine ⟨if so.useSquaredNorm then c.cost else sqrt c.cost, if so.downscaleBy2 then
    mul (if so.useSquaredNorm then c.cost else sqrt c.cost) half else (if so.useSquaredNorm then c.cost else sqrt c.cost), _, ?_, ?_, ?_⟩
  · cases so.useSquaredNorm <;> simp
  · cases so.downscaleBy2 <;> simp
  · unfold normalizeCost
    by_cases hn : 0 < c.num
    · cases so.normalize <;> simp [hn]
    · refine Or.inr ⟨Or.inr (by omega), ?_⟩
      simp [hn]

/-- the recorded errors are the scaled costs of the user's function at the points of the iterations -/
def Reported {S V M : Type} (so : SolverOpts F) (P : Problem F R W X) (st : LoopSt F R W S X V M) : Prop :=
  ∀ (i : Nat) (e : F), st.out.errs[i]? = some e →
    ∃ r c, st.trace[i]? = some r ∧ UserCost P r.x c ∧ Reports so c.cost c.num e

variable {so : SolverOpts F} {L : LinAlg F} {P : Problem F R W X}

private theorem reported_of {S : Type} {sol : SolverI F R W S X (DVec F) (DMat F)} {b : Bool}
    {st : LoopSt F R W S X (DVec F) (DMat F)}
    (h : ErrsFrom (envOf P sol b) (fun x t => ∃ c, UserCost P x c ∧ sol.cost t = normalizeCost so c) st) :
    Reported so P st := by
  intro i e he
  obtain ⟨r, t, hr, ⟨c, hc, hn⟩, rfl⟩ := h i e he
  refine ⟨r, c, hr, hc, ?_⟩
  rw [show (envOf P sol b).sol.cost t = sol.cost t from rfl, hn]
  exact reports_normalize so c

private theorem system_cost {n : Nat} {c : Cost F R} {g : Vec F n} {H : Mat F n} {b : Bool} {s : GNState F R}
    (h : SystemSpec so c g H (b, s)) : s.cost = normalizeCost so c := by
  cases h <;> rfl

/-- **C66**, Gauss-Newton. -/
theorem C66_gn {o : Options F W (DVec F)} {fuel : Nat} {mi : Int} {w : W} {s : GNState F R} {x : X}
    {st : LoopSt F R W (GNState F R) X (DVec F) (DMat F)}
    (h : optimizeAcc (gnEnv so L P) o fuel mi w s x = .ok st) : Reported so P st := by
  have hinv : RunInv (gnEnv so L P) (fun _ => True) (fun _ => True) (fun _ => True)
      (fun x t => ∃ c, UserCost P x c ∧ t.cost = normalizeCost so c) (fun _ _ => True) (fun _ _ => True) :=
    { plus := fun _ _ _ => trivial
      resize := fun _ _ _ _ _ _ _ _ _ => trivial
      build := by
        intro w s x b s' w' _ _ hb
        obtain ⟨c, g, H, hf, hs⟩ := buildSystem_spec hb
        cases b
        · exact trivial
        · exact ⟨c, Or.inl ⟨w, s.n, g, H, w', hf⟩, system_cost hs⟩
      good := fun _ _ _ _ _ _ _ => trivial
      bad := fun _ _ _ _ _ => trivial
      failedB := fun _ _ _ _ _ => trivial
      failedN := fun _ _ _ _ _ => trivial
      rebuildB := fun _ _ _ _ => trivial
      rebuildA := fun _ _ _ _ => trivial }
  exact reported_of (run_errs hinv trivial trivial h)

/-- **C66**, Gradient Descent. -/
theorem C66_gd {o : Options F W (DVec F)} {fuel : Nat} {mi : Int} {w : W} {s : GNState F R} {x : X}
    {st : LoopSt F R W (GNState F R) X (DVec F) (DMat F)}
    (h : optimizeAcc (gdEnv so P) o fuel mi w s x = .ok st) : Reported so P st := by
  have hinv : RunInv (gdEnv so P) (fun _ => True) (fun _ => True) (fun _ => True)
      (fun x t => ∃ c, UserCost P x c ∧ t.cost = normalizeCost so c) (fun _ _ => True) (fun _ _ => True) :=
    { plus := fun _ _ _ => trivial
      resize := fun _ _ _ _ _ _ _ _ _ => trivial
      build := by
        intro w s x b s' w' _ _ hb
        obtain ⟨c, g, H, hf, -, rfl⟩ := gdBuild_spec hb
        cases b
        · exact trivial
        · exact ⟨c, Or.inl ⟨w, s.n, g, H, w', hf⟩, rfl⟩
      good := fun _ _ _ _ _ _ _ => trivial
      bad := fun _ _ _ _ _ => trivial
      failedB := fun _ _ _ _ _ => trivial
      failedN := fun _ _ _ _ _ => trivial
      rebuildB := fun _ _ _ _ => trivial
      rebuildA := fun _ _ _ _ => trivial }
  exact reported_of (run_errs hinv trivial trivial h)

/-- **C66**, Levenberg-Marquardt. -/
theorem C66_lm {o : Options F W (DVec F)} {fuel : Nat} {mi : Int} {w : W} {s : LMState F R} {x : X}
    {st : LoopSt F R W (LMState F R) X (DVec F) (DMat F)}
    (h : optimizeAcc (lmEnv so L P) o fuel mi w s x = .ok st) : Reported so P st := by
  have hinv : RunInv (lmEnv so L P) (fun _ => True) (fun _ => True) (fun _ => True)
      (fun x t => ∃ c, UserCost P x c ∧ t.gn.cost = normalizeCost so c) (fun _ _ => True) (fun _ _ => True) :=
    { plus := fun _ _ _ => trivial
      resize := fun _ _ _ _ _ _ _ _ _ => trivial
      build := by
        intro w s x b s' w' _ _ hb
        have := lmBuild_spec hb
        generalize hp : (b, s', w') = p at this
        cases this with
        | rebuilt g1 w1 hr hb1 =>
          obtain ⟨rfl, rfl, rfl⟩ := hp
          obtain ⟨c, g, H, hf, hs⟩ := buildSystem_spec hb1
          obtain ⟨H', e⟩ := lmDamp_spec { s with gn := g1 }
          refine ⟨c, Or.inl ⟨w, s.gn.n, g, H, _, hf⟩, ?_⟩
          rw [e]; have := system_cost hs; exact this
        | rebuildFail g1 w1 hr hb1 => obtain ⟨rfl, -, -⟩ := hp; exact trivial
        | evald c w1 hr he hv =>
          obtain ⟨rfl, rfl, rfl⟩ := hp
          obtain ⟨H', e⟩ := lmDamp_spec { s with gn := { s.gn with cost := normalizeCost so c } }
          refine ⟨c, Or.inr ⟨w, _, he⟩, ?_⟩
          rw [e]
        | evalFail c w1 hr he hv => obtain ⟨rfl, -, -⟩ := hp; exact trivial
      good := fun _ _ _ _ _ _ _ => trivial
      bad := fun _ _ _ _ _ => trivial
      failedB := fun _ _ _ _ _ => trivial
      failedN := fun _ _ _ _ _ => trivial
      rebuildB := fun _ _ _ _ => trivial
      rebuildA := fun _ _ _ _ => trivial }
  exact reported_of (run_errs hinv trivial trivial h)

/-! ### C10: sizes the solver cannot have -/

/-- **C10 (1c).** With parameters of compile-time size `d` whose `dims()` is not `d`, each of the three solvers stops with
`kSkipped`, without calling the user's function. -/
theorem C10_wrong_size {o : Options F W (DVec F)} {fuel : Nat} {mi : Int} (hmi : budget o mi < intMax)
    (hnt : lt (ofInt 0) o.maxDurationMs = false) {x : X} {d : Nat} (hd : P.dims = some d) (hx : P.dynDims x ≠ d) (w : W)
    (s : GNState F R) (t : LMState F R) :
    (∃ st, optimizeAcc (gnEnv so L P) o fuel mi w s x = .ok st ∧ FailedAtOnce (gnEnv so L P) x w .kSkipped st) ∧
    (∃ st, optimizeAcc (lmEnv so L P) o fuel mi w t x = .ok st ∧ FailedAtOnce (lmEnv so L P) x w .kSkipped st) ∧
    (∃ st, optimizeAcc (gdEnv so P) o fuel mi w s x = .ok st ∧ FailedAtOnce (gdEnv so P) x w .kSkipped st) := by
  have hr : ∀ s : GNState F R, gnResize P w s (P.dynDims x) = (.invalidArg, w) := by
    intro s; unfold gnResize; rw [hd]; simp only; rw [if_neg hx]
  refine ⟨C10_invalid_size hmi hnt (hr s) rfl, C10_invalid_size hmi hnt (w1 := w) ?_ rfl, C10_invalid_size hmi hnt (hr s) rfl⟩
  show (match gnResize P w t.gn (P.dynDims x) with
    | (.done g, w') => ((ResizeOut.done { t with gn := g }, w') : ResizeOut (LMState F R) × W)
    | (.badAlloc, w') => (.badAlloc, w')
    | (.invalidArg, w') => (.invalidArg, w')) = _
  rw [hr]

end

/-! ### Examples -/

/-- the cost `(x - 3)²` of 4 residuals, with twice the Hessian: each step halves the distance to 3 -/
def half3 (dims : Option Nat) : Problem D D Nat D :=
  prob1 (fun x => (mul (sub x (ofInt 3)) (sub x (ofInt 3)), mul (ofInt 2) (sub x (ofInt 3)), ofInt 4)) (fun _ => 4) dims

/-- all three options set: the costs 16, 4, 1 are recorded as `√cost / 2 / 4`, as `C66_gn` says -/
example :
    let so := { sopts1 with useSquaredNorm := false, downscaleBy2 := true, normalize := true }
    (optimizeAcc (gnEnv so lin1 (half3 (some 1))) (opts1 2) 10 (-1) 0 (gnFresh (half3 (some 1)) (fun _ => ofInt 0) (fun _ _ => ofInt 0)) (ofInt 7)).holds
      (fun st => decide (st.out.errs = [div (ofInt 1) (ofInt 2), div (ofInt 1) (ofInt 4), div (ofInt 1) (ofInt 8)])) = true := by
  decide +kernel

/-- the same with LM and Gradient Descent -/
example :
    let so := { sopts1 with useSquaredNorm := false, downscaleBy2 := true, normalize := true }
    (optimizeAcc (lmEnv so lin1 (half3 none)) (opts1 2) 10 (-1) 0
      (lmFresh so (half3 none) (fun _ => ofInt 0) (fun _ _ => ofInt 0)) (ofInt 7)).holds
        (fun st => decide (st.out.errs.length = 3 ∧ st.out.errs.head? = some half)) = true ∧
    (optimizeAcc (gdEnv { so with lr := half } (half3 none)) (opts1 2) 10 (-1) 0 (gnFresh (half3 none) (fun _ => ofInt 0) (fun _ _ => ofInt 0)) (ofInt 7)).holds
      (fun st => decide (st.out.errs = [half, ofInt 0, ofInt 0])) = true := by
  decide +kernel

/-- hypotheses of `C10_wrong_size`: a parameter of size 1 given to a solver of size 2 -/
example : (half3 (some 2)).dynDims (ofInt 7) ≠ (2 : Nat) ∧ budget (opts1 2) (-1) < intMax ∧
    lt (ofInt 0) (opts1 2).maxDurationMs = false := by decide +kernel

end Verif
