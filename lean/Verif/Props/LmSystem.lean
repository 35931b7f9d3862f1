import Verif.Props.System
import Verif.Props.Damping
import Verif.Lemmas.Benign
/-!
# C22, C23, C50: which linear system a Levenberg-Marquardt step solves
-/

set_option linter.unusedSectionVars false

namespace Verif
open FloatOps

section
variable {F R W X : Type} [FloatOps F]
variable {so : SolverOpts F} {L : LinAlg F} {P : Problem F R W X} {o : Options F W (DVec F)}

/-- the Hessian given to the linear solver when there is no damping: without `use_ldlt` and with only the
upper part given by the user, the lower part is the mirror image of the upper one -/
def fillLower (so : SolverOpts F) {n : Nat} (H : Mat F n) : Mat F n := fun i j =>
  if so.hIsFull = false ∧ so.useLdlt = false ∧ j < i then H j i else H i j

theorem fillLower_eq (so : SolverOpts F) {n : Nat} (H : Mat F n) :
    (if !so.hIsFull && !so.useLdlt then symUpper H else H) = fillLower so H := by
  funext i j
  unfold fillLower
  cases so.hIsFull <;> cases so.useLdlt <;> simp [symUpper]
  by_cases h : i ≤ j
  · rw [if_pos h, if_neg (not_lt.mpr h)]
  · rw [if_neg h, if_pos (not_le.mp h)]

/-- `gn` holds the gradient and Hessian that the user's function returns at `x` (clipped, lower part
filled as the options ask), with any cost. -/
def UserSystem (so : SolverOpts F) (P : Problem F R W X) (x : X) (gn : GNState F R) : Prop :=
  ∃ w0 w1 n c g H c', P.acc.full w0 x n (fun _ => ofInt 0) (fun _ _ => ofInt 0) = ((c, g, H), w1) ∧
    gn = ⟨n, clampVec so.gradClip g, fillLower so H, c'⟩

/-- the damped Hessian `H + lambda * diag(H)` -/
def dampH (l : F) {n : Nat} (H : Mat F n) : Mat F n := fun i j =>
  if lt (ofInt 0) l = true ∧ i = j then mul (H i j) (add (ofInt 1) l) else H i j

theorem dampH_def (l : F) {n : Nat} (H : Mat F n) :
    dampH l H = if lt (ofInt 0) l then scaleDiag (add (ofInt 1) l) H else H := by
  funext i j
  unfold dampH
  cases lt (ofInt 0) l <;> simp [scaleDiag]

theorem buildSystem_user {w : W} {s : GNState F R} {x : X} {g1 w1} (h : buildSystem so P w s x = (true, g1, w1)) :
    UserSystem so P x g1 := by
  obtain ⟨c, g, H, e, hs⟩ := buildSystem_spec h
  cases hs
  exact ⟨w, w1, s.n, c, g, H, _, e, by rw [fillLower_eq]⟩

/-- one iteration that starts with the rebuild flag set -/
theorem lm_fresh_inv {Q : LMState F R → Prop} (hQ : SolInv (lmEnv so L P) Q) :
    StepInv (lmEnv so L P) (fun _ => True) (fun s => s.rebuild = true ∧ Q s) (fun s => s.rebuild = true ∧ Q s)
      (fun x t => (t.rebuild = true ∧ Q t) ∧ ∃ gn, UserSystem so P x gn ∧
        t.gn = { gn with H := dampH t.lambda gn.H })
      (fun _ s => s.rebuild = true ∧ Q s) (fun _ s => s.rebuild = true ∧ Q s) where
  resize w s x s' w' _ _ hI h := by
    have := hQ.resize _ _ _ _ _ hI.2 h
    obtain ⟨g, -, rfl⟩ := lmResize_spec h
    exact ⟨hI.1, this⟩
  build w s x b s' w' _ hI h := by
    have hq := hQ.build _ _ _ _ _ _ hI.2 h
    have hd := lmBuild_damping h
    have hsp := lmBuild_spec h
    generalize hp : (b, s', w') = p at hsp
    cases hsp with
    | rebuilt g1 w1 hr hb =>
      obtain ⟨rfl, rfl, -⟩ := hp
      refine ⟨⟨hd.2.2.2.trans hI.1, hq⟩, g1, buildSystem_user hb, ?_⟩
      rw [hd.1, dampH_def]
      unfold lmDamp
      simp only
      split
      · simp only [hr, if_true]
      · rfl
    | rebuildFail g1 w1 hr hb => obtain ⟨rfl, rfl, -⟩ := hp; exact ⟨hr, hq⟩
    | evald c w1 hr he hv => rw [hI.1] at hr; cases hr
    | evalFail c w1 hr he hv => rw [hI.1] at hr; cases hr
  good x s q s' h hq e := by
    have := hQ.good _ _ _ h.1.2 hq e
    obtain ⟨l, -, rfl⟩ := lmGood_spec e; exact ⟨h.1.1, this⟩
  bad x s s' h e := by
    have := hQ.bad _ _ h.1.2 e
    obtain ⟨l, -, rfl⟩ := lmBad_spec e; exact ⟨h.1.1, this⟩
  failedB x s s' h e := by
    have := hQ.failed _ _ h.1.2 e
    obtain ⟨l, -, rfl⟩ := lmBad_spec e; exact ⟨h.1.1, this⟩
  failedN x s s' h e := by
    have := hQ.failed _ _ h.2 e
    obtain ⟨l, -, rfl⟩ := lmBad_spec e; exact ⟨h.1, this⟩

/-- Iteration `i` rebuilds the system: it is one of the first two, or one of the two iterations before it
was accepted. -/
def Rebuilt {F R X V M : Type} (tr : List (Rec F R X V M)) (i : Nat) : Prop :=
  i ≤ 1 ∨ ∃ j q, j < i ∧ i ≤ j + 2 ∧ tr[j]? = some q ∧ q.succ = true

/-- What holds for every iteration that starts with the rebuild flag set holds for the iterations `Rebuilt`. -/
theorem lm_row_run {Q : LMState F R → Prop} (hQ : SolInv (lmEnv so L P) Q) {fuel : Nat} {Good : Rec F R X (DVec F) (DMat F) → Prop}
    (hG : ∀ (w : W) (s : LMState F R) x out succ mdx w1 s1 out1 x', s.rebuild = true → Q s → out.stop = .kNone →
      step (lmEnv so L P) o fuel w s x out = .ok ((succ, mdx), w1, s1, out1) → Good ⟨x, succ, mdx, out1, x'⟩)
    {s : LMState F R} (hs : s.rebuild = true) (hq : Q s) {mi : Int} {w : W} {x : X} {st}
    (h : optimizeAcc (lmEnv so L P) o fuel mi w s x = .ok st) :
    ∀ i r, st.trace[i]? = some r → Rebuilt st.trace i → Good r := by
  let T : LoopSt F R W (LMState F R) X (DVec F) (DMat F) → Prop := fun st =>
    ∀ i r, st.trace[i]? = some r → Rebuilt st.trace i → Good r
  obtain ⟨m, st0, -, hj, -, hst⟩ := run_inv2
    (I := fun st => Q st.s ∧ (st.trace = [] ∨ ∃ q, st.trace.getLast? = some q ∧ q.succ = st.lastSucc) ∧
      (st.trace = [] → st.lastSucc = true) ∧ (Rebuilt st.trace st.trace.length → st.s.rebuild = true) ∧ T st)
    (J := T)
    (fun last st st' h0 h1 hb => by
      obtain ⟨hq, hlast, hempty, hreb, hT⟩ := h1
      obtain ⟨succ, mdx, w1, s1, out1, ms, hstep, hsp, hb, hls⟩ := body_flag hb
      have hQ1 := step_solinv hQ hq hstep
      have htr := hsp.trace
      have hRlt : ∀ i, i ≤ st.trace.length → Rebuilt st'.trace i → Rebuilt st.trace i := by
        intro i hi hR
        rcases hR with hR | ⟨j, q, hj, hij, he, hs⟩
        · exact Or.inl hR
        · refine Or.inr ⟨j, q, hj, hij, ?_, hs⟩
          rw [htr, List.getElem?_append_left (by omega)] at he
          exact he
      have hT' : T st' := by
        intro i r hir hR
        rw [htr] at hir
        by_cases hi : i < st.trace.length
        · rw [List.getElem?_append_left hi] at hir
          exact hT i r hir (hRlt i (by omega) hR)
        · have hi : i = st.trace.length := by
            have := (List.getElem?_eq_some_iff.mp hir).1
            simp at this; omega
          subst hi
          rw [List.getElem?_append_right (le_refl _)] at hir
          simp only [Nat.sub_self, List.getElem?_cons_zero] at hir
          obtain rfl := Option.some.inj hir
          exact hG _ _ _ _ _ _ _ _ _ _ (hreb (hRlt _ (le_refl _) hR)) hq h0 hstep
      refine ⟨fun _ hl => ⟨?_, Or.inr ⟨_, by rw [htr, List.getLast?_concat], by rw [hls]⟩, ?_, ?_, hT'⟩, hT'⟩
      · rw [hb]; exact hQ.rebuild _ _ hQ1
      · rw [htr]; intro h; simp at h
      · intro hR
        rw [hb]
        show (if succ then !(o.checkFinalCost && last) else st.lastSucc) = true
        cases succ with
        | true => rw [hl]; simp
        | false =>
          simp only [Bool.false_eq_true, if_false]
          have hlen : st'.trace.length = st.trace.length + 1 := by rw [htr]; simp
          rcases hlast with hl0 | ⟨q, hq, hqs⟩
          · exact hempty hl0
          · rcases hR with hR | ⟨j, q', hj, hij, he, hs'⟩
            · have : st.trace = [] := by
                cases h0 : st.trace with
                | nil => rfl
                | cons a l => rw [h0] at hlen; simp at hlen; omega
              exact hempty this
            · rw [hlen] at hj hij
              rw [htr] at he
              by_cases hjl : j = st.trace.length
              · subst hjl
                rw [List.getElem?_append_right (le_refl _)] at he
                simp only [Nat.sub_self, List.getElem?_cons_zero] at he
                rw [← Option.some.inj he] at hs'; cases hs'
              · have hj' : j = st.trace.length - 1 := by omega
                rw [List.getElem?_append_left (by omega)] at he
                rw [hj', ← List.getLast?_eq_getElem?] at he
                rw [hq] at he
                rw [← hqs, Option.some.inj he]; exact hs')
    (show _ from ⟨hq, Or.inl rfl, fun _ => rfl, fun _ => hs, fun i r h => by simp [initSt] at h⟩)
    (fun i r h => by simp [initSt] at h) h
  rw [hst]; exact hj

theorem lm_fresh_run {Q : LMState F R → Prop} (hQ : SolInv (lmEnv so L P) Q) {s : LMState F R}
    (hs : s.rebuild = true) (hq : Q s) {fuel : Nat} {mi : Int} {w : W} {x : X} {st}
    (h : optimizeAcc (lmEnv so L P) o fuel mi w s x = .ok st) :
    ∀ i r dx, st.trace[i]? = some r → r.dx = some dx → Rebuilt st.trace i →
      ∃ gn t, UserSystem so P r.x gn ∧ Q t ∧
        gnSolve so L (P.dims == some 1) { gn with H := dampH t.lambda gn.H } = some dx := by
  intro i r dx hi hdx hR
  refine lm_row_run hQ (Good := fun r => ∀ dx, r.dx = some dx → ∃ gn t, UserSystem so P r.x gn ∧ Q t ∧
        gnSolve so L (P.dims == some 1) { gn with H := dampH t.lambda gn.H } = some dx) ?_ hs hq h i r hi hR dx hdx
  intro w s x out succ mdx w1 s1 out1 x' hr hq _ hstep dx hdx
  simp only at hdx
  rcases step_runinv (lm_fresh_inv hQ) trivial ⟨hr, hq⟩ hstep with ⟨hp, -⟩ | ⟨t, dx', hB, hsol, hp, -⟩
  · rw [(Prod.mk.inj hp).2] at hdx; cases hdx
  · obtain ⟨⟨-, hqt⟩, gn, hu, hgn⟩ := hB
    refine ⟨gn, t, hu, hqt, ?_⟩
    rcases hp with hp | ⟨hp, -⟩
    · rw [hdx] at hp; rw [← Option.some.inj hp] at hsol
      have hsol : gnSolve so L (P.dims == some 1) t.gn = some dx := hsol
      rw [hgn] at hsol
      exact hsol
    · rw [hdx] at hp; cases hp

theorem solInv_true (E : Env F R W (LMState F R) X (DVec F) (DMat F)) : SolInv E (fun _ => True) :=
  ⟨fun _ _ _ _ _ _ _ => trivial, fun _ _ _ _ _ _ _ _ => trivial, fun _ _ _ _ _ _ => trivial,
   fun _ _ _ _ => trivial, fun _ _ _ _ => trivial, fun _ _ _ => trivial⟩

/-- **C50** (partial): the step of iteration `i` is solved from the user's gradient and Hessian at the very
point of that iteration, up to the damping, provided iteration `i` is one of the first two or one of
the two iterations before was accepted. Missing: the other iterations, for which the property is
violated, see `C50_stale_step`. -/
theorem C50_step_from_current_partial (s : LMState F R) (hs : s.rebuild = true) (fuel : Nat) (mi : Int) (w : W) (x : X) (st)
    (h : optimizeAcc (lmEnv so L P) o fuel mi w s x = .ok st) (i r dx) (hi : st.trace[i]? = some r)
    (hdx : r.dx = some dx)
    (hr : i ≤ 1 ∨ ∃ j q, j < i ∧ i ≤ j + 2 ∧ st.trace[j]? = some q ∧ q.succ = true) :
    ∃ gn l, UserSystem so P r.x gn ∧
      gnSolve so L (P.dims == some 1) { gn with H := dampH l gn.H } = some dx := by
  obtain ⟨gn, t, h1, -, h2⟩ := lm_fresh_run (solInv_true _) hs trivial h i r dx hi hdx hr
  exact ⟨gn, t.lambda, h1, h2⟩
end

/-- One parameter; the world records where derivatives were asked for. The cost is 10 at 0, has a wall
at 2/5 and is 5 in between. -/
def wall1 : Problem D D (List D) D where
  acc :=
    { full := fun w x _ g H =>
        (({ cost := if lt x (ofInt 1) && lt (ofInt 0) x then (if lt (mul (ofInt 5) x) (ofInt 2) then ofInt 5 else ofInt 20) else ofInt 10, num := 1, inlier := ofInt 1 },
          fun i => add (g i) (ofInt (-1)), fun i j => add (H i j) (ofInt 1)), w ++ [x])
      eval := fun w x => ({ cost := if lt x (ofInt 1) && lt (ofInt 0) x then (if lt (mul (ofInt 5) x) (ofInt 2) then ofInt 5 else ofInt 20) else ofInt 10, num := 1, inlier := ofInt 1 }, w) }
  dims := some 1
  dynDims := fun _ => 1
  plusEq := fun x d => add x d.val
  clock := fun w => (ofInt 1, w)
  alloc := fun w _ => (none, w)
  ratio1 := ofInt 1

def sopts50 : SolverOpts D := { sopts1 with dampInit := ofInt 1 }

def opts50 : Options D (List D) (DVec D) where
  checkFinalCost := false
  useStepQuality := false
  saveLast := true
  maxIters := 3
  minError := ofInt 0
  minRerrDec := ofInt 0
  minStepNorm2 := ofInt 0
  minGradNorm2 := ofInt 0
  maxTotalFailures := 0
  maxConsecFailures := 0
  maxDurationMs := ofInt 0
  stopCallback := none
  stopCallback2 := none

def run50 : Res (LoopSt D D (List D) (LMState D D) D (DVec D) (DMat D)) :=
  optimizeAcc (lmEnv sopts50 lin1 wall1) opts50 10 (-1) [] (lmFresh sopts50 wall1 (fun _ => ofInt 0) (fun _ _ => ofInt 0)) (ofInt 0)

/-- **C50 is violated**: in a run of four iterations on a new object (accepted at 0, rejected at 1/2, back
at 0, at 1/3) the last step is accepted and applied at a point where the user's function was never asked
for derivatives: it was solved from the gradient and Hessian of another point. -/
theorem C50_stale_step :
    ∃ st r, run50 = .ok st ∧ st.trace[3]? = some r ∧ r.succ = true ∧ r.dx.isSome = true ∧ r.xNext ≠ r.x ∧
      r.x ∉ st.w := by
  have h : run50.holds (fun st => (st.trace[3]?).any (fun r => r.succ && r.dx.isSome && decide (r.xNext ≠ r.x) &&
      decide (r.x ∉ st.w))) = true := by decide +kernel
  obtain ⟨st, h1, h2⟩ := Res.exists_of_holds h
  cases h3 : st.trace[3]? with
  | none => rw [h3] at h2; cases h2
  | some r =>
    rw [h3] at h2
    simp only [Option.any_some, Bool.and_eq_true, decide_eq_true_eq] at h2
    exact ⟨st, r, h1, h3, h2.1.1.1, h2.1.1.2, h2.1.2, h2.2⟩

/-- the hypotheses of `C50_step_from_current_partial` hold for the first three iterations of that run -/
example : run50.holds (fun st => decide (st.trace.length = 4) && st.trace.all (fun r => r.dx.isSome)) = true := by
  decide +kernel

/-! ### C22: no damping at all -/

section
variable {f : Fmt} {R W X : Type}
variable {so : SolverOpts (Fl f)} {L : LinAlg (Fl f)} {P : Problem (Fl f) R W X} {o : Options (Fl f) W (DVec (Fl f))}

/-- zero or NaN -/
def NoDamp (l : Fl f) : Prop := l = ofInt 0 ∨ l = Fl.nan

theorem noDamp_not_pos {l : Fl f} (h : NoDamp l) : lt (ofInt 0) l = false := by
  rcases h with rfl | rfl
  · exact FloatLaws.lt_irrefl _
  · rw [Fl.ofInt_zero]; rfl

theorem noDamp_mul {l a : Fl f} (h : NoDamp l) : NoDamp (mul l a) := by
  rcases h with rfl | rfl
  · rw [Fl.ofInt_zero]
    cases a with
    | nan => exact Or.inr rfl
    | pinf => right; show Fl.infSign 0 = _; simp [Fl.infSign]
    | ninf => right; show Fl.infSign (-0) = _; simp [Fl.infSign]
    | fin q hq =>
      left
      show Fl.mk (0 * q) = _
      rw [zero_mul]
      rfl
  · exact Or.inr rfl

theorem noDamp_clamp {l hi l' : Fl f} (h : NoDamp l) (hc : stdClamp l (ofInt 0) hi = .ok l') : NoDamp l' := by
  unfold stdClamp at hc
  split at hc
  · cases hc
  next hlo =>
    injection hc with hc
    subst hc
    rcases h with rfl | rfl
    · rw [FloatLaws.lt_irrefl]
      simp only [Bool.false_eq_true, if_false]
      rw [if_neg hlo]
      exact Or.inl rfl
    · have h1 : lt (Fl.nan : Fl f) (ofInt 0) = false := by rw [Fl.ofInt_zero]; rfl
      have h2 : lt hi (Fl.nan : Fl f) = false := by cases hi <;> rfl
      rw [h1, h2]; exact Or.inr rfl

theorem lm_noDamp_inv (hlo : so.dampLo = ofInt 0) :
    SolInv (lmEnv so L P) (fun s => NoDamp s.lambda) where
  resize w s d s' w' h e := by obtain ⟨g, -, rfl⟩ := lmResize_spec e; exact h
  build w s x b s' w' h e := by rw [(lmBuild_damping e).1]; exact h
  good s q s' h _ e := by
    obtain ⟨l, hl, rfl⟩ := lmGood_spec e
    rw [hlo] at hl; exact noDamp_clamp (noDamp_mul h) hl
  bad s s' h e := by
    obtain ⟨l, hl, rfl⟩ := lmBad_spec e
    rw [hlo] at hl; exact noDamp_clamp (noDamp_mul h) hl
  failed s s' h e := by
    obtain ⟨l, hl, rfl⟩ := lmBad_spec e
    rw [hlo] at hl; exact noDamp_clamp (noDamp_mul h) hl
  rebuild s b h := h

theorem UserSystem.withCost {x : X} {gn : GNState (Fl f) R} (h : UserSystem so P x gn) (c) :
    UserSystem so P x { gn with cost := c } := by
  obtain ⟨w0, w1, n, c0, g, H, c', e, rfl⟩ := h
  exact ⟨w0, w1, n, c0, g, H, c, e, rfl⟩

theorem lmDamp_noDamp {s : LMState (Fl f) R} (h : NoDamp s.lambda) : lmDamp s = s := by
  unfold lmDamp
  rw [noDamp_not_pos h]; rfl

theorem lm_undamped_inv (hlo : so.dampLo = ofInt 0) (hk : KeepsDims P) (d : Int) :
    RunInv (lmEnv so L P) (fun x => P.dynDims x = d)
      (fun s => NoDamp s.lambda ∧ (s.rebuild = true ∨ (Sized P d s.gn ∧ ∃ x0, UserSystem so P x0 s.gn)))
      (fun s => NoDamp s.lambda ∧ Sized P d s.gn ∧ (s.rebuild = true ∨ ∃ x0, UserSystem so P x0 s.gn))
      (fun _ s => NoDamp s.lambda ∧ Sized P d s.gn ∧ ∃ x0, UserSystem so P x0 s.gn)
      (fun _ s => NoDamp s.lambda ∧ Sized P d s.gn ∧ (s.rebuild = true ∨ ∃ x0, UserSystem so P x0 s.gn))
      (fun _ s => NoDamp s.lambda ∧ Sized P d s.gn ∧ ∃ x0, UserSystem so P x0 s.gn) where
  plus x v h := (hk x v).trans h
  resize w s x s' w' hx _ hI h := by
    obtain ⟨g, hg, rfl⟩ := lmResize_spec h
    rw [show (lmEnv so L P).dynDims x = d from hx] at hg
    obtain ⟨h1, h2⟩ := gnResize_sized hg
    refine ⟨hI.1, h1, ?_⟩
    rcases hI.2 with hI | ⟨hz, hI⟩
    · exact Or.inl hI
    · rw [h2 hz]; exact Or.inr hI
  build w s x b s' w' hx hI h := by
    have hsz : Sized P d s'.gn := fun hn => by rw [lmBuild_n h]; exact hI.2.1 hn
    have hl : NoDamp s'.lambda := by rw [(lmBuild_damping h).1]; exact hI.1
    have hsp := lmBuild_spec h
    generalize hp : (b, s', w') = p at hsp
    cases hsp with
    | rebuilt g1 w1 hr hb =>
      obtain ⟨rfl, rfl, -⟩ := hp
      refine ⟨hl, hsz, x, ?_⟩
      rw [lmDamp_noDamp (s := { s with gn := g1 }) hI.1]
      exact buildSystem_user hb
    | rebuildFail g1 w1 hr hb => obtain ⟨rfl, rfl, -⟩ := hp; exact ⟨hl, hsz, Or.inl hr⟩
    | evald c w1 hr he hv =>
      obtain ⟨rfl, rfl, -⟩ := hp
      refine ⟨hl, hsz, ?_⟩
      rw [lmDamp_noDamp (s := { s with gn := { s.gn with cost := normalizeCost so c } }) hI.1]
      obtain ⟨x0, hu⟩ := hI.2.2.resolve_left (by rw [hr]; decide)
      exact ⟨x0, hu.withCost _⟩
    | evalFail c w1 hr he hv =>
      obtain ⟨rfl, rfl, -⟩ := hp
      obtain ⟨x0, hu⟩ := hI.2.2.resolve_left (by rw [hr]; decide)
      exact ⟨hl, hsz, Or.inr ⟨x0, hu.withCost _⟩⟩
  good x s q s' h hq e := by
    have := (lm_noDamp_inv (L := L) (P := P) hlo).good _ _ _ h.1 hq e
    obtain ⟨l, -, rfl⟩ := lmGood_spec e; exact ⟨this, h.2⟩
  bad x s s' h e := by
    have := (lm_noDamp_inv (L := L) (P := P) hlo).bad _ _ h.1 e
    obtain ⟨l, -, rfl⟩ := lmBad_spec e; exact ⟨this, h.2⟩
  failedB x s s' h e := by
    have := (lm_noDamp_inv (L := L) (P := P) hlo).bad _ _ h.1 e
    obtain ⟨l, -, rfl⟩ := lmBad_spec e; exact ⟨this, h.2.1, Or.inr h.2.2⟩
  failedN x s s' h e := by
    have := (lm_noDamp_inv (L := L) (P := P) hlo).bad _ _ h.1 e
    obtain ⟨l, -, rfl⟩ := lmBad_spec e; exact ⟨this, h.2⟩
  rebuildB x s b h := ⟨h.1, Or.inr h.2⟩
  rebuildA x s b h := ⟨h.1, Or.inr h.2⟩

/-- **C22** (partial): if also the lower end of `damping_range` is zero, no step of a run is damped: it is
what Gauss-Newton solves (`gnSolve`) from gradient and Hessian as returned by the user's function at some
point, and at the point of the iteration itself when this is one of the first two iterations or follows an
accepted one within two. Missing: a positive lower end of the range (the default), for which the property is
violated, see `C22_range_is_used`. -/
theorem C22_no_damping_partial (h0 : so.dampInit = ofInt 0) (hlo : so.dampLo = ofInt 0) (hk : KeepsDims P)
    (s : LMState (Fl f) R) (fuel : Nat) (mi : Int) (w : W) (x : X) (st)
    (h : optimizeAcc (lmEnv so L P) o fuel mi w (lmReset so s) x = .ok st) :
    ∀ i r dx, st.trace[i]? = some r → r.dx = some dx →
      ∃ x0 gn, UserSystem so P x0 gn ∧ gnSolve so L (P.dims == some 1) gn = some dx ∧
        ((i ≤ 1 ∨ ∃ j q, j < i ∧ i ≤ j + 2 ∧ st.trace[j]? = some q ∧ q.succ = true) → x0 = r.x) := by
  intro i r dx hi hdx
  have hl : NoDamp (lmReset so s).lambda := Or.inl h0
  by_cases hr : Rebuilt st.trace i
  · obtain ⟨gn, t, hu, ht, hs⟩ := lm_fresh_run (lm_noDamp_inv hlo) rfl hl h i r dx hi hdx hr
    have : dampH t.lambda gn.H = gn.H := by unfold dampH; rw [noDamp_not_pos ht]; rfl
    rw [this] at hs
    exact ⟨r.x, gn, hu, hs, fun _ => rfl⟩
  · obtain ⟨t, hB, hs, -⟩ := (run_runinv (lm_undamped_inv hlo hk _) (show P.dynDims x = P.dynDims x from rfl)
      ⟨hl, Or.inl rfl⟩ h).1 r (List.mem_of_getElem? hi) dx hdx
    obtain ⟨-, -, x0, hu⟩ := hB
    exact ⟨x0, t.gn, hu, hs, fun h' => absurd h' hr⟩
end

/-- residual `x * x` (cost, gradient and Gauss-Newton Hessian) -/
def quad1 : Problem D D Nat D :=
  prob1 (fun x => (mul (mul x x) (mul x x), mul (ofInt 2) (mul x (mul x x)), mul (ofInt 4) (mul x x))) (fun _ => 1) (some 1)

def soptsNoDamp : SolverOpts D := { sopts1 with dampInit := ofInt 0 }

def lmRun22 : Res (LoopSt D D Nat (LMState D D) D (DVec D) (DMat D)) :=
  optimizeAcc (lmEnv soptsNoDamp lin1 quad1) (opts1 3) 10 (-1) 0 (lmFresh soptsNoDamp quad1 (fun _ => ofInt 0) (fun _ _ => ofInt 0)) (ofInt 1)

def gnRun22 : Res (LoopSt D D Nat (GNState D D) D (DVec D) (DMat D)) :=
  optimizeAcc (gnEnv soptsNoDamp lin1 quad1) (opts1 3) 10 (-1) 0 (gnFresh quad1 (fun _ => ofInt 0) (fun _ _ => ofInt 0)) (ofInt 1)

/-- **C22 is violated** with the default `damping_range`: the first accepted step raises the damping from 0 to
the lower end 1e-9 of the range, and the run then takes other steps than Gauss-Newton (Gauss-Newton is at
1/16 after four iterations, Levenberg-Marquardt is not). -/
theorem C22_range_is_used :
    ∃ st st', lmRun22 = .ok st ∧ gnRun22 = .ok st' ∧ soptsNoDamp.dampInit = ofInt 0 ∧
      st'.x = div (ofInt 1) (ofInt 16) ∧ st.x ≠ st'.x ∧ st.s.lambda = soptsNoDamp.dampLo := by
  have h : lmRun22.holds (fun st => decide (st.x ≠ div (ofInt 1) (ofInt 16)) && decide (st.s.lambda = soptsNoDamp.dampLo)) = true := by
    decide +kernel
  have h' : gnRun22.holds (fun st => decide (st.x = div (ofInt 1) (ofInt 16))) = true := by decide +kernel
  obtain ⟨st, h1, h2⟩ := Res.exists_of_holds h
  obtain ⟨st', h3, h4⟩ := Res.exists_of_holds h'
  simp only [Bool.and_eq_true, decide_eq_true_eq] at h2 h4
  exact ⟨st, st', h1, h3, rfl, h4, by rw [h4]; exact h2.1, h2.2⟩

def soptsNoRange : SolverOpts D := { sopts1 with dampInit := ofInt 0, dampLo := ofInt 0 }

/-- the hypotheses of `C22_no_damping_partial` hold for a run that takes four steps -/
example : KeepsDims quad1 ∧ soptsNoRange.dampInit = ofInt 0 ∧ soptsNoRange.dampLo = ofInt 0 ∧
    (optimizeAcc (lmEnv soptsNoRange lin1 quad1) (opts1 3) 10 (-1) 0
      (lmReset soptsNoRange ⟨gnFresh quad1 (fun _ => ofInt 0) (fun _ _ => ofInt 0), ofInt 0, ofInt 0, ofInt 0, true⟩) (ofInt 1)).holds
      (fun st => decide (st.trace.length = 4) && st.trace.all (fun r => r.dx.isSome)) = true :=
  ⟨fun _ _ => rfl, rfl, rfl, by decide +kernel⟩

/-! ### C23: the exported Hessian -/

section
variable {R W X : Type}
variable {so : SolverOpts ℝ} {L : LinAlg ℝ} {P : Problem ℝ R W X} {o : Options ℝ W (DVec ℝ)}

/-- `gn` is the system of the user at `x0` with the diagonal multiplied by `k` -/
def ScaledSystem (so : SolverOpts ℝ) (P : Problem ℝ R W X) (x0 : X) (k : ℝ) (gn : GNState ℝ R) : Prop :=
  ∃ gn0, UserSystem so P x0 gn0 ∧ gn = { gn0 with H := scaleDiag k gn0.H }

theorem scaleDiag_one {n : Nat} (H : Mat ℝ n) : scaleDiag (1 : ℝ) H = H := by
  funext i j; simp [scaleDiag]

theorem scaleDiag_mul {n : Nat} (a b : ℝ) (H : Mat ℝ n) : scaleDiag b (scaleDiag a H) = scaleDiag (a * b) H := by
  funext i j
  by_cases h : i = j
  · simp [scaleDiag, h, mul_assoc]
  · simp [scaleDiag, h]

theorem ScaledSystem.withCost {x0 : X} {k : ℝ} {gn : GNState ℝ R} (h : ScaledSystem so P x0 k gn) (c) :
    ScaledSystem so P x0 k { gn with cost := c } := by
  obtain ⟨gn0, ⟨w0, w1, n, c0, g, H, c', e, rfl⟩, rfl⟩ := h
  exact ⟨_, ⟨w0, w1, n, c0, g, H, c, e, rfl⟩, rfl⟩

theorem ScaledSystem.scale {x0 : X} {k a : ℝ} {gn : GNState ℝ R} (h : ScaledSystem so P x0 k gn) :
    ScaledSystem so P x0 (k * a) { gn with H := scaleDiag a gn.H } := by
  obtain ⟨gn0, hu, rfl⟩ := h
  exact ⟨gn0, hu, by rw [← scaleDiag_mul]⟩

theorem UserSystem.scaled {x : X} {gn : GNState ℝ R} (h : UserSystem so P x gn) : ScaledSystem so P x 1 gn :=
  ⟨gn, h, by rw [scaleDiag_one]⟩

theorem lmDamp_rebuilt {x0 : X} {s : LMState ℝ R} (hl : 0 ≤ s.lambda) (hr : s.rebuild = true) (h : ScaledSystem so P x0 1 s.gn) :
    ScaledSystem so P x0 (1 + s.lambda) (lmDamp s).gn := by
  unfold lmDamp
  by_cases h0 : 0 < s.lambda
  · rw [if_pos (by simpa using h0), hr]
    simpa using h.scale (a := 1 + s.lambda)
  · rw [if_neg (by simpa using h0)]
    have : s.lambda = 0 := le_antisymm (not_lt.mp h0) hl
    rw [this, add_zero]; exact h

theorem lmDamp_eval {x0 : X} {s : LMState ℝ R} (h0 : 0 < s.lambda) (hp : 0 ≤ s.prev) (hr : s.rebuild = false)
    (h : ScaledSystem so P x0 (1 + s.prev) s.gn) : ScaledSystem so P x0 (1 + s.lambda) (lmDamp s).gn := by
  unfold lmDamp
  rw [if_pos (by simpa using h0), hr]
  have h1 := h.scale (a := (1 + s.lambda) / (1 + s.prev))
  have h2 : (1 + s.prev) * ((1 + s.lambda) / (1 + s.prev)) = 1 + s.lambda := by
    have : (1 + s.prev) ≠ 0 := by positivity
    field_simp
  rw [h2] at h1
  simpa using h1

/-- what is assumed about the user's function at the points of a run: it delivers a usable cost below the largest double
(when there are residuals at all) -/
structure UsableCost (so : SolverOpts ℝ) (P : Problem ℝ R W X) (x : X) : Prop where
  eval : ∀ w, (normalizeCost so (P.acc.eval w x).1).isValid = true ∧ (normalizeCost so (P.acc.eval w x).1).cost < maxVal
  full : ∀ w n g H, (normalizeCost so (P.acc.full w x n g H).1.1).cost < maxVal

theorem lmDamp_cost (s : LMState ℝ R) : (lmDamp s).gn.cost = s.gn.cost := by
  obtain ⟨H, e⟩ := lmDamp_spec s; rw [e]

/-- One iteration with rebuild flag `fl`; `a` is the point of the stored system, or the current point if
the system is rebuilt. -/
theorem lm_scaled_inv (hlo : 0 < so.dampLo) (hr : so.dampLo ≤ so.dampHi) {x0 : X} (hu : UsableCost so P x0) (d : Int)
    (a : X) (fl : Bool) :
    StepInv (lmEnv so L P) (fun x => x = x0 ∧ P.dynDims x = d)
      (fun s => s.rebuild = fl ∧ 0 ≤ s.lambda ∧
        (fl = true ∨ (Sized P d s.gn ∧ 0 < s.lambda ∧ 0 ≤ s.prev ∧ ScaledSystem so P a (1 + s.prev) s.gn)))
      (fun s => s.rebuild = fl ∧ 0 ≤ s.lambda ∧ Sized P d s.gn ∧
        (fl = true ∨ (0 < s.lambda ∧ 0 ≤ s.prev ∧ ScaledSystem so P a (1 + s.prev) s.gn)))
      (fun x s => s.rebuild = fl ∧ 0 ≤ s.lambda ∧ Sized P d s.gn ∧ s.gn.cost.cost < maxVal ∧
        ((fl = true → x = a) → ScaledSystem so P a (1 + s.lambda) s.gn))
      (fun _ s => s.rebuild = fl ∧ 0 ≤ s.lambda ∧ Sized P d s.gn ∧ fl = true)
      (fun x s => s.rebuild = fl ∧ 0 < s.lambda ∧ Sized P d s.gn ∧ 0 ≤ s.prev ∧
        ((fl = true → x = a) → ScaledSystem so P a (1 + s.prev) s.gn)) := by
  have clamp : ∀ {v l : ℝ}, stdClamp v so.dampLo so.dampHi = .ok l → 0 < l := by
    intro v l h
    rw [stdClamp_real hr] at h
    injection h with h
    rw [← h]; exact lt_of_lt_of_le hlo (le_max_left _ _)
  exact
  { resize := fun w s x s' w' hx _ hI h => by
      obtain ⟨g, hg, rfl⟩ := lmResize_spec h
      rw [show (lmEnv so L P).dynDims x = d from hx.2] at hg
      obtain ⟨h1, h2⟩ := gnResize_sized hg
      refine ⟨hI.1, hI.2.1, h1, ?_⟩
      rcases hI.2.2 with hI | ⟨hz, hI⟩
      · exact Or.inl hI
      · rw [h2 hz]; exact Or.inr hI
    build := fun w s x b s' w' hx hI h => by
      obtain ⟨rfl, -⟩ := hx
      obtain ⟨hf, hI⟩ := hI
      have hsz : Sized P d s'.gn := fun hn => by rw [lmBuild_n h]; exact hI.2.1 hn
      have hd := lmBuild_damping h
      have hl : 0 ≤ s'.lambda := by rw [hd.1]; exact hI.1
      have hf' : s'.rebuild = fl := hd.2.2.2.trans hf
      have hsp := lmBuild_spec h
      generalize hp : (b, s', w') = p at hsp
      cases hsp with
      | rebuilt g1 w1 hr hb =>
        obtain ⟨rfl, rfl, -⟩ := hp
        refine ⟨hf', hl, hsz, ?_, fun hc => ?_⟩
        · rw [lmDamp_cost]
          obtain ⟨c, g, H, e, hs⟩ := buildSystem_spec hb
          have := hu.full w s.gn.n (fun _ => ofInt 0) (fun _ _ => ofInt 0)
          rw [e] at this
          cases hs; exact this
        · obtain rfl := hc (hf ▸ hr)
          rw [hd.1]
          exact lmDamp_rebuilt (s := { s with gn := g1 }) hI.1 hr (buildSystem_user hb).scaled
      | rebuildFail g1 w1 hr hb => obtain ⟨rfl, rfl, -⟩ := hp; exact ⟨hf', hl, hsz, hf ▸ hr⟩
      | evald c w1 hr he hv =>
        obtain ⟨rfl, rfl, -⟩ := hp
        obtain ⟨h0, hpr, hsc⟩ := hI.2.2.resolve_left (by rw [← hf, hr]; decide)
        refine ⟨hf', hl, hsz, ?_, fun _ => ?_⟩
        · rw [lmDamp_cost]
          have := (hu.eval w).2
          rw [he] at this
          exact this
        · rw [hd.1]
          exact lmDamp_eval (s := { s with gn := { s.gn with cost := normalizeCost so c } }) h0 hpr hr (hsc.withCost _)
      | evalFail c w1 hr he hv =>
        have := (hu.eval w).1
        rw [he, hv] at this; cases this
    good := fun x s q s' h _ e => by
      obtain ⟨l, hl, rfl⟩ := lmGood_spec e; exact ⟨h.1, clamp hl, h.2.2.1, h.2.1, h.2.2.2.2⟩
    bad := fun x s s' h e => by
      obtain ⟨l, hl, rfl⟩ := lmBad_spec e; exact ⟨h.1, clamp hl, h.2.2.1, h.2.1, h.2.2.2.2⟩
    failedB := fun x s s' h e => by
      obtain ⟨l, hl, rfl⟩ := lmBad_spec e
      refine ⟨h.1, (clamp hl).le, h.2.2.1, ?_⟩
      cases hb : fl with
      | true => exact Or.inl rfl
      | false => exact Or.inr ⟨clamp hl, h.2.1, h.2.2.2.2 (by rw [hb]; nofun)⟩
    failedN := fun x s s' h e => by
      obtain ⟨l, hl, rfl⟩ := lmBad_spec e
      exact ⟨h.1, (clamp hl).le, h.2.2.1, Or.inl h.2.2.2⟩ }

/-- `k` is the last iteration that rebuilt the system and `a` its point -/
def LastRebuilt {F R X V M : Type} (tr : List (Rec F R X V M)) (a : X) : Prop :=
  ∃ k q, tr[k]? = some q ∧ q.x = a ∧ Rebuilt tr k ∧ ∀ i, k < i → i < tr.length → ¬ Rebuilt tr i

theorem rebuilt_append {F R X V M : Type} (tr : List (Rec F R X V M)) (r) {i : Nat} (hi : i ≤ tr.length) :
    Rebuilt (tr ++ [r]) i ↔ Rebuilt tr i := by
  unfold Rebuilt
  refine or_congr_right (exists_congr fun j => exists_congr fun q => ?_)
  constructor
  · rintro ⟨h1, h2, h3, h4⟩
    rw [List.getElem?_append_left (by omega)] at h3
    exact ⟨h1, h2, h3, h4⟩
  · rintro ⟨h1, h2, h3, h4⟩
    exact ⟨h1, h2, by rw [List.getElem?_append_left (by omega)]; exact h3, h4⟩

/-- the flag after an iteration that is not the last one -/
theorem rebuilt_next {F R X V M : Type} (tr : List (Rec F R X V M)) (r : Rec F R X V M) (ls : Bool)
    (hls : ls = (tr.map Rec.succ).getLast?.getD true) :
    Rebuilt (tr ++ [r]) (tr ++ [r]).length ↔ (if r.succ then true else ls) = true := by
  rw [List.length_append, List.length_singleton]
  cases hs : r.succ with
  | true =>
    simp only [if_true, iff_true]
    exact Or.inr ⟨tr.length, r, by omega, by omega, by simp, hs⟩
  | false =>
    simp only [Bool.false_eq_true, if_false]
    rw [hls]
    constructor
    · rintro (h | ⟨j, q, h1, h2, h3, h4⟩)
      · have : tr = [] := List.length_eq_zero_iff.mp (by omega)
        rw [this]; rfl
      · by_cases hj : j = tr.length
        · subst hj
          simp at h3
          rw [← h3, hs] at h4; cases h4
        · have hj : j = tr.length - 1 := by omega
          have hlt : j < tr.length := by omega
          rw [List.getElem?_append_left hlt, hj, ← List.getLast?_eq_getElem?] at h3
          rw [List.getLast?_map, h3]; exact h4
    · intro h
      rcases List.eq_nil_or_concat tr with rfl | ⟨l, q, rfl⟩
      · exact Or.inl (by simp)
      · refine Or.inr ⟨l.length, q, by simp, by simp, by simp, ?_⟩
        simpa using h

/-- **C23** (partial): in exact arithmetic the saved Hessian of a run on a reset object is the Hessian as
the user's function returned it (lower part filled as the options ask) at the point of the last iteration that
rebuilt the system, whatever the sequence of accepted, rejected and failed steps, provided the run has
at least two iterations and the last one did not fail.
Missing: runs of a single iteration and cost evaluations without residuals, for which the property is
violated, see `C23_damped_after_one_iteration`, `C23_failed_evaluation`. -/
theorem C23_saved_hessian_partial (h0 : 0 ≤ so.dampInit) (hlo : 0 < so.dampLo) (hr : so.dampLo ≤ so.dampHi)
    (hk : KeepsDims P) (hsave : o.saveLast = true) (s : LMState ℝ R) (fuel : Nat) (mi : Int)
    (hm : ∀ m, loopBound o mi = some m → m ≤ 65536) (w : W) (x : X) (st)
    (h : optimizeAcc (lmEnv so L P) o fuel mi w (lmReset so s) x = .ok st) (hn : 1 < st.trace.length)
    (hu : ∀ r ∈ st.trace, UsableCost so P r.x) (r) (hlast : st.trace.getLast? = some r) (hok : r.out.succeeded = true) :
    ∃ x0 w0 w1 n c g H, LastRebuilt st.trace x0 ∧ P.acc.full w0 x0 n (fun _ => 0) (fun _ _ => 0) = ((c, g, H), w1) ∧
      st.out.finalHessian = some ⟨n, fillLower so H⟩ := by
  let d := P.dynDims x
  let Is : X → LMState ℝ R → Prop := fun a s => 0 ≤ s.lambda ∧ (s.rebuild = true ∨
    (Sized P d s.gn ∧ 0 < s.lambda ∧ 0 ≤ s.prev ∧ ScaledSystem so P a (1 + s.prev) s.gn))
  let As : X → LMState ℝ R → Prop := fun a s => 0 ≤ s.prev ∧ ScaledSystem so P a (1 + s.prev) s.gn
  obtain ⟨m, st0, hlb, hj, hlen, hst⟩ := run_inv2
    (I := fun st => st.out.numIters = st.trace.length % 65536 ∧ (st.trace.length ≤ 65536 → (∀ r ∈ st.trace, UsableCost so P r.x) →
      P.dynDims st.x = d ∧ (st.trace.length = 0 → st.out.finalCost.cost = maxVal) ∧
      st.lastSucc = (st.trace.map Rec.succ).getLast?.getD true ∧
      (st.s.rebuild = true ↔ Rebuilt st.trace st.trace.length) ∧
      ((st.trace = [] ∧ ∀ a, Is a st.s) ∨ ∃ a, LastRebuilt st.trace a ∧ Is a st.s)))
    (J := fun st => st.trace.length ≤ 65536 → (∀ r ∈ st.trace, UsableCost so P r.x) → 1 < st.trace.length → ∀ r, st.trace.getLast? = some r →
      0 ≤ r.out.stop.code → ∃ a t b, LastRebuilt st.trace a ∧ As a t ∧ st.s = { t with rebuild := b })
    (fun last st st' _ h1 hb => by
      obtain ⟨succ, mdx, w1, s1, out1, ms, hstep, hs, hb, hls⟩ := body_flag hb
      have hit : out1.numIters = st.out.numIters := by cases hs.step <;> rfl
      have htr := hs.trace
      have hl' : st'.trace.length = st.trace.length + 1 := by rw [htr]; simp
      have hn' : st'.out.numIters = inc16 st.out.numIters := by rw [hs.out]; simp [hit]
      have hus : (∀ r ∈ st'.trace, UsableCost so P r.x) → (∀ r ∈ st.trace, UsableCost so P r.x) ∧ UsableCost so P st.x := fun hu =>
        ⟨fun r hr => hu r (by rw [htr]; exact List.mem_append_left _ hr), hu _ (by rw [htr]; exact List.mem_append_right _ (List.mem_singleton.mpr rfl))⟩
      have key : st'.trace.length ≤ 65536 → (∀ r ∈ st'.trace, UsableCost so P r.x) → ∃ a, LastRebuilt st'.trace a ∧
          (0 ≤ out1.stop.code → (if st.out.numIters > 0 then 0 < s1.lambda ∧ Sized P d s1.gn ∧ As a s1 else
            0 ≤ s1.lambda ∧ succ = true)) := by
        intro hle hu
        obtain ⟨hx, hmax, hls0, hreb, hIs⟩ := h1.2 (by omega) (hus hu).1
        -- the point of the system used by this iteration
        have ha : ∃ a, LastRebuilt st'.trace a ∧ Is a st.s ∧ (st.s.rebuild = true → st.x = a) := by
          cases hf : st.s.rebuild with
          | true =>
            refine ⟨st.x, ⟨st.trace.length, _, by rw [htr, List.getElem?_append_right (le_refl _)]; simp; rfl, rfl, ?_, ?_⟩, ?_, fun _ => rfl⟩
            · rw [htr, rebuilt_append _ _ (le_refl _)]; exact hreb.mp hf
            · intro i h1 h2; omega
            · rcases hIs with ⟨-, hIs⟩ | ⟨a, -, hIs⟩
              · exact ⟨(hIs st.x).1, Or.inl hf⟩
              · exact ⟨hIs.1, Or.inl hf⟩
          | false =>
            have hnr : ¬ Rebuilt st.trace st.trace.length := fun h => by rw [hreb.mpr h] at hf; cases hf
            rcases hIs with ⟨he, -⟩ | ⟨a, ⟨k, q, hk, hq, hR, hmax'⟩, hIs⟩
            · exact absurd (Or.inl (by rw [he]; simp)) hnr
            · have hkl := (List.getElem?_eq_some_iff.mp hk).1
              refine ⟨a, ⟨k, q, ?_, hq, ?_, ?_⟩, hIs, nofun⟩
              · rw [htr, List.getElem?_append_left hkl]; exact hk
              · rw [htr, rebuilt_append _ _ (by omega)]; exact hR
              · intro i h1 h2
                rw [htr, rebuilt_append _ _ (by omega)]
                by_cases hi : i = st.trace.length
                · rw [hi]; exact hnr
                · exact hmax' i h1 (by omega)
        obtain ⟨a, hLR, hIa, hcond⟩ := ha
        refine ⟨a, hLR, fun hcode => ?_⟩
        rcases step_runinv (lm_scaled_inv hlo hr (hus hu).2 d a st.s.rebuild) ⟨rfl, hx⟩ ⟨rfl, hIa⟩ hstep with ⟨-, h2, -⟩ | ⟨t, dx', hBt, hsol', hp, -, -, hsucc, hAt⟩
        · exact absurd hcode (Int.not_le.mpr h2)
        · split
          next hpos =>
            rw [if_pos hpos] at hAt
            exact ⟨hAt.2.1, hAt.2.2.1, hAt.2.2.2.1, hAt.2.2.2.2 hcond⟩
          next hpos =>
            rw [if_neg hpos] at hAt
            have hz : st.trace.length = 0 := by have := h1.1; omega
            have hlt : t.gn.cost.cost - maxVal < 0 := by have := hBt.2.2.2.1; linarith
            rw [hmax hz] at hsucc
            refine ⟨hAt ▸ hBt.2.1, ?_⟩
            simp only at hsucc
            rw [hsucc]
            simpa [lmEnv, envOf, lmSolver] using hlt
      refine ⟨fun hn hlast => ⟨by rw [hn', h1.1, hl']; simp [inc16], fun hle hu => ?_⟩, fun hle hu h1l r hr hd => ?_⟩
      · obtain ⟨a, hLR, hkey⟩ := key hle hu
        obtain ⟨hx, hmax, hls0, hreb, hIs⟩ := h1.2 (by omega) (hus hu).1
        have hn1 : out1.stop = .kNone := by
          rw [hs.out] at hn
          simp only [timeStop] at hn
          split at hn
          · cases hn
          · exact hn
        have hkey := hkey (by rw [hn1]; decide)
        refine ⟨?_, fun h => by omega, ?_, ?_, Or.inr ⟨a, hLR, ?_⟩⟩
        · have := hs.upd
          revert this
          generalize st'.x = x1
          generalize st'.lastDx = l1
          generalize st'.lastSucc = b1
          intro this
          cases this with
          | succ dx => exact (hk _ _).trans hx
          | roll d _ _ => exact (hk _ _).trans hx
          | adv dx _ => exact (hk _ _).trans hx
          | stay _ => exact hx
        · rw [hls, htr]; simp
        · rw [htr, rebuilt_next _ _ st.lastSucc hls0, hb]
          rw [hlast]
          cases succ <;> simp [lmEnv, envOf, lmSolver]
        · rw [hb]
          split at hkey
          · exact ⟨hkey.1.le, Or.inr ⟨hkey.2.1, hkey.1, hkey.2.2.1, hkey.2.2.2⟩⟩
          · refine ⟨hkey.1, Or.inl ?_⟩
            rw [hkey.2, hlast]; simp [lmEnv, envOf, lmSolver]
      · obtain ⟨a, hLR, hkey⟩ := key hle hu
        rw [htr, List.getLast?_concat] at hr
        obtain rfl := Option.some.inj hr
        have hkey := hkey hd
        rw [if_pos (by have := h1.1; omega)] at hkey
        exact ⟨a, s1, _, hLR, hkey.2.2, hb⟩)
    (show _ from ⟨rfl, fun _ _ => ⟨rfl, fun _ => rfl, rfl, by simp [initSt, Rebuilt, lmReset],
      Or.inl ⟨rfl, fun a => ⟨show 0 ≤ (lmReset so s).lambda from h0, Or.inl rfl⟩⟩⟩⟩) (by simp [initSt]) h
  have hle : st0.trace.length ≤ 65536 := by have := hm m hlb; omega
  have htr0 : st.trace = st0.trace := by rw [hst]
  obtain ⟨x0, t, b, hLR, ⟨hp, gn0, ⟨w0, w1, n, c, g, H, c', e, rfl⟩, hgn⟩, hst0⟩ :=
    hj hle (by rw [← htr0]; exact hu) (by rw [← htr0]; exact hn) r (by rw [← htr0]; exact hlast)
      (by simpa [Output.succeeded, StopReason.code] using hok)
  refine ⟨x0, w0, w1, n, c, g, H, by rw [htr0]; exact hLR, by simpa using e, ?_⟩
  have h1 : st.out.finalHessian = some (lmHessian st0.s) := by
    rw [hst]; simp [hsave, lmEnv, envOf, lmSolver]
  rw [h1, hst0]
  obtain ⟨tg, tl, tp, tb, tr⟩ := t
  simp only at hgn hp
  subst hgn
  show some (lmHessian { gn := _, lambda := tl, prev := tp, badF := tb, rebuild := b }) = _
  congr 1
  unfold lmHessian
  simp only
  by_cases hp0 : 0 < tp
  · rw [if_pos (by simpa using hp0)]
    congr 1
    funext i j
    have hne : 1 + tp ≠ 0 := by positivity
    by_cases hij : i = j
    · simp [scaleDiag, hij, hne]
    · simp [scaleDiag, hij]
  · rw [if_neg (by simpa using hp0)]
    have : tp = 0 := le_antisymm (not_lt.mp hp0) hp
    rw [this, add_zero, scaleDiag_one]
end

/-- the saved Hessian of a one-parameter run -/
def DMat.val (d : DMat D) : D := if h : 0 < d.n then d.m ⟨0, h⟩ ⟨0, h⟩ else ofInt 0

def run23 : Res (LoopSt D D Nat (LMState D D) D (DVec D) (DMat D)) :=
  optimizeAcc (lmEnv sopts50 lin1 (lin3 (some 1))) (opts1 0) 10 (-1) 0
    (lmFresh sopts50 (lin3 (some 1)) (fun _ => ofInt 0) (fun _ _ => ofInt 0)) (ofInt 0)

/-- **C23 is violated** after one iteration: the user's Hessian is 1 at every point but the saved one is 2
(damping 1 applied, none removed). -/
theorem C23_damped_after_one_iteration :
    (∀ w x, ((lin3 (some 1)).acc.full w x 1 (fun _ => ofInt 0) (fun _ _ => ofInt 0)).1.2.2 0 0 = ofInt 1) ∧
    ∃ st, run23 = .ok st ∧ st.trace.length = 1 ∧ st.out.succeeded = true ∧
      st.out.finalHessian.map DMat.val = some (ofInt 2) := by
  have h : run23.holds (fun st => decide (st.trace.length = 1) && st.out.succeeded &&
      decide (st.out.finalHessian.map DMat.val = some (ofInt 2))) = true := by decide +kernel
  refine ⟨fun w x => show (add (ofInt 0) (ofInt 1) : D) = ofInt 1 by decide +kernel, ?_⟩
  obtain ⟨st, h1, h2⟩ := Res.exists_of_holds h
  simp only [Bool.and_eq_true, decide_eq_true_eq] at h2
  exact ⟨st, h1, h2.1.1, h2.1.2, h2.2⟩

/-- like `wall1`, but the first evaluation without derivatives reports "no cost" (the largest double); the
world counts these evaluations -/
def flaky1 : Problem D D Nat D where
  acc :=
    { full := fun w x n g H => (((wall1.acc.full [] x n g H).1.1, (wall1.acc.full [] x n g H).1.2), w)
      eval := fun w x => ({ (wall1.acc.eval [] x).1 with cost := if w = 0 then maxVal else (wall1.acc.eval [] x).1.cost }, w + 1) }
  dims := some 1
  dynDims := fun _ => 1
  plusEq := fun x d => add x d.val
  clock := fun w => (ofInt 1, w)
  alloc := fun w _ => (none, w)
  ratio1 := ofInt 1

def run23' : Res (LoopSt D D Nat (LMState D D) D (DVec D) (DMat D)) :=
  optimizeAcc (lmEnv sopts50 lin1 flaky1) (opts1 3) 10 (-1) 0
    (lmFresh sopts50 flaky1 (fun _ => ofInt 0) (fun _ _ => ofInt 0)) (ofInt 0)

/-- **C23 is violated** after a failed cost evaluation that is tried again: the user's Hessian is 1 at every point,
the run has four iterations and ends with an accepted step, the saved Hessian is not 1. -/
theorem C23_failed_evaluation :
    (∀ w x, (flaky1.acc.full w x 1 (fun _ => ofInt 0) (fun _ _ => ofInt 0)).1.2.2 0 0 = ofInt 1) ∧
    ∃ st, run23' = .ok st ∧ st.trace.length = 4 ∧ (st.trace.getLast?.map (·.succ)) = some true ∧
      st.out.succeeded = true ∧ ∃ h, st.out.finalHessian.map DMat.val = some h ∧ h ≠ ofInt 1 := by
  have h : run23'.holds (fun st => decide (st.trace.length = 4) && decide ((st.trace.getLast?.map (·.succ)) = some true) &&
      st.out.succeeded && (st.out.finalHessian.map DMat.val).any (fun h => decide (h ≠ ofInt 1))) = true := by decide +kernel
  refine ⟨fun w x => show (add (ofInt 0) (ofInt 1) : D) = ofInt 1 by decide +kernel, ?_⟩
  obtain ⟨st, h1, h2⟩ := Res.exists_of_holds h
  simp only [Bool.and_eq_true, decide_eq_true_eq] at h2
  refine ⟨st, h1, h2.1.1.1, h2.1.1.2, h2.1.2, ?_⟩
  have h3 := h2.2
  cases h4 : st.out.finalHessian.map DMat.val with
  | none => rw [h4] at h3; cases h3
  | some v =>
    rw [h4] at h3
    simp only [Option.any_some, decide_eq_true_eq] at h3
    exact ⟨v, rfl, h3⟩

/-! A run over ℝ meeting the hypotheses of `C23_saved_hessian_partial`: residual `x - 3`, damping 1, two
iterations. -/

noncomputable def linR : LinAlg ℝ where
  ldlt := fun _ A b => some (fun i => b i / A i i)
  inv := fun _ A => fun i j => 1 / A i j

noncomputable def lin3R : Problem ℝ ℝ Unit ℝ where
  acc :=
    { full := fun w x _ g H => (({ cost := min ((x - 3) * (x - 3)) 100, num := 1, inlier := 1 }, fun i => g i + (x - 3), fun i j => H i j + 1), w)
      eval := fun w x => ({ cost := min ((x - 3) * (x - 3)) 100, num := 1, inlier := 1 }, w) }
  dims := some 1
  dynDims := fun _ => 1
  plusEq := fun x d => if h : 0 < d.n then x + d.v ⟨0, h⟩ else x
  clock := fun w => (1, w)
  alloc := fun w _ => (none, w)
  ratio1 := 1

noncomputable def soptsR : SolverOpts ℝ where
  useSquaredNorm := true
  downscaleBy2 := false
  normalize := false
  gradClip := 0
  useLdlt := true
  hIsFull := true
  checkMinHDiag := 0
  dampInit := 1
  dampLo := 1 / 1000
  dampHi := 1000
  goodFactor := 1 / 3
  badFactor := 2
  lr := 1

theorem lin3R_usable : 0 ≤ soptsR.dampInit ∧ 0 < soptsR.dampLo ∧ soptsR.dampLo ≤ soptsR.dampHi ∧ (∀ x, UsableCost soptsR lin3R x) ∧ KeepsDims lin3R := by
  have hlt : ∀ a : ℝ, min a 100 < 2 ^ 1024 := fun a =>
    lt_of_le_of_lt (min_le_right _ _) (lt_of_lt_of_le (by norm_num : (100 : ℝ) < 2 ^ 7)
      (pow_le_pow_right₀ (by norm_num) (by norm_num)))
  refine ⟨by simp [soptsR], by simp [soptsR], by norm_num [soptsR], fun x => ⟨fun w => ⟨?_, ?_⟩, fun w n g H => ?_⟩, fun _ _ => rfl⟩
  · have := (hlt ((x - 3) * (x - 3))).ne
    simp only [normalizeCost, soptsR, lin3R, Cost.isValid, ne, if_true, Bool.false_and, Bool.false_eq_true, if_false]
    have h : eq (min ((x - 3) * (x - 3)) 100) (maxVal : ℝ) = false := by
      rw [RealOps.eq_eq_false]; exact this
    rw [h]; decide
  · exact hlt _
  · exact hlt _


def optsR (n : Nat) : Options ℝ Unit (DVec ℝ) where
  checkFinalCost := false
  useStepQuality := false
  saveLast := true
  maxIters := n
  minError := 0
  minRerrDec := 0
  minStepNorm2 := 0
  minGradNorm2 := 0
  maxTotalFailures := 0
  maxConsecFailures := 0
  maxDurationMs := 0
  stopCallback := none
  stopCallback2 := none

theorem lin3R_benign : Benign (lmEnv soptsR linR lin3R) (fun _ => True) (fun _ => True) where
  plus _ _ _ := trivial
  resize w s x _ _ := ⟨s, w, rfl, trivial⟩
  build w s x _ _ := by
    rcases hb : lmBuild soptsR lin3R w s x with ⟨b, s', w'⟩
    have key : b = true ∧ s'.gn.cost.isValid = true := by
      have hsp := lmBuild_spec hb
      generalize hp : (b, s', w') = p at hsp
      cases hsp with
      | rebuilt g1 w1 hr hb =>
        obtain ⟨rfl, rfl, -⟩ := hp
        rw [lmDamp_cost]
        obtain ⟨c, g, H, -, hs⟩ := buildSystem_spec hb
        cases hs with
        | ok h _ => exact ⟨rfl, h⟩
      | rebuildFail g1 w1 hr hb =>
        obtain ⟨rfl, rfl, -⟩ := hp
        obtain ⟨c, g, H, e, hs⟩ := buildSystem_spec hb
        cases hs with
        | invalid h =>
          have := ((lin3R_usable.2.2.2.1 x).eval ()).1
          obtain ⟨e, -⟩ := Prod.mk.inj e
          obtain ⟨rfl, -⟩ := Prod.mk.inj e
          exact absurd this (by rw [show (normalizeCost soptsR (lin3R.acc.eval () x).1) = _ from rfl]; exact Bool.not_eq_true _ ▸ h)
        | low h hl => simp [soptsR] at hl
      | evald c w1 hr he hv => obtain ⟨rfl, rfl, -⟩ := hp; rw [lmDamp_cost]; exact ⟨rfl, hv⟩
      | evalFail c w1 hr he hv =>
        have := ((lin3R_usable.2.2.2.1 x).eval w).1
        rw [he, hv] at this; cases this
    obtain ⟨rfl, hk⟩ := key
    have hs : gnSolve soptsR linR (lin3R.dims == some 1) s'.gn = some ⟨s'.gn.n, fun i => negVec s'.gn.g i / symUpper s'.gn.H i i⟩ := by
      unfold gnSolve
      rw [hk]
      rfl
    exact ⟨s', w', _, hb, trivial, hs, rfl, rfl⟩
  good s q _ := by
    show ∃ s', lmGood soptsR s q = .ok s' ∧ True
    unfold lmGood
    rw [stdClamp_real lin3R_usable.2.2.1]
    exact ⟨_, rfl, trivial⟩
  bad s _ := by
    show ∃ s', lmBad soptsR s = .ok s' ∧ True
    unfold lmBad
    rw [stdClamp_real lin3R_usable.2.2.1]
    exact ⟨_, rfl, trivial⟩
  rebuild _ _ _ := trivial

theorem noCriteria_optsR (n : Nat) : NoCriteria (optsR n) := by
  constructor <;> first | rfl | simp [optsR]

/-- runs with any number of iterations meet the hypotheses of `C23_saved_hessian_partial` -/
example (s : LMState ℝ ℝ) (x : ℝ) (k : Nat) (hk : k < 1000) :
    0 ≤ soptsR.dampInit ∧ 0 < soptsR.dampLo ∧ soptsR.dampLo ≤ soptsR.dampHi ∧ (∀ x, UsableCost soptsR lin3R x) ∧ KeepsDims lin3R ∧
    (optsR (k + 1)).saveLast = true ∧ (∀ m, loopBound (optsR (k + 1)) (-1) = some m → m ≤ 65536) ∧
    ∃ st, optimizeAcc (lmEnv soptsR linR lin3R) (optsR (k + 1)) 1 (-1) () (lmReset soptsR s) x = .ok st ∧
      1 < st.trace.length ∧ ∃ r, st.trace.getLast? = some r ∧ r.out.succeeded = true := by
  obtain ⟨h1, h2, h3, h4, h5⟩ := lin3R_usable
  have hb : loopBound (optsR (k + 1)) (-1) = some ((k : Int) + 2) := by
    have h6 : ¬ ((k : Int) + 1 + 1 + 1 > intMax) := by unfold intMax; omega
    simp only [loopBound, optsR]
    simp [h6]
    ring
  refine ⟨h1, h2, h3, h4, h5, rfl, fun m hm => ?_, ?_⟩
  · rw [hb] at hm; rw [← Option.some.inj hm]; omega
  · obtain ⟨st, e, hl, hr, hi⟩ := run_benign (fuel := 0) (w := ()) (s := lmReset soptsR s) (x := x) (noCriteria_optsR (k + 1)) lin3R_benign hb trivial trivial
    refine ⟨st, e, by omega, ?_⟩
    cases hq : st.trace.getLast? with
    | none => rw [List.getLast?_eq_none_iff] at hq; rw [hq] at hl; simp at hl; omega
    | some r =>
      refine ⟨r, rfl, ?_⟩
      have := (hr r (List.mem_of_getLast? hq)).1
      simp [Output.succeeded, this]

end Verif
