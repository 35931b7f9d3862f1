import Verif.Props.LmGlobal
import Verif.Props.Stuck
/-!
# C90: Levenberg-Marquardt recovers from rejected steps
-/

set_option linter.unusedSectionVars false

namespace Verif
open FloatOps Loss

section
variable {F R W S X V M : Type} [FloatOps F]
variable {E : Env F R W S X V M} {o : Options F W V} {Px : X → Prop} {I Z : S → Prop} {B N A : X → S → Prop}

/-- What an iteration that judged a step did to the solver: `t` is the state the step `dx` was solved from. -/
def Linked (E : Env F R W S X V M) (B : X → S → Prop) (x : X) (out : Output F R M) (p : Bool × Option V) (s' : S) (out' : Output F R M) : Prop :=
  ∃ t dx, B x t ∧ E.sol.solve t = some dx ∧ (p.2 = some dx ∨ p.2 = none ∧ out'.stop ≠ .kNone) ∧
    p.1 = lt (sub (E.sol.cost t).cost out.finalCost.cost) (ofInt 0) ∧
    out'.finalCost = (if p.1 = true ∨ out.numIters = 0 then E.sol.cost t else out.finalCost) ∧
    (if out.numIters > 0 then (if p.1 = true then ∃ q, E.sol.goodStep t q = .ok s' else E.sol.badStep t = .ok s') else s' = t)

theorem afterSolve_linked {x : X} {dx : V} {c : Cost F R} {w : W} {s : S}
    {out : Output F R M} {p w' s' out'} (hB : B x s) (hs : E.sol.solve s = some dx) (hc : E.sol.cost s = c)
    (hh : afterSolve E o dx c w s out = .ok (p, w', s', out')) :
    (p = (false, none) ∧ out'.stop ≠ .kNone) ∨ Linked E B x out p s' out' := by
  subst hc
  unfold afterSolve at hh
  simp only at hh
  split at hh
  · injection hh with hh; obtain ⟨rfl, -, rfl, rfl⟩ := hh; exact Or.inl ⟨rfl, by simp⟩
  · split at hh
    · injection hh with hh; obtain ⟨rfl, -, rfl, rfl⟩ := hh; exact Or.inl ⟨rfl, by simp⟩
    · split at hh
      next hgood =>
        rw [Res.bind_eq_ok] at hh
        obtain ⟨s1, h1, hh⟩ := hh
        injection hh with hh; obtain ⟨rfl, -, rfl, rfl⟩ := hh
        refine Or.inr ⟨s, dx, hB, hs, Or.inl rfl, rfl, ?_, ?_⟩
        · have h3 : lt (sub (E.sol.cost s).cost out.finalCost.cost) (ofInt 0) = true ∨ out.numIters = 0 := by
            rw [Bool.or_eq_true] at hgood
            rcases hgood with h2 | h2
            · exact Or.inl h2
            · exact Or.inr (by simpa using h2)
          show E.sol.cost s = _
          rw [if_pos h3]
        · split at h1
          next hit =>
            rw [if_pos hit]
            rw [Bool.or_eq_true] at hgood
            rcases hgood with h2 | h2
            · rw [if_pos h2]; exact ⟨_, h1⟩
            · simp at h2; omega
          next hit => rw [if_neg hit]; injection h1 with h1; exact h1.symm
      next hgood =>
        have hit : out.numIters > 0 := by
          rw [Bool.or_eq_true] at hgood
          refine Nat.pos_of_ne_zero fun h0 => hgood (Or.inr (by simp [h0]))
        have hgood' : lt (sub (E.sol.cost s).cost out.finalCost.cost) (ofInt 0) = false := by
          rw [Bool.or_eq_true, not_or] at hgood; exact Bool.not_eq_true _ ▸ hgood.1
        rw [Res.bind_eq_ok] at hh
        obtain ⟨s1, h1, hh⟩ := hh
        right
        split at hh
        · injection hh with hh; obtain ⟨rfl, -, rfl, rfl⟩ := hh
          exact ⟨s, dx, hB, hs, Or.inr ⟨rfl, by simp⟩, hgood'.symm, by simp [show out.numIters ≠ 0 by omega], by rw [if_pos hit]; exact h1⟩
        · split at hh
          · injection hh with hh; obtain ⟨rfl, -, rfl, rfl⟩ := hh
            exact ⟨s, dx, hB, hs, Or.inr ⟨rfl, by simp⟩, hgood'.symm, by simp [show out.numIters ≠ 0 by omega], by rw [if_pos hit]; exact h1⟩
          · injection hh with hh; obtain ⟨rfl, -, rfl, rfl⟩ := hh
            exact ⟨s, dx, hB, hs, Or.inl rfl, rfl, by simp [hgood', show out.numIters ≠ 0 by omega], by rw [if_pos hit, if_neg (by simp [hgood'])]; exact h1⟩

theorem step_linked (h : StepInv E Px I Z B N A) {fuel : Nat} {w : W} {s : S} {x : X}
    {out : Output F R M} {p w' s' out'} (hx : Px x) (hI : I s)
    (hh : step E o fuel w s x out = .ok (p, w', s', out')) :
    (p = (false, none) ∧ out'.stop ≠ .kNone) ∨ Linked E B x out p s' out' := by
  have hcode : ∀ r : StopReason, r.code < 0 → r ≠ .kNone := by rintro r h rfl; exact absurd h (by decide)
  unfold step at hh
  split at hh
  next r w1 hr =>
    injection hh with hh; obtain ⟨rfl, -, rfl, rfl⟩ := hh
    exact Or.inl ⟨rfl, hcode _ (FailCause.code (resizeIfNeeded_cause (o := o) (out := out) (a := 0) hr))⟩
  next s1 w1 hr =>
    rw [Res.bind_eq_ok] at hh
    obtain ⟨⟨e, w2, s2, out2⟩, h1, hh⟩ := hh
    obtain ⟨e1, e2, h3⟩ := retry_runinv h hx (resizeIfNeeded_runinv h hx hI hr) h1
    obtain ⟨a, b, r, ho, hs⟩ := retry_spec h1
    cases e with
    | ret =>
      injection hh with hh; obtain ⟨rfl, -, rfl, rfl⟩ := hh
      refine Or.inl ⟨rfl, hcode _ ?_⟩
      have h5 := FailCause.code hs
      rw [ho]; exact h5
    | failed =>
      injection hh with hh; obtain ⟨rfl, -, rfl, rfl⟩ := hh
      exact Or.inl ⟨rfl, by simp⟩
    | got dx c =>
      obtain ⟨hB, hsol, hc, -⟩ := h3
      have := afterSolve_linked hB hsol hc hh
      unfold Linked at this ⊢
      have e3 : out2.finalCost = out.finalCost := by rw [ho]; rfl
      rw [e1, e3] at this
      exact this

end

section
variable {R W : Type} {m n : Nat}
variable {so : SolverOpts ℝ} {LA : LinAlg ℝ} {P : Problem ℝ R W (Vec ℝ n)} {o : Options ℝ W (DVec ℝ)}
variable {r : Vec ℝ n → Vec ℝ m} {J : Vec ℝ n → Fin m → Fin n → ℝ} {φ : ℝ → ℝ} {R0 L δ B μ β : ℝ}

/-- lower bounds of the damping and of the factor of bad steps -/
def AtLeast (μ β : ℝ) (s : LMState ℝ R) : Prop := μ ≤ s.lambda ∧ β ≤ s.badF

theorem AtLeast.bad {s s' : LMState ℝ R} (h : AtLeast μ so.badFactor s) (hμ : 0 ≤ μ) (hβ : 1 ≤ so.badFactor) (hr0 : so.dampLo ≤ so.dampHi)
    (e : lmBad so s = .ok s') : AtLeast (min so.dampHi (μ * so.badFactor)) so.badFactor s' ∧ s'.gn = s.gn ∧ s'.prev = s.lambda ∧ s'.rebuild = s.rebuild := by
  obtain ⟨l, hl, rfl⟩ := lmBad_spec e
  rw [stdClamp_real hr0] at hl
  injection hl with hl
  refine ⟨⟨?_, ?_⟩, rfl, rfl, rfl⟩
  · show _ ≤ l
    rw [← hl, RealOps.mul_eq, min_comm]
    refine le_trans (min_le_min_right _ ?_) (le_max_right _ _)
    exact mul_le_mul h.1 h.2 (by linarith) (hμ.trans h.1)
  · show _ ≤ mul s.badF so.badFactor
    rw [RealOps.mul_eq]
    have := h.2
    nlinarith

theorem AtLeast.good {s s' : LMState ℝ R} {q : ℝ} (hr0 : so.dampLo ≤ so.dampHi) (e : lmGood so s q = .ok s') :
    AtLeast so.dampLo so.badFactor s' ∧ s'.gn = s.gn ∧ s'.rebuild = s.rebuild := by
  obtain ⟨l, hl, rfl⟩ := lmGood_spec e
  rw [stdClamp_real hr0] at hl
  injection hl with hl
  exact ⟨⟨by show _ ≤ l; rw [← hl]; exact le_max_left _ _, le_refl _⟩, rfl, rfl⟩

/-- the normalised cost at `x` -/
noncomputable def nlsCost (so : SolverOpts ℝ) (φ : ℝ → ℝ) (r : Vec ℝ n → Vec ℝ m) (x : Vec ℝ n) : ℝ := nCost so m (φ (dotR (r x) (r x)))

/-- an iteration that starts with the rebuild flag set -/
theorem lm_rebuild_inv (h : NonlinLS P (fun _ => True) r J φ) (hclip : so.gradClip = 0) (hr0 : so.dampLo ≤ so.dampHi) (hβ : 1 ≤ so.badFactor)
    (hμ : 0 < μ) (hμh : μ ≤ so.dampHi) :
    StepInv (lmEnv so LA P) (fun _ => True) (fun s => s.rebuild = true ∧ AtLeast μ so.badFactor s ∧ (P.dims = none ∨ s.gn.n = n))
      (fun s => s.rebuild = true ∧ AtLeast μ so.badFactor s ∧ s.gn.n = n)
      (fun x t => t.rebuild = true ∧ AtLeast μ so.badFactor t ∧ ∃ c, t.gn = ⟨n, tmv (J x) (r x), dampedR t.lambda (gram (J x)), c⟩ ∧
        c.cost = nlsCost so φ r x ∧ c.isValid = true)
      (fun _ s => s.rebuild = true ∧ AtLeast μ so.badFactor s ∧ s.gn.n = n) (fun _ _ => True) := by
  have hbad : ∀ s s' : LMState ℝ R, s.rebuild = true ∧ AtLeast μ so.badFactor s ∧ s.gn.n = n → lmBad so s = .ok s' →
      s'.rebuild = true ∧ AtLeast μ so.badFactor s' ∧ s'.gn.n = n := by
    rintro s s' ⟨h1, h2, h3⟩ e
    obtain ⟨a, b, -, d⟩ := h2.bad hμ.le hβ hr0 e
    refine ⟨d.trans h1, ⟨le_trans (le_min hμh ?_) a.1, a.2⟩, by rw [b]; exact h3⟩
    nlinarith
  exact
  { resize := fun w s x s' w' _ _ ⟨h1, h2, h3⟩ e => by
      obtain ⟨g, hg, rfl⟩ := lmResize_spec e
      obtain ⟨g', w1, hr, hn1, -⟩ := resize_works h.toVecParams w s.gn h3
      have hd : (lmEnv so LA P).dynDims x = n := h.dyn x
      rw [hd, hr] at hg
      injection (Prod.mk.inj hg).1 with hg
      subst hg
      exact ⟨h1, h2, hn1⟩
    build := fun w s x b s' w' _ ⟨h1, h2, h3⟩ e => by
      have hspec := lmBuild_spec (show lmBuild so P w s x = (b, s', w') from e)
      cases hspec with
      | rebuilt g1 w1 hr hb =>
        obtain ⟨c, g, H, e1, hsp⟩ := buildSystem_spec hb
        rw [if_pos rfl]
        obtain ⟨⟨sn, sg, sH, sc⟩, sl, sp, sb, sr⟩ := s
        simp only at h1 h3 e1
        subst h1 h3
        obtain ⟨c', w2, hu, hc, hn⟩ := h.full w x trivial
        rw [show P.acc.full w x sn (fun _ => ofInt 0) (fun _ _ => ofInt 0) = ((c', tmv (J x) (r x), gram (J x)), w2) from by simpa using hu] at e1
        simp only [Prod.mk.injEq] at e1
        obtain ⟨⟨rfl, rfl, rfl⟩, rfl⟩ := e1
        have hl0 : 0 ≤ sl := hμ.le.trans h2.1
        cases hsp with
        | ok hv hl =>
          rw [Unclipped.clamp (so := so) (Or.inl hclip), symUpper_of_sym (gram_sym (J x)), ite_self]
          rw [lmDamp_ls (s := ⟨⟨sn, sg, sH, sc⟩, sl, sp, sb, true⟩) rfl hl0]
          exact ⟨rfl, h2, _, rfl, by rw [normalizeCost_eq c' hn, hc]; rfl, hv⟩
      | rebuildFail g1 w1 hr hb =>
        rw [if_neg (by simp)]
        obtain ⟨c, g, H, e1, hsp⟩ := buildSystem_spec hb
        refine ⟨h1, h2, ?_⟩
        cases hsp with
        | invalid => exact h3
        | low => exact h3
      | evald c w1 hr => rw [h1] at hr; cases hr
      | evalFail c w1 hr => rw [h1] at hr; cases hr
    good := fun _ _ _ _ _ _ _ => trivial
    bad := fun _ _ _ _ _ => trivial
    failedB := fun x s s' ⟨h1, h2, c, h3, _⟩ e => hbad s s' ⟨h1, h2, by rw [h3]⟩ e
    failedN := fun x s s' h1 e => hbad s s' h1 e }


/-- an iteration that only evaluates the cost at `y`, with the gradient and the Hessian of `b` -/
theorem lm_eval_inv (h : NonlinLS P (fun _ => True) r J φ) (hr0 : so.dampLo ≤ so.dampHi) (hβ : 1 ≤ so.badFactor)
    (hμ : 0 < μ) (hμh : μ ≤ so.dampHi) (b y : Vec ℝ n) (hy : nlsCost so φ r y ≠ maxVal) :
    StepInv (lmEnv so LA P) (fun x => x = y)
      (fun s => s.rebuild = false ∧ AtLeast μ so.badFactor s ∧ 0 ≤ s.prev ∧ ∃ c, s.gn = ⟨n, tmv (J b) (r b), dampedR s.prev (gram (J b)), c⟩)
      (fun s => s.rebuild = false ∧ AtLeast μ so.badFactor s ∧ 0 ≤ s.prev ∧ ∃ c, s.gn = ⟨n, tmv (J b) (r b), dampedR s.prev (gram (J b)), c⟩)
      (fun x t => t.rebuild = false ∧ AtLeast μ so.badFactor t ∧ ∃ c, t.gn = ⟨n, tmv (J b) (r b), dampedR t.lambda (gram (J b)), c⟩ ∧
        c.cost = nlsCost so φ r x ∧ c.isValid = true)
      (fun _ _ => False) (fun _ _ => True) where
  resize := fun w s x s' w' _ _ hI e => by
    obtain ⟨h1, h2, h0, c, h3⟩ := hI
    obtain ⟨g, hg, rfl⟩ := lmResize_spec e
    have hn : s.gn.n = n := by rw [h3]
    obtain ⟨g', w1, hr, -, hid⟩ := resize_works h.toVecParams w s.gn (Or.inr hn)
    have hd : (lmEnv so LA P).dynDims x = n := h.dyn x
    rw [hd, hr, hid hn] at hg
    injection (Prod.mk.inj hg).1 with hg
    subst hg
    exact ⟨h1, h2, h0, c, h3⟩
  build := fun w s x b' s' w' hx hI e => by
    subst hx
    obtain ⟨h1, h2, h0, c, h3⟩ := hI
    have hspec := lmBuild_spec (show lmBuild so P w s x = (b', s', w') from e)
    have hE := h.eval w x trivial
    have hval : ∀ c', (P.acc.eval w x).1 = c' → (normalizeCost so c').cost = nlsCost so φ r x ∧ (normalizeCost so c').isValid = true := by
      rintro c' rfl
      have hcost : (normalizeCost so (P.acc.eval w x).1).cost = nlsCost so φ r x := by rw [normalizeCost_eq _ hE.2, hE.1]; rfl
      have h4 : eq (normalizeCost so (P.acc.eval w x).1).cost maxVal = false := by rw [RealOps.eq_eq_false, hcost]; exact hy
      have h5 := h.pos
      refine ⟨hcost, ?_⟩
      unfold Cost.isValid ne
      rw [h4, normalizeCost_num, hE.2]
      simpa using h5
    cases hspec with
    | rebuilt g1 w1 hr => rw [h1] at hr; cases hr
    | rebuildFail g1 w1 hr => rw [h1] at hr; cases hr
    | evalFail c' w1 hr he hv =>
      rw [(hval c' (by rw [he])).2] at hv; cases hv
    | evald c' w1 hr he hv =>
      rw [if_pos rfl]
      obtain ⟨hc, -⟩ := hval c' (by rw [he])
      have hl0 : 0 < s.lambda := hμ.trans_le h2.1
      have hk : (1 + s.lambda) / (1 + s.prev) * (1 + s.prev) - 1 = s.lambda := by
        rw [div_mul_cancel₀ _ (by linarith)]; ring
      have : lmDamp { s with gn := { s.gn with cost := normalizeCost so c' } } =
          { s with gn := ⟨n, tmv (J b) (r b), dampedR s.lambda (gram (J b)), normalizeCost so c'⟩ } := by
        rw [h3]
        unfold lmDamp
        simp only [h1, Bool.false_eq_true, if_false]
        rw [if_pos (by simpa using hl0)]
        rw [← hk, ← scale_damped]
        simp [hk]
      rw [this]
      exact ⟨h1, h2, _, rfl, hc, hv⟩
  good := fun _ _ _ _ _ _ _ => trivial
  bad := fun _ _ _ _ _ => trivial
  failedB := fun x s s' hB e => by
    obtain ⟨h1, h2, c, h3, -⟩ := hB
    obtain ⟨a, b', d, f⟩ := h2.bad hμ.le hβ hr0 e
    refine ⟨f.trans h1, ⟨le_trans (le_min hμh (by nlinarith)) a.1, a.2⟩, by rw [d]; exact hμ.le.trans h2.1, c, by rw [b', h3, d]⟩
  failedN := fun x s s' h1 e => h1.elim

/-- an iteration that only evaluates the cost, which is not usable -/
theorem lm_unusable_inv (h : NonlinLS P (fun _ => True) r J φ) (y : Vec ℝ n) (hy : nlsCost so φ r y = maxVal) :
    StepInv (lmEnv so LA P) (fun x => x = y) (fun s => s.rebuild = false) (fun s => s.rebuild = false) (fun _ _ => False) (fun _ s => s.rebuild = false)
      (fun _ _ => True) where
  resize := fun w s x s' w' _ _ hI e => by
    obtain ⟨g, hg, rfl⟩ := lmResize_spec e
    exact hI
  build := fun w s x b' s' w' hx h1 e => by
    subst hx
    have hspec := lmBuild_spec (show lmBuild so P w s x = (b', s', w') from e)
    have hE := h.eval w x trivial
    cases hspec with
    | rebuilt g1 w1 hr => rw [h1] at hr; cases hr
    | rebuildFail g1 w1 hr => rw [h1] at hr; cases hr
    | evalFail c' w1 hr he hv => rw [if_neg (by simp)]; exact h1
    | evald c' w1 hr he hv =>
      rw [he] at hE
      have hcost : (normalizeCost so c').cost = maxVal := by rw [normalizeCost_eq _ hE.2, hE.1]; exact hy
      unfold Cost.isValid ne at hv
      rw [hcost] at hv
      simp at hv
  good := fun _ _ _ _ _ _ _ => trivial
  bad := fun _ _ _ _ _ => trivial
  failedB := fun x s s' hB e => hB.elim
  failedN := fun x s s' h1 e => by obtain ⟨l, hl, rfl⟩ := lmBad_spec e; exact h1


/-- the solver is about to use the gradient and the Hessian of `b` in an iteration at `x` -/
def Using (P : Problem ℝ R W (Vec ℝ n)) (r : Vec ℝ n → Vec ℝ m) (J : Vec ℝ n → Fin m → Fin n → ℝ) (b x : Vec ℝ n) (s : LMState ℝ R) : Prop :=
  (s.rebuild = true ∧ b = x ∧ (P.dims = none ∨ s.gn.n = n)) ∨
  (s.rebuild = false ∧ 0 ≤ s.prev ∧ ∃ c, s.gn = ⟨n, tmv (J b) (r b), dampedR s.prev (gram (J b)), c⟩)

/-- the solver state a step is solved from -/
def Built (so : SolverOpts ℝ) (φ : ℝ → ℝ) (r : Vec ℝ n → Vec ℝ m) (J : Vec ℝ n → Fin m → Fin n → ℝ) (μ : ℝ) (b x : Vec ℝ n) (t : LMState ℝ R) : Prop :=
  AtLeast μ so.badFactor t ∧ ∃ c, t.gn = ⟨n, tmv (J b) (r b), dampedR t.lambda (gram (J b)), c⟩ ∧ c.cost = nlsCost so φ r x ∧ c.isValid = true

theorem Linked.imp {F R W S X V M : Type} [FloatOps F] {E : Env F R W S X V M} {B B' : X → S → Prop} {x : X} {out out' : Output F R M} {p : Bool × Option V} {s' : S}
    (h : Linked E B x out p s' out') (hB : ∀ t, B x t → B' x t) : Linked E B' x out p s' out' := by
  obtain ⟨t, dx, h1, h2⟩ := h
  exact ⟨t, dx, hB t h1, h2⟩

theorem lm_iter (h : NonlinLS P (fun _ => True) r J φ) (hclip : so.gradClip = 0) (hr0 : so.dampLo ≤ so.dampHi) (hβ : 1 ≤ so.badFactor)
    (hμ : 0 < μ) (hμh : μ ≤ so.dampHi) {fuel : Nat} {w : W} {s : LMState ℝ R} {b x : Vec ℝ n} {out : Output ℝ R (DMat ℝ)} {p w' s' out'}
    (hal : AtLeast μ so.badFactor s) (hs : Using P r J b x s) (hh : step (lmEnv so LA P) o fuel w s x out = .ok (p, w', s', out')) :
    (p = (false, none) ∧ out'.stop ≠ .kNone) ∨
      Linked (lmEnv so LA P) (fun x t => t.rebuild = s.rebuild ∧ Built so φ r J μ b x t) x out p s' out' := by
  rcases hs with ⟨h1, rfl, h2⟩ | ⟨h1, h2, h3⟩
  · rcases step_linked (lm_rebuild_inv h hclip hr0 hβ hμ hμh) trivial ⟨h1, hal, h2⟩ hh with h4 | h4
    · exact Or.inl h4
    · exact Or.inr (h4.imp fun t ⟨a, b, c⟩ => ⟨a.trans h1.symm, b, c⟩)
  · by_cases hy : nlsCost so φ r x = maxVal
    · rcases step_linked (lm_unusable_inv h x hy) rfl h1 hh with h4 | ⟨t, dx, h4, -⟩
      · exact Or.inl h4
      · exact h4.elim
    · rcases step_linked (lm_eval_inv h hr0 hβ hμ hμh b x hy) rfl ⟨h1, hal, h2, h3⟩ hh with h4 | h4
      · exact Or.inl h4
      · exact Or.inr (h4.imp fun t ⟨a, b, c⟩ => ⟨a.trans h1.symm, b, c⟩)

theorem gnSolve_n {one : Bool} {s : GNState ℝ R} {dx : DVec ℝ} (h : gnSolve so LA one s = some dx) : dx.n = s.n := by
  unfold gnSolve at h
  split at h
  · split at h
    · rcases e : solveLDLT LA s.H (negVec s.g) with _ | v
      · rw [e] at h; cases h
      · rw [e] at h; injection h with h; subst h; rfl
    · simp only at h
      split at h
      · split at h
        · split at h <;> (injection h with h; subst h; rfl)
        · injection h with h; subst h; rfl
      · injection h with h; subst h; rfl
  · cases h

/-- the damping after `k` rejected steps -/
noncomputable def lamAt (so : SolverOpts ℝ) (lo : ℝ) (k : Nat) : ℝ := min so.dampHi (lo * so.badFactor ^ k)

/-- State of a run whose last accepted iteration is `p`, followed by the rejected iterations `U`. -/
structure Trying (so : SolverOpts ℝ) (P : Problem ℝ R W (Vec ℝ n)) (φ : ℝ → ℝ) (r : Vec ℝ n → Vec ℝ m) (J : Vec ℝ n → Fin m → Fin n → ℝ) (R0 lo : ℝ)
    (st : LoopSt ℝ R W (LMState ℝ R) (Vec ℝ n) (DVec ℝ) (DMat ℝ)) (T U : List (Rec ℝ R (Vec ℝ n) (DVec ℝ) (DMat ℝ)))
    (p : Rec ℝ R (Vec ℝ n) (DVec ℝ) (DMat ℝ)) : Prop where
  trace : st.trace = T ++ p :: U
  succ : p.succ = true
  rej : ∀ u ∈ U, u.succ = false
  level : nrm (r p.x) ≤ R0
  final : st.out.finalCost.cost = nlsCost so φ r p.x
  lam : AtLeast (lamAt so lo U.length) so.badFactor st.s
  lastSucc : st.lastSucc = decide (U.length = 0)
  using_ : if U.length = 0 then st.s.rebuild = true ∧ st.s.gn.n = n else Using P r J p.x p.x st.s ∧ (st.s.rebuild = decide (U.length = 1))
  pos : if U.length % 2 = 1 then st.x = p.x ∧ st.lastDx = none else
    ∃ d, st.x = p.x + d ∧ st.lastDx = some ⟨n, d⟩ ∧
      (0 < U.length → ∃ l, lamAt so lo (U.length - 1) ≤ l ∧ mv (dampedR l (gram (J p.x))) d = -tmv (J p.x) (r p.x))


theorem lamAt_succ {lo : ℝ} (hlo : 0 < lo) (hhi : 0 < so.dampHi) (hβ : 1 ≤ so.badFactor) (k : Nat) :
    lamAt so lo (k + 1) ≤ min so.dampHi (lamAt so lo k * so.badFactor) := by
  unfold lamAt
  refine le_min (min_le_left _ _) ?_
  by_cases h : so.dampHi ≤ lo * so.badFactor ^ k
  · rw [min_eq_left h]
    exact (min_le_left _ _).trans (by nlinarith)
  · rw [min_eq_right (not_le.mp h).le]
    exact (min_le_right _ _).trans (by rw [pow_succ, mul_assoc])

theorem lamAt_pos {lo : ℝ} (hlo : 0 < lo) (hhi : 0 < so.dampHi) (hβ : 1 ≤ so.badFactor) (k : Nat) : 0 < lamAt so lo k :=
  lt_min hhi (mul_pos hlo (pow_pos (by linarith) k))

theorem lamAt_le {lo : ℝ} (k : Nat) : lamAt so lo k ≤ so.dampHi := min_le_left _ _

theorem lamAt_mono {lo : ℝ} (hlo : 0 < lo) (hβ : 1 ≤ so.badFactor) {k k' : Nat} (h : k ≤ k') : lamAt so lo k ≤ lamAt so lo k' :=
  min_le_min_left _ (mul_le_mul_of_nonneg_left (pow_le_pow_right₀ hβ h) hlo.le)

theorem AtLeast.weaken {μ' : ℝ} {s : LMState ℝ R} (h : AtLeast μ β s) (hle : μ' ≤ μ) : AtLeast μ' β s := ⟨hle.trans h.1, h.2⟩

theorem nlsCost_lt (h : NonlinLS P (fun _ => True) r J φ) {x y : Vec ℝ n} : nlsCost so φ r x < nlsCost so φ r y ↔ nrm (r x) < nrm (r y) := by
  constructor
  · intro h1
    by_contra h2
    rcases (not_lt.mp h2).lt_or_eq with h3 | h3
    · exact absurd h1 (not_lt.mpr (h.nCost_lt (so := so) h3).le)
    · have : dotR (r x) (r x) = dotR (r y) (r y) := by rw [← nrm_sq, ← nrm_sq, h3]
      unfold nlsCost at h1
      rw [this] at h1
      exact lt_irrefl _ h1
  · exact h.nCost_lt

/-- the next state after an accepted iteration -/
theorem trying_accept (h : NonlinLS P (fun _ => True) r J φ) (hr0 : so.dampLo ≤ so.dampHi) {lo : ℝ} (hlo1 : lo ≤ so.dampLo)
    {st st' : LoopSt ℝ R W (LMState ℝ R) (Vec ℝ n) (DVec ℝ) (DMat ℝ)} {fuel : Nat} {mdx : Option (DVec ℝ)} {w1 s1 out1 ms}
    {b : Vec ℝ n} {μ : ℝ} (hs : BodySpec (lmEnv so LA P) o st st' true mdx w1 s1 out1 ms) (hls : st'.lastSucc = true) (hreb : st'.s = { s1 with rebuild := true })
    {t : LMState ℝ R} {dx : DVec ℝ} (hB : Built so φ r J μ b st.x t) (hsol : gnSolve so LA (P.dims == some 1) t.gn = some dx) (hm : mdx = some dx)
    (hfin : out1.finalCost = t.gn.cost) (hhook : (∃ q, lmGood so t q = .ok s1) ∨ s1 = t ∧ lo ≤ t.lambda ∧ so.badFactor ≤ t.badF) (hlev : nrm (r st.x) ≤ R0) :
    ∃ p, Trying so P φ r J R0 lo st' st.trace [] p ∧ p.x = st.x := by
  obtain ⟨-, c, hgn, hcost, -⟩ := hB
  have hn : dx.n = n := by have := gnSolve_n hsol; rw [hgn] at this; exact this
  obtain ⟨dn, d⟩ := dx
  simp only at hn
  subst hn
  have hal : AtLeast lo so.badFactor s1 ∧ s1.gn = t.gn := by
    rcases hhook with ⟨q, hq⟩ | ⟨rfl, h1, h2⟩
    · obtain ⟨a, b, -⟩ := AtLeast.good hr0 hq
      exact ⟨a.weaken hlo1, b⟩
    · exact ⟨⟨h1, h2⟩, rfl⟩
  have hxd : st'.x = st.x + d ∧ st'.lastDx = some ⟨dn, d⟩ := by
    have := hs.upd
    subst hm
    revert this
    generalize st'.x = x1
    generalize st'.lastDx = l1
    generalize st'.lastSucc = b1
    intro this
    cases this with
    | succ dx => exact ⟨h.plus _ _, rfl⟩
  refine ⟨⟨st.x, true, mdx, out1, st'.x⟩, ⟨hs.trace, rfl, by simp, hlev, ?_, ?_, by rw [hls]; rfl, ?_, ?_⟩, rfl⟩
  · rw [hs.out, hfin, hgn]; exact hcost
  · rw [hreb]
    exact ⟨(by unfold lamAt; simp : lamAt so lo 0 ≤ lo).trans hal.1.1, hal.1.2⟩
  · rw [if_pos List.length_nil, hreb]
    exact ⟨rfl, by show s1.gn.n = _; rw [hal.2, hgn]⟩
  · rw [if_neg (by simp)]
    exact ⟨d, hxd.1, hxd.2, fun h => absurd h (by simp)⟩


/-- the next state after a rejected iteration -/
theorem trying_reject (h : NonlinLS P (fun _ => True) r J φ) (hsm : SmoothRes r J R0 L δ B) (hL : ExactLinAlg LA)
    (hone : so.useLdlt = true ∨ P.dims ≠ some 1) (hr0 : so.dampLo ≤ so.dampHi) (hβ : 1 ≤ so.badFactor)
    {lo : ℝ} (hlo : 0 < lo) (hhi : 0 < so.dampHi)
    {st st' : LoopSt ℝ R W (LMState ℝ R) (Vec ℝ n) (DVec ℝ) (DMat ℝ)} {T U : List (Rec ℝ R (Vec ℝ n) (DVec ℝ) (DMat ℝ))}
    {p : Rec ℝ R (Vec ℝ n) (DVec ℝ) (DMat ℝ)} (hT : Trying so P φ r J R0 lo st T U p) {mdx : Option (DVec ℝ)} {w1 s1 out1 ms}
    (hs : BodySpec (lmEnv so LA P) o st st' false mdx w1 s1 out1 ms) (hls : st'.lastSucc = false) (hreb : st'.s = { s1 with rebuild := st.lastSucc })
    {t : LMState ℝ R} {dx : DVec ℝ} (hB : Built so φ r J (lamAt so lo U.length) (if U.length = 0 then st.x else p.x) st.x t)
    (hsol : gnSolve so LA (P.dims == some 1) t.gn = some dx) (hm : mdx = some dx)
    (hfin : out1.finalCost = st.out.finalCost) (hhook : lmBad so t = .ok s1) :
    ∃ u, Trying so P φ r J R0 lo st' T (U ++ [u]) p := by
  obtain ⟨hal, c, hgn, hcost, hv⟩ := hB
  obtain ⟨a1, a2, a3, a4⟩ := hal.bad (lamAt_pos hlo hhi hβ _).le hβ hr0 hhook
  have ht0 : 0 < t.lambda := (lamAt_pos hlo hhi hβ U.length).trans_le hal.1
  refine ⟨⟨st.x, false, mdx, out1, st'.x⟩, ⟨by rw [hs.trace, hT.trace]; simp, hT.succ, ?_, hT.level, ?_, ?_, ?_, ?_, ?_⟩⟩
  · intro u hu
    rw [List.mem_append, List.mem_singleton] at hu
    rcases hu with hu | rfl
    · exact hT.rej u hu
    · rfl
  · rw [hs.out, hfin]; exact hT.final
  · rw [hreb, List.length_append]
    exact ⟨(lamAt_succ hlo hhi hβ _).trans a1.1, a1.2⟩
  · rw [hls]; simp
  · rw [if_neg (by simp)]
    refine ⟨?_, ?_⟩
    · rw [hreb, hT.lastSucc]
      by_cases h0 : U.length = 0
      · left
        refine ⟨by simp [h0], rfl, Or.inr ?_⟩
        show s1.gn.n = n
        rw [a2, hgn]
      · right
        rw [if_neg h0] at hgn
        refine ⟨by simp [h0], by show 0 ≤ s1.prev; rw [a3]; exact ht0.le, c, ?_⟩
        show s1.gn = ⟨n, _, dampedR s1.prev _, c⟩
        rw [a2, hgn, a3]
    · rw [hreb, hT.lastSucc]; simp
  · have hpos := hT.pos
    have hupd := hs.upd
    subst hm
    simp only [List.length_append, List.length_cons, List.length_nil]
    by_cases hk : U.length % 2 = 1
    · rw [if_pos hk] at hpos
      rw [if_neg (by omega)]
      have hk0 : U.length ≠ 0 := by omega
      rw [if_neg hk0] at hgn
      have hpd : PD (dampedR t.lambda (gram (J p.x))) := damped_pd (gram_psd _) (fun i => hsm.posδ.trans_le (hsm.col _ i hT.level)) ht0
      obtain ⟨v, h1, h2⟩ := gnSolve_pd (so := so) hL (P.dims == some 1) ⟨n, tmv (J p.x) (r p.x), dampedR t.lambda (gram (J p.x)), c⟩ hv hpd (by
        rcases hone with h1 | h1
        · exact Or.inl h1
        · exact Or.inr (Or.inl (by rw [beq_eq_false_iff_ne]; exact h1)))
      rw [hgn, h1] at hsol
      obtain rfl := Option.some.inj hsol
      revert hupd
      generalize st'.x = x1
      generalize st'.lastDx = l1
      generalize st'.lastSucc = b1
      intro hupd
      cases hupd with
      | roll d' _ h3 => rw [hpos.2] at h3; cases h3
      | adv dx _ => exact ⟨v, by rw [hpos.1]; exact h.plus _ _, rfl, fun _ => ⟨t.lambda, hal.1, h2⟩⟩
    · rw [if_neg hk] at hpos
      rw [if_pos (by omega)]
      obtain ⟨d, hx, hld, -⟩ := hpos
      revert hupd
      generalize st'.x = x1
      generalize st'.lastDx = l1
      generalize st'.lastSucc = b1
      intro hupd
      cases hupd with
      | roll d' _ h3 =>
        rw [hld] at h3
        obtain rfl := Option.some.inj h3
        refine ⟨?_, rfl⟩
        show P.plusEq st.x ⟨n, negVec d⟩ = p.x
        rw [h.plus, hx]
        funext i
        simp [negVec]
      | adv dx h3 => rw [hld] at h3; cases h3


theorem split_unique {F R X V M : Type} {T T' U U' : List (Rec F R X V M)} {p p' : Rec F R X V M} (h : T ++ p :: U = T' ++ p' :: U')
    (hp : p.succ = true) (hp' : p'.succ = true) (hU : ∀ u ∈ U, u.succ = false) (hU' : ∀ u ∈ U', u.succ = false) : p = p' ∧ U = U' := by
  rcases List.append_eq_append_iff.mp h with ⟨a, h1, h2⟩ | ⟨a, h1, h2⟩
  · cases a with
    | nil => simpa using h2
    | cons q a =>
      rw [List.cons_append, List.cons.injEq] at h2
      have := hU p' (by rw [h2.2]; simp)
      rw [hp'] at this; cases this
  · cases a with
    | nil => simpa [eq_comm] using h2
    | cons q a =>
      rw [List.cons_append, List.cons.injEq] at h2
      have := hU' p (by rw [h2.2]; simp)
      rw [hp] at this; cases this

/-- **C90**: Levenberg-Marquardt (exact arithmetic, at most 65536 iterations, a solver that starts with a rebuilt system, no clipping, factor of bad steps at least 1)
on any nonlinear least squares problem with a Lipschitz Jacobian without small columns, `K` rejected steps being enough for the damping to reach `L |r(x0)| / δ`:
if an accepted iteration at `p.x` is followed by more than `K + 2` rejected ones and the run goes on, `p.x` is a stationary point. In other words at any other point
one of the next `K + 3` steps is accepted, or the run stops. -/
theorem C90_lm_recovers_partial (h : NonlinLS P (fun _ => True) r J φ) (hsm : SmoothRes r J R0 L δ B) (hL : ExactLinAlg LA)
    (hone : so.useLdlt = true ∨ P.dims ≠ some 1) (hr0 : so.dampLo ≤ so.dampHi) (hβ : 1 ≤ so.badFactor) (hclip : so.gradClip = 0)
    {lo : ℝ} (hlo : 0 < lo) (hlo1 : lo ≤ so.dampLo) {K : Nat} (hK : L * R0 ≤ lo * so.badFactor ^ K * δ) (hK' : L * R0 ≤ so.dampHi * δ)
    (s : LMState ℝ R) (hs : P.dims = none ∨ s.gn.n = n) (hreb : s.rebuild = true) (hsl : lo ≤ s.lambda) (hsb : so.badFactor ≤ s.badF)
    {fuel : Nat} {mi : Int} (hmi : budget o mi ≤ 65536) {w : W} {x0 : Vec ℝ n} (hx0 : nrm (r x0) ≤ R0) (hc0 : nCost so m (φ (dotR (r x0) (r x0))) < maxVal)
    {st : LoopSt ℝ R W (LMState ℝ R) (Vec ℝ n) (DVec ℝ) (DMat ℝ)} (hr : optimizeAcc (lmEnv so LA P) o fuel mi w s x0 = .ok st) :
    ∀ T U p q rest, st.trace = T ++ p :: U ++ q :: rest → p.succ = true → (∀ u ∈ U, u.succ = false) → K + 2 < U.length →
      tmv (J p.x) (r p.x) = 0 := by
  have hhi : 0 < so.dampHi := hlo.trans_le (hlo1.trans hr0)
  have hlam0 : lamAt so lo 0 = lo := by unfold lamAt; simp [hlo1.trans hr0]
  have hKm : L * R0 ≤ lamAt so lo K * δ := by
    unfold lamAt
    rcases min_choice so.dampHi (lo * so.badFactor ^ K) with e | e <;> rw [e] <;> assumption
  obtain ⟨m', st0, hm, hj, hlen, hst⟩ := run_inv2
    (I := fun st => st.out.numIters = st.trace.length % 65536 ∧
      (st.trace.length ≤ 65536 → (∀ T U p q rest, st.trace = T ++ p :: U ++ q :: rest → p.succ = true → (∀ u ∈ U, u.succ = false) → K + 2 < U.length →
        tmv (J p.x) (r p.x) = 0) ∧ (st = initSt (lmEnv so LA P) w s x0 ∨ ∃ T U p, Trying so P φ r J R0 lo st T U p ∧
        ∀ j, j % 2 = 0 → 2 ≤ j → K + 1 ≤ j → j < U.length → tmv (J p.x) (r p.x) = 0)))
    (J := fun st => st.trace.length ≤ 65536 → ∀ T U p q rest, st.trace = T ++ p :: U ++ q :: rest → p.succ = true → (∀ u ∈ U, u.succ = false) → K + 2 < U.length →
      tmv (J p.x) (r p.x) = 0)
    (fun last st st' hno h1 hb => by
      obtain ⟨hni, hgo⟩ := h1
      obtain ⟨succ, mdx, w1, s1, out1, ms, hstep, hbs, hsol, hls⟩ := body_flag hb
      have hni' := numIters_inv hb hni
      have hrun : st'.out.stop = .kNone → out1.stop = .kNone := fun hn => timeStop_none (by rw [hbs.out] at hn; exact hn)
      have hl1 : st'.trace.length = st.trace.length + 1 := by rw [hbs.trace]; simp
      have hwin : st'.trace.length ≤ 65536 → ∀ T U p q rest, st'.trace = T ++ p :: U ++ q :: rest → p.succ = true → (∀ u ∈ U, u.succ = false) →
          K + 2 < U.length → tmv (J p.x) (r p.x) = 0 := by
        intro hl T U p q rest ht hp hU hlen
        obtain ⟨hw, hstate⟩ := hgo (by omega)
        rw [hbs.trace] at ht
        rcases List.eq_nil_or_concat rest with rfl | ⟨rest', q', rfl⟩
        · have ht' : st.trace = T ++ p :: U := by
            rw [List.append_inj_left' ht rfl]
          rcases hstate with rfl | ⟨T0, U0, p0, hT, hfew⟩
          · have := congrArg List.length ht'
            simp [initSt] at this
          · obtain ⟨rfl, rfl⟩ := split_unique (ht'.symm.trans hT.trace) hp hT.succ hU hT.rej
            by_cases hpar : K % 2 = 0
            · exact hfew (K + 2) (by omega) (by omega) (by omega) (by omega)
            · exact hfew (K + 1) (by omega) (by omega) (by omega) (by omega)
        · refine hw T U p q rest' ?_ hp hU hlen
          have : st.trace ++ [⟨st.x, succ, mdx, out1, st'.x⟩] = (T ++ p :: U ++ q :: rest') ++ [q'] := by rw [ht]; simp
          exact List.append_inj_left' this rfl
      refine ⟨fun hn hla => ⟨hni', fun hl => ⟨hwin hl, Or.inr ?_⟩⟩, hwin⟩
      obtain ⟨-, hstate⟩ := hgo (by omega)
      rcases hstate with rfl | ⟨T, U, p, hT, hfew⟩
      · -- the first iteration
        rcases lm_iter h hclip hr0 hβ (lamAt_pos hlo hhi hβ 0) (lamAt_le (so := so) (lo := lo) 0) (b := x0) (x := x0)
          (by rw [hlam0]; exact ⟨hsl, hsb⟩) (Or.inl ⟨hreb, rfl, hs⟩) hstep with ⟨-, h2⟩ | ⟨t, dx, ⟨-, hB⟩, hso, hmd, hsu, hfc, hhk⟩
        · exact absurd (hrun hn) h2
        · have hmd' : mdx = some dx := hmd.resolve_right fun h2 => h2.2 (hrun hn)
          have hsu : succ = true := by
            have hsu : succ = _ := hsu
            rw [hsu]
            obtain ⟨-, c, hgn, hcost, -⟩ := hB
            have : ((lmEnv so LA P).sol.cost t).cost = nlsCost so φ r x0 := by show t.gn.cost.cost = _; rw [hgn]; exact hcost
            rw [this]
            simp only [initSt, Output.init, RealOps.sub_eq, RealOps.lt_eq, RealOps.ofInt_eq]
            have h3 : nlsCost so φ r x0 < maxVal := hc0
            simpa using h3
          subst hsu
          have hhk : s1 = t := hhk
          obtain ⟨p, hT, -⟩ := trying_accept (R0 := R0) (lo := lo) (fuel := fuel) h hr0 hlo1 hbs hls (by rw [hsol, hla]; simp; rfl) hB hso hmd'
            (by rw [hfc, if_pos (Or.inl rfl)]; rfl)
            (Or.inr ⟨hhk, by rw [← hlam0]; exact hB.1.1, hB.1.2⟩) hx0
          exact ⟨_, _, p, hT, fun j _ _ _ h => absurd h (by simp)⟩
      · have hn0 : st.out.numIters > 0 := by
          have h2 : st.trace.length = T.length + (U.length + 1) := by rw [hT.trace]; simp
          rw [hni]; omega
        have husing : Using P r J (if U.length = 0 then st.x else p.x) st.x st.s := by
          have h2 := hT.using_
          by_cases h0 : U.length = 0
          · rw [if_pos h0] at h2 ⊢
            exact Or.inl ⟨h2.1, rfl, Or.inr h2.2⟩
          · rw [if_neg h0] at h2 ⊢
            rcases h2 with ⟨⟨a, -, b⟩ | h2, hr1⟩
            · rw [a] at hr1
              have hU1 : U.length = 1 := by simpa using hr1.symm
              have hpos := hT.pos
              rw [if_pos (by omega)] at hpos
              exact Or.inl ⟨a, hpos.1.symm, b⟩
            · exact Or.inr h2
        rcases lm_iter h hclip hr0 hβ (lamAt_pos hlo hhi hβ U.length) (lamAt_le (so := so) (lo := lo) U.length) hT.lam husing hstep with
          ⟨-, h2⟩ | ⟨t, dx, ⟨-, hB⟩, hso, hmd, hsu, hfc, hhk⟩
        · exact absurd (hrun hn) h2
        · have hmd' : mdx = some dx := hmd.resolve_right fun h2 => h2.2 (hrun hn)
          have hcost : ((lmEnv so LA P).sol.cost t).cost = nlsCost so φ r st.x := by
            obtain ⟨-, c, hgn, hcost, -⟩ := hB
            show t.gn.cost.cost = _; rw [hgn]; exact hcost
          rw [hcost, hT.final] at hsu
          rw [if_pos hn0] at hhk
          cases succ with
          | true =>
            have hlt : nlsCost so φ r st.x < nlsCost so φ r p.x := by
              have h3 := hsu.symm
              simp only [RealOps.sub_eq, RealOps.lt_eq, RealOps.ofInt_eq] at h3
              simpa using h3
            have hlev : nrm (r st.x) ≤ R0 := ((nlsCost_lt h).mp hlt).le.trans hT.level
            rw [if_pos rfl] at hhk
            obtain ⟨p', hT', -⟩ := trying_accept (R0 := R0) (lo := lo) (fuel := fuel) h hr0 hlo1 hbs hls (by rw [hsol, hla]; simp; rfl) hB hso hmd'
              (by rw [hfc, if_pos (Or.inl rfl)]; rfl) (Or.inl hhk) hlev
            exact ⟨_, _, p', hT', fun j _ _ _ h => absurd h (by simp)⟩
          | false =>
            rw [if_neg (by simp)] at hhk
            obtain ⟨u, hT'⟩ := trying_reject h hsm hL hone hr0 hβ hlo hhi hT hbs hls (by rw [hsol]; rfl) hB hso hmd'
              (by rw [hfc, if_neg]; simp; omega) hhk
            refine ⟨_, _, p, hT', fun j hj1 hj2 hj3 hj4 => ?_⟩
            rw [List.length_append, List.length_singleton] at hj4
            by_cases hjl : j < U.length
            · exact hfew j hj1 hj2 hj3 hjl
            · have hjU : j = U.length := by omega
              subst hjU
              by_contra hg
              have hpos := hT.pos
              rw [if_neg (by omega)] at hpos
              obtain ⟨d, hx, -, hd⟩ := hpos
              obtain ⟨l, hl1, hl2⟩ := hd (by omega)
              have hlK : lamAt so lo K ≤ l := (lamAt_mono hlo hβ (by omega)).trans hl1
              have hδ := hsm.posδ
              have := (hsm.step ((lamAt_pos hlo hhi hβ K).trans_le hlK) (hKm.trans (mul_le_mul_of_nonneg_right hlK hδ.le)) hT.level hg hl2).1
              have h3 := (nlsCost_lt (so := so) h).mpr this
              rw [← hx] at h3
              have h4 := hsu.symm
              simp only [RealOps.sub_eq, RealOps.ofInt_eq] at h4
              rw [RealOps.lt_eq_false] at h4
              push_cast at h4
              linarith)
    (show _ from ⟨rfl, fun _ => ⟨fun T U p q rest ht => by
      have := congrArg List.length ht
      simp [initSt] at this, Or.inl rfl⟩⟩)
    (show _ from fun _ T U p q rest ht => by
      have := congrArg List.length ht
      simp [initSt] at this) hr
  obtain ⟨hb, -, -⟩ := loopBound_spec hm
  have := hj (by unfold budget at hmi; omega)
  rw [hst]
  exact this

end
/-! ### the hypotheses can be met -/

/-- the equation `x² = 1` -/
def root1 : Vec ℝ 1 → Vec ℝ 1 := fun x _ => x 0 * x 0 - 1

theorem root1_smooth : SmoothRes root1 root4J (15 / 16) 2 (1 / 4) 3 := by
  have hx : ∀ x : Vec ℝ 1, nrm (root1 x) ≤ 15 / 16 → 1 / 16 ≤ x 0 * x 0 ∧ x 0 * x 0 ≤ 31 / 16 := by
    intro x hx
    rw [nrm_one, abs_le] at hx
    simp only [root1] at hx
    constructor <;> linarith
  refine ⟨fun x i => ?_, root4_reg.lip, by norm_num, ?_, by norm_num, ?_, by norm_num⟩
  · have h := (hasGrad_coord (n := 1) 0 x).comp_deriv (φ := fun t => t * t - 1) (d := 2 * x 0) (by
      have := ((hasDerivAt_id (x 0)).mul (hasDerivAt_id (x 0))).sub_const 1
      refine this.congr_deriv ?_
      simp; ring)
    refine HasGrad.congr_J h ?_
    funext j; fin_cases j; simp [root4J]
  · intro x i h
    have := hx x h
    simp [gram, root4J]; nlinarith
  · intro x v h
    have := hx x h
    rw [nrm_one, nrm_one]
    simp only [mv, root4J, Fin.sum_univ_succ, Fin.sum_univ_zero, add_zero]
    rw [abs_mul]
    refine mul_le_mul_of_nonneg_right (abs_le_of_sq_le_sq ?_ (by norm_num)) (abs_nonneg _)
    nlinarith

/-- hypotheses of `C90_lm_recovers_partial`: `x² = 1` with the default damping, started at `x = 1/4`, where the gradient is not zero and Gauss-Newton gets stuck (the
first step goes to `17/8`, where the cost is higher); 33 rejected steps bring the damping from its lower limit to what is needed -/
example (k : Nat) (hk : k < 1000) : NonlinLS (nlsProb root1 root4J) (fun _ => True) root1 root4J ∧
    SmoothRes root1 root4J (15 / 16) 2 (1 / 4) 3 ∧ ExactLinAlg someLinAlg ∧ soptsLM.useLdlt = true ∧ soptsLM.dampLo ≤ soptsLM.dampHi ∧ 1 ≤ soptsLM.badFactor ∧
    soptsLM.gradClip = 0 ∧ 0 < soptsLM.dampLo ∧ 2 * (15 / 16) ≤ soptsLM.dampLo * soptsLM.badFactor ^ 33 * (1 / 4) ∧ 2 * (15 / 16) ≤ soptsLM.dampHi * (1 / 4) ∧
    ((lmFresh soptsLM (nlsProb root1 root4J) (fun _ => 0) (fun _ _ => 0)).rebuild = true ∧
      soptsLM.dampLo ≤ (lmFresh soptsLM (nlsProb root1 root4J) (fun _ => 0) (fun _ _ => 0)).lambda ∧
      soptsLM.badFactor ≤ (lmFresh soptsLM (nlsProb root1 root4J) (fun _ => 0) (fun _ _ => 0)).badF) ∧ (nlsProb root1 root4J).dims = none ∧ budget (optsR k) (-1) ≤ 65536 ∧
    nrm (root1 fun _ => 1 / 4) ≤ 15 / 16 ∧ nCost soptsLM 1 (dotR (root1 fun _ => 1 / 4) (root1 fun _ => 1 / 4)) < maxVal ∧
    tmv (root4J fun _ => 1 / 4) (root1 fun _ => 1 / 4) ≠ 0 ∧ nrm (root1 fun _ => 1 / 4) < nrm (root1 fun _ => 17 / 8) := by
  refine ⟨nlsProb_nls _ _ _ (by decide) (by decide), root1_smooth, someLinAlg_exact, rfl, by norm_num [soptsLM], by norm_num [soptsLM, soptsR], rfl, by norm_num [soptsLM],
    by norm_num [soptsLM, soptsR], by norm_num [soptsLM], ⟨rfl, (by norm_num : (1 / 1000000000 : ℝ) ≤ 1 / 10000), le_refl _⟩, rfl, ?_, ?_, ?_, ?_, ?_⟩
  · simp only [budget, optsR]
    split <;> omega
  · rw [nrm_one]; norm_num [abs_le, root1]
  · have : dotR (root1 fun _ => 1 / 4) (root1 fun _ => 1 / 4) = 225 / 256 := by
      simp [dotR, root1]; norm_num
    rw [this]
    show nCost _ 1 (225 / 256) < 2 ^ 1024
    simp [nCost, normalizeCost, soptsLM]
    exact lt_of_lt_of_le (by norm_num : (225 / 256 : ℝ) < 2 ^ 3) (pow_le_pow_right₀ (by norm_num) (by norm_num))
  · intro h; have := congrFun h 0; norm_num [root1, root4J, tmv] at this
  · rw [nrm_one, nrm_one]
    have h1 : root1 (fun _ => 1 / 4) 0 = -(15 / 16) := by norm_num [root1]
    have h2 : root1 (fun _ => 17 / 8) 0 = 225 / 64 := by norm_num [root1]
    rw [h1, h2, abs_neg, abs_of_pos (by norm_num), abs_of_pos (by norm_num)]
    norm_num

end Verif
