import Verif.Lemmas.RunInv
import Verif.Lemmas.Solvers
import Verif.Num.Real
import Verif.Num.FlSign
import Verif.Num.Ieee
import Verif.Examples.Solver1
/-!
# C26, C27, C29, C51: from the user's cost, gradient and Hessian to the linear system
-/

set_option linter.unusedSectionVars false

namespace Verif
open FloatOps

/-! ### C26: gradient clipping -/

section
variable {f : Fmt} {R W X : Type}
variable {so : SolverOpts (Fl f)} {L : LinAlg (Fl f)} {P : Problem (Fl f) R W X} {o : Options (Fl f) W (DVec (Fl f))}

/-- every component is in `[-c, c]` (or NaN) -/
def Clipped (c : Fl f) {n : Nat} (g : Vec (Fl f) n) : Prop :=
  ∀ i, lt c (g i) = false ∧ lt (g i) (neg c) = false

/-- `g'` is `g` with every component above `c` replaced by `c` and every one below `-c` by `-c` -/
def ClipOf (c : Fl f) {n : Nat} (g g' : Vec (Fl f) n) : Prop :=
  ∀ i, (lt c (g i) = true → g' i = c) ∧ (lt (g i) (neg c) = true → g' i = neg c) ∧
    (lt c (g i) = false → lt (g i) (neg c) = false → g' i = g i)

/-- `s` holds the clipped gradient that the user's function returns at `x`, with any Hessian and cost -/
def ClipsUser (so : SolverOpts (Fl f)) (P : Problem (Fl f) R W X) (x : X) (s : GNState (Fl f) R) : Prop :=
  ∃ w0 w1 n c g H g' H' c', P.acc.full w0 x n (fun _ => ofInt 0) (fun _ _ => ofInt 0) = ((c, g, H), w1) ∧
    ClipOf so.gradClip g g' ∧ Clipped so.gradClip g' ∧ s = ⟨n, g', H', c'⟩

theorem ClipsUser.keep {so : SolverOpts (Fl f)} {P : Problem (Fl f) R W X} {x : X} {s : GNState (Fl f) R}
    (h : ClipsUser so P x s) (H : Mat (Fl f) s.n) (c : Cost (Fl f) R) :
    ClipsUser so P x { s with H := H, cost := c } := by
  obtain ⟨w0, w1, n, c0, g, H0, g', H', c', h1, h2, h3, rfl⟩ := h
  exact ⟨w0, w1, n, c0, g, H0, g', H, c, h1, h2, h3, rfl⟩

theorem fl_not_lt_neg {c : Fl f} (hc : lt (ofInt 0) c = true) : lt c (neg c) = false := by
  rw [Fl.lt_zero_iff] at hc
  rcases hc with rfl | ⟨q, h, rfl, hq⟩
  · rfl
  · show decide (q < -q) = false
    simp; linarith

theorem clampVec_clipped {c : Fl f} (hc : lt (ofInt 0) c = true) {n : Nat} (g : Vec (Fl f) n) :
    Clipped c (clampVec c g) := by
  have h1 := fl_not_lt_neg hc
  have h0 : eq c (ofInt 0) = false := by
    rw [Fl.lt_zero_iff] at hc
    rw [Fl.ofInt_zero]
    rcases hc with rfl | ⟨q, h, rfl, hq⟩
    · rfl
    · show decide (q = 0) = false
      simp; exact ne_of_gt hq
  intro i
  simp only [clampVec, h0, Bool.false_eq_true, if_false, clampCoef]
  split
  · rw [if_neg (by rw [h1]; decide)]; exact ⟨h1, FloatLaws.lt_irrefl _⟩
  next ha =>
    split
    · exact ⟨FloatLaws.lt_irrefl _, h1⟩
    next hb => exact ⟨Bool.not_eq_true _ ▸ hb, Bool.not_eq_true _ ▸ ha⟩

/-- **C26**, the clipping itself: with `c > 0` a component above `c` becomes `c`, one below `-c` becomes
`-c`, every other one (also NaN) is unchanged; `c = 0` leaves the gradient unchanged. -/
theorem C26_clip (c : Fl f) {n : Nat} (g : Vec (Fl f) n) :
    (lt (ofInt 0) c = true → ∀ i,
      (lt c (g i) = true → clampVec c g i = c) ∧ (lt (g i) (neg c) = true → clampVec c g i = neg c) ∧
      (lt c (g i) = false → lt (g i) (neg c) = false → clampVec c g i = g i)) ∧
    (c = ofInt 0 → clampVec c g = g) := by
  constructor
  · intro hc i
    have h1 := fl_not_lt_neg hc
    have h0 : eq c (ofInt 0) = false := by
      rw [Fl.lt_zero_iff] at hc
      rw [Fl.ofInt_zero]
      rcases hc with rfl | ⟨q, h, rfl, hq⟩
      · rfl
      · show decide (q = 0) = false
        simp; exact ne_of_gt hq
    simp only [clampVec, h0, Bool.false_eq_true, if_false, clampCoef]
    refine ⟨fun h => ?_, fun h => ?_, fun h h' => ?_⟩
    · by_cases h2 : lt (g i) (neg c) = true
      · have := FloatLaws.lt_trans _ _ _ h h2
        rw [h1] at this; cases this
      · rw [if_neg h2, if_pos h]
    · rw [if_pos h, if_neg (by rw [h1]; decide)]
    · simp only [h', h, Bool.false_eq_true, if_false]
  · rintro rfl
    have : eq (ofInt 0) (ofInt 0 : Fl f) = true := by rw [Fl.ofInt_zero]; show decide ((0 : ℚ) = 0) = true; simp
    simp [clampVec, this]

theorem buildSystem_clipped (hc : lt (ofInt 0) so.gradClip = true) {w : W} {s : GNState (Fl f) R} {x : X} {s' w'}
    (h : buildSystem so P w s x = (true, s', w')) : ClipsUser so P x s' := by
  obtain ⟨c, g, H, e, hs⟩ := buildSystem_spec h
  cases hs
  exact ⟨w, w', s.n, c, g, H, _, _, _, e, (C26_clip so.gradClip g).1 hc, clampVec_clipped hc g, rfl⟩

/-- the stored size matches the parameters (irrelevant when the size is fixed at compile time) -/
def Sized {F R W X : Type} (P : Problem F R W X) (d : Int) (s : GNState F R) : Prop :=
  P.dims = none → (s.n : Int) = d

theorem gnResize_sized {F R W X : Type} {P : Problem F R W X} {w : W} {s s' : GNState F R} {d : Int} {w'}
    (h : gnResize P w s d = (.done s', w')) : Sized P d s' ∧ (Sized P d s → s' = s) := by
  unfold gnResize at h
  cases hd : P.dims with
  | some d0 =>
    rw [hd] at h
    simp only at h
    split at h
    · obtain ⟨h, -⟩ := Prod.mk.inj h; injection h with h
      exact ⟨fun hn => (by rw [hd] at hn; cases hn), fun _ => h.symm⟩
    · cases (Prod.mk.inj h).1
  | none =>
    rw [hd] at h
    simp only at h
    split at h
    · cases (Prod.mk.inj h).1
    next hneg =>
      split at h
      next he =>
        obtain ⟨h, -⟩ := Prod.mk.inj h; injection h with h; subst h
        exact ⟨fun _ => he, fun _ => rfl⟩
      next he =>
        rcases e : P.alloc w d.toNat with ⟨a, w1⟩
        rw [e] at h
        cases a with
        | none => cases (Prod.mk.inj h).1
        | some p =>
          obtain ⟨h, -⟩ := Prod.mk.inj h; injection h with h; subst h
          refine ⟨fun _ => ?_, fun hz => absurd (hz hd) he⟩
          simp only
          omega

/-- the parameters keep their dimension during the run -/
def KeepsDims {F R W X : Type} (P : Problem F R W X) : Prop := ∀ x v, P.dynDims (P.plusEq x v) = P.dynDims x

theorem lmDamp_clipped {x : X} {s : LMState (Fl f) R} (h : ClipsUser so P x s.gn) : ClipsUser so P x (lmDamp s).gn := by
  obtain ⟨H, e⟩ := lmDamp_spec s
  rw [e]; exact h.keep H s.gn.cost

/-- the gradient stored in an LM object is a clipped gradient of the user unless it is about to be rebuilt -/
theorem lm_clip_inv (hc : lt (ofInt 0) so.gradClip = true) (hk : KeepsDims P) (d : Int) :
    RunInv (lmEnv so L P) (fun x => P.dynDims x = d)
      (fun s => s.rebuild = true ∨ ((∃ x0, ClipsUser so P x0 s.gn) ∧ Sized P d s.gn))
      (fun s => Sized P d s.gn ∧ (s.rebuild = true ∨ ∃ x0, ClipsUser so P x0 s.gn))
      (fun _ s => Sized P d s.gn ∧ ∃ x0, ClipsUser so P x0 s.gn)
      (fun _ s => Sized P d s.gn ∧ (s.rebuild = true ∨ ∃ x0, ClipsUser so P x0 s.gn))
      (fun _ s => Sized P d s.gn ∧ ∃ x0, ClipsUser so P x0 s.gn) where
  plus x v h := (hk x v).trans h
  resize w s x s' w' hx _ hI h := by
    obtain ⟨g, hg, rfl⟩ := lmResize_spec h
    rw [show (lmEnv so L P).dynDims x = d from hx] at hg
    obtain ⟨h1, h2⟩ := gnResize_sized hg
    refine ⟨h1, ?_⟩
    rcases hI with hI | ⟨hI, hz⟩
    · exact Or.inl hI
    · rw [h2 hz]; exact Or.inr hI
  build w s x b s' w' hx hI h := by
    have hsz : Sized P d s'.gn := fun hn => by rw [lmBuild_n h]; exact hI.1 hn
    have hsp := lmBuild_spec h
    generalize hp : (b, s', w') = p at hsp
    cases hsp with
    | rebuilt g1 w1 hr hb =>
      obtain ⟨rfl, rfl, -⟩ := hp
      exact ⟨hsz, x, lmDamp_clipped (s := { s with gn := g1 }) (buildSystem_clipped hc hb)⟩
    | rebuildFail g1 w1 hr hb => obtain ⟨rfl, rfl, -⟩ := hp; exact ⟨hsz, Or.inl hr⟩
    | evald c w1 hr he hv =>
      obtain ⟨rfl, rfl, -⟩ := hp
      obtain ⟨x0, hx0⟩ := hI.2.resolve_left (by rw [hr]; decide)
      exact ⟨hsz, x0, lmDamp_clipped (s := { s with gn := { s.gn with cost := normalizeCost so c } }) (hx0.keep _ _)⟩
    | evalFail c w1 hr he hv =>
      obtain ⟨rfl, rfl, -⟩ := hp
      exact ⟨hsz, hI.2.imp_right fun ⟨x0, h⟩ => ⟨x0, h.keep _ _⟩⟩
  good x s q s' h _ e := by obtain ⟨l, -, rfl⟩ := lmGood_spec e; exact h
  bad x s s' h e := by obtain ⟨l, -, rfl⟩ := lmBad_spec e; exact h
  failedB x s s' h e := by obtain ⟨l, -, rfl⟩ := lmBad_spec e; exact ⟨h.1, Or.inr h.2⟩
  failedN x s s' h e := by obtain ⟨l, -, rfl⟩ := lmBad_spec e; exact h
  rebuildB x s b h := Or.inr ⟨h.2, h.1⟩
  rebuildA x s b h := Or.inr ⟨h.2, h.1⟩

/-- **C26**, Levenberg-Marquardt: every step of a run on a new (or reset) object is solved from a
gradient that the user's function returned, each component limited to `[-c, c]`, also when the gradient
of an earlier iteration is used again. (A NaN component stays NaN.) -/
theorem C26_lm (hc : lt (ofInt 0) so.gradClip = true) (hk : KeepsDims P) (s : LMState (Fl f) R)
    (hs : s.rebuild = true) (fuel : Nat) (mi : Int) (w : W) (x : X) (st)
    (h : optimizeAcc (lmEnv so L P) o fuel mi w s x = .ok st) :
    ∀ r ∈ st.trace, ∀ dx, r.dx = some dx → ∃ x0 w0 w1 n c g H g' H' c',
      P.acc.full w0 x0 n (fun _ => ofInt 0) (fun _ _ => ofInt 0) = ((c, g, H), w1) ∧ ClipOf so.gradClip g g' ∧
      (∀ i, lt so.gradClip (g' i) = false ∧ lt (g' i) (neg so.gradClip) = false) ∧
      gnSolve so L (P.dims == some 1) (⟨n, g', H', c'⟩ : GNState (Fl f) R) = some dx := by
  intro r hr dx hdx
  obtain ⟨t, hB, hsol, -⟩ := (run_runinv (lm_clip_inv hc hk _) (show P.dynDims x = P.dynDims x from rfl) (Or.inl hs) h).1 r hr dx hdx
  obtain ⟨-, x0, w0, w1, n, c, g, H, g', H', c', h1, h2, h3, h4⟩ := hB
  exact ⟨x0, w0, w1, n, c, g, H, g', H', c', h1, h2, h3, h4 ▸ hsol⟩

/-- **C26**, Gauss-Newton: every step is solved from the gradient at the point of its own iteration, each
component limited to `[-c, c]`. -/
theorem C26_gn (hc : lt (ofInt 0) so.gradClip = true) (s : GNState (Fl f) R) (fuel : Nat) (mi : Int) (w : W)
    (x : X) (st) (h : optimizeAcc (gnEnv so L P) o fuel mi w s x = .ok st) :
    ∀ r ∈ st.trace, ∀ dx, r.dx = some dx → ∃ w0 w1 n c g H g' H' c',
      P.acc.full w0 r.x n (fun _ => ofInt 0) (fun _ _ => ofInt 0) = ((c, g, H), w1) ∧ ClipOf so.gradClip g g' ∧
      (∀ i, lt so.gradClip (g' i) = false ∧ lt (g' i) (neg so.gradClip) = false) ∧
      gnSolve so L (P.dims == some 1) (⟨n, g', H', c'⟩ : GNState (Fl f) R) = some dx := by
  intro r hr dx hdx
  have hinv : RunInv (gnEnv so L P) (fun _ => True) (fun _ => True) (fun _ => True)
      (fun x s => ClipsUser so P x s) (fun _ _ => True) (fun _ _ => True) :=
    { plus := fun _ _ _ => trivial
      resize := fun _ _ _ _ _ _ _ _ _ => trivial
      build := fun w s x b s' w' _ _ h => by
        cases b
        · exact trivial
        · exact buildSystem_clipped hc h
      good := fun _ _ _ _ _ _ _ => trivial
      bad := fun _ _ _ _ _ => trivial
      failedB := fun _ _ _ _ _ => trivial
      failedN := fun _ _ _ _ _ => trivial
      rebuildB := fun _ _ _ _ => trivial
      rebuildA := fun _ _ _ _ => trivial }
  obtain ⟨t, hB, hsol, -⟩ := (run_runinv hinv trivial trivial h).1 r hr dx hdx
  obtain ⟨w0, w1, n, c, g, H, g', H', c', h1, h2, h3, h4⟩ := hB
  exact ⟨w0, w1, n, c, g, H, g', H', c', h1, h2, h3, h4 ▸ hsol⟩

theorem fl_lt_ofGrid {q r : ℚ} (hq : f.Grid q) (hr : f.Grid r) (h : q ≤ r) :
    Fl.lt (Fl.ofGrid r hr) (Fl.ofGrid q hq) = false := by
  unfold Fl.ofGrid
  have hm := f.max_pos
  split
  · split
    · simp only [Fl.lt, decide_eq_false_iff_not]; linarith
    next h1 h2 =>
      split
      next h3 => exfalso; exact h2 (by rw [abs_of_pos h3]; exact h.trans ((le_abs_self r).trans h1))
      · rfl
  next h1 =>
    split
    · cases (if h' : |q| ≤ f.max then Fl.fin q ⟨hq, h'⟩ else if 0 < q then Fl.pinf else Fl.ninf) <;> rfl
    next h3 =>
      have h5 : ¬ (0 < q) := by linarith
      have h4 : ¬ |q| ≤ f.max := by
        intro h4
        rw [abs_of_nonpos (by linarith)] at h4 h1
        exact h1 (by linarith)
      rw [dif_neg h4, if_neg h5]; rfl

theorem fl_neg_mk (q : ℚ) : neg (Fl.mk q : Fl f) = Fl.mk (-q) := by
  show Fl.neg (Fl.ofGrid (f.rnd q) _) = Fl.ofGrid (f.rnd (-q)) _
  have : ∀ r (hr : f.Grid r) (hr' : f.Grid (-r)), Fl.neg (Fl.ofGrid r hr) = Fl.ofGrid (-r) hr' := by
    intro r hr hr'
    unfold Fl.ofGrid
    by_cases h : |r| ≤ f.max
    · rw [dif_pos h, dif_pos (by rw [abs_neg]; exact h)]; rfl
    · rw [dif_neg h, dif_neg (by rw [abs_neg]; exact h)]
      have hr0 : r ≠ 0 := by rintro rfl; exact h (by rw [abs_zero]; exact f.max_pos.le)
      by_cases h0 : 0 < r
      · rw [if_pos h0, if_neg (by linarith)]; rfl
      · rw [if_neg h0, if_pos (by have := lt_of_le_of_ne (not_lt.mp h0) hr0; linarith)]; rfl
  have h := this (f.rnd q) (f.rnd_grid q) (f.grid_neg (f.rnd_grid q))
  rw [h]
  congr 1
  exact (f.rnd_neg q).symm

/-- a rounded multiple of a value in `[-c, c]` is within the rounded multiple of `c` -/
theorem fl_mul_bound {lr c a : Fl f} (hl : lt lr (ofInt 0) = false) (hc : Fl.Pos c) (h1 : lt c a = false)
    (h2 : lt a (neg c) = false) : lt (mul lr c) (absF (mul (neg lr) a)) = false := by
  have hp : ∀ b : Fl f, lt Fl.pinf b = false := fun b => by cases b <;> rfl
  have hn : ∀ b : Fl f, lt Fl.nan b = false := fun b => by cases b <;> rfl
  have hn' : ∀ b : Fl f, lt b (absF Fl.nan) = false := fun b => by cases b <;> rfl
  have hi : ∀ (q : ℚ) (b : Fl f), 0 ≤ q → lt (Fl.infSign q) b = false := fun q b hq => by
    unfold Fl.infSign
    split
    · exact hp b
    · rw [if_neg (by linarith)]; exact hn b
  rw [Fl.ofInt_zero] at hl
  rcases hc with rfl | ⟨c, hcg, rfl, hc⟩
  · cases lr with
    | nan => exact hn _
    | ninf => cases hl
    | pinf => exact hp _
    | fin l hlg =>
      have hl : decide (l < 0) = false := hl
      simp only [decide_eq_false_iff_not, not_lt] at hl
      exact hi _ _ hl
  · cases lr with
    | nan => exact hn _
    | ninf => cases hl
    | pinf => exact hi _ _ hc.le
    | fin l hlg =>
      have hl : decide (l < 0) = false := hl
      simp only [decide_eq_false_iff_not, not_lt] at hl
      cases a with
      | nan => exact hn' _
      | pinf => cases h1
      | ninf => cases h2
      | fin a hag =>
        have h1 : decide (c < a) = false := h1
        have h2 : decide (a < -c) = false := h2
        simp only [decide_eq_false_iff_not, not_lt] at h1 h2
        show lt (Fl.mk (l * c)) (absF (Fl.mk (-l * a))) = false
        have key : ∀ q : ℚ, q ≤ l * c → lt (Fl.mk (l * c) : Fl f) (Fl.mk q) = false := fun q hq =>
          fl_lt_ofGrid _ _ (f.rnd_mono _ _ hq)
        unfold absF
        split
        · rw [fl_neg_mk]; exact key _ (by nlinarith)
        · exact key _ (by nlinarith)

/-- **C26**, Gradient Descent: every step is `-lr` times the gradient at the point of its own iteration with
each component limited to `[-c, c]`; so every component of the step is bounded by the (rounded) product `lr * c`. -/
theorem C26_gd (hc : lt (ofInt 0) so.gradClip = true) (hl : lt so.lr (ofInt 0) = false) (s : GNState (Fl f) R) (fuel : Nat)
    (mi : Int) (w : W) (x : X) (st) (h : optimizeAcc (gdEnv so P) o fuel mi w s x = .ok st) :
    ∀ r ∈ st.trace, ∀ dx, r.dx = some dx →
      (∃ w0 w1 n c g H g', P.acc.full w0 r.x n (fun _ => ofInt 0) (fun _ _ => ofInt 0) = ((c, g, H), w1) ∧
        ClipOf so.gradClip g g' ∧ dx = ⟨n, fun i => mul (neg so.lr) (g' i)⟩) ∧
      ∀ i, lt (mul so.lr so.gradClip) (absF (dx.v i)) = false := by
  intro r hr dx hdx
  have hinv : RunInv (gdEnv so P) (fun _ => True) (fun _ => True) (fun _ => True)
      (fun x s => ClipsUser so P x s) (fun _ _ => True) (fun _ _ => True) :=
    { plus := fun _ _ _ => trivial
      resize := fun _ _ _ _ _ _ _ _ _ => trivial
      build := fun w s x b s' w' _ _ h => by
        cases b
        · exact trivial
        · obtain ⟨c, g, H, e, -, rfl⟩ := gdBuild_spec h
          exact ⟨w, w', s.n, c, g, H, _, _, _, e, (C26_clip so.gradClip g).1 hc, clampVec_clipped hc g, rfl⟩
      good := fun _ _ _ _ _ _ _ => trivial
      bad := fun _ _ _ _ _ => trivial
      failedB := fun _ _ _ _ _ => trivial
      failedN := fun _ _ _ _ _ => trivial
      rebuildB := fun _ _ _ _ => trivial
      rebuildA := fun _ _ _ _ => trivial }
  obtain ⟨t, hB, hsol, -⟩ := (run_runinv hinv trivial trivial h).1 r hr dx hdx
  obtain ⟨w0, w1, n, c, g, H, g', H', c', h1, h2, h3, rfl⟩ := hB
  have hsol : gdSolve so (⟨n, g', H', c'⟩ : GNState (Fl f) R) = some dx := hsol
  unfold gdSolve at hsol
  split at hsol
  · obtain rfl := Option.some.inj hsol
    exact ⟨⟨w0, w1, n, c, g, H, g', h1, h2, rfl⟩, fun i => fl_mul_bound hl ((Fl.lt_zero_iff _).mp hc) (h3 i).1 (h3 i).2⟩
  · cases hsol
end

section
variable {F R W X : Type} [FloatOps F]
variable {so : SolverOpts F} {L : LinAlg F} {P P' : Problem F R W X} {o : Options F W (DVec F)}

/-- **C26**: what is clipped is the gradient returned by the user's function in this very call. -/
theorem C26_build (w : W) (s : GNState F R) (x : X) :
    (∀ s' w', buildSystem so P w s x = (true, s', w') →
      ∃ c g H, P.acc.full w x s.n (fun _ => ofInt 0) (fun _ _ => ofInt 0) = ((c, g, H), w') ∧
        ∃ H' c', s' = ⟨s.n, clampVec so.gradClip g, H', c'⟩) ∧
    (∀ s' w', gdBuild so P w s x = (true, s', w') →
      ∃ c g H, P.acc.full w x s.n (fun _ => ofInt 0) (fun _ _ => ofInt 0) = ((c, g, H), w') ∧
        ∃ H' c', s' = ⟨s.n, clampVec so.gradClip g, H', c'⟩) := by
  constructor
  · intro s' w' h
    obtain ⟨c, g, H, e, hs⟩ := buildSystem_spec h
    cases hs
    exact ⟨c, g, H, e, _, _, rfl⟩
  · intro s' w' h
    obtain ⟨c, g, H, e, -, rfl⟩ := gdBuild_spec h
    exact ⟨c, g, H, e, _, _, rfl⟩

/-! ### C27: the lower triangle -/

/-- the same system up to the part of `H` below the diagonal -/
def UpEq (a b : GNState F R) : Prop :=
  ∃ n g H H' c, a = ⟨n, g, H, c⟩ ∧ b = ⟨n, g, H', c⟩ ∧ ∀ i j, i ≤ j → H i j = H' i j

theorem UpEq.refl (a : GNState F R) : UpEq a a := ⟨a.n, a.g, a.H, a.H, a.cost, rfl, rfl, fun _ _ _ => rfl⟩

theorem symUpper_congr {n : Nat} {H H' : Mat F n} (h : ∀ i j, i ≤ j → H i j = H' i j) :
    symUpper H = symUpper H' := by
  funext i j
  unfold symUpper
  split
  next hij => exact h i j hij
  next hij => exact h j i (le_of_lt (not_le.mp hij))

/-- Two user functions that return the same cost, gradient and upper triangle of `H` -/
structure SameUpper (P P' : Problem F R W X) : Prop where
  dims : P'.dims = P.dims
  dynDims : P'.dynDims = P.dynDims
  plusEq : P'.plusEq = P.plusEq
  clock : P'.clock = P.clock
  alloc : P'.alloc = P.alloc
  ratio1 : P'.ratio1 = P.ratio1
  eval : P'.acc.eval = P.acc.eval
  full : ∀ w x n, ∃ c g H H' w', P.acc.full w x n (fun _ => ofInt 0) (fun _ _ => ofInt 0) = ((c, g, H), w') ∧
    P'.acc.full w x n (fun _ => ofInt 0) (fun _ _ => ofInt 0) = ((c, g, H'), w') ∧
    ∀ i j, i ≤ j → H i j = H' i j

theorem lowDiag_congr {n : Nat} {H H' : Mat F n} (t : F) (h : ∀ i j, i ≤ j → H i j = H' i j) :
    lowDiag t H = lowDiag t H' := by
  unfold lowDiag
  congr 1
  funext i
  rw [h i i (le_refl i)]

theorem buildSystem_upEq (h : SameUpper P P') (hl : so.useLdlt = true ∨ so.hIsFull = false) (w : W)
    {s s' : GNState F R} (x : X) (hs : s.n = s'.n) :
    ∃ b t t' w', buildSystem so P w s x = (b, t, w') ∧ buildSystem so P' w s' x = (b, t', w') ∧ UpEq t t' ∧
      (b = true → so.useLdlt = true ∨ t = t') := by
  obtain ⟨n, gs, Hs, cs⟩ := s
  obtain ⟨n', gs', Hs', cs'⟩ := s'
  simp only at hs
  subst hs
  obtain ⟨c, g, H, H', w', e, e', hu⟩ := h.full w x n
  rcases hb : buildSystem so P w ⟨n, gs, Hs, cs⟩ x with ⟨b, t, w1⟩
  rcases hb' : buildSystem so P' w ⟨n, gs', Hs', cs'⟩ x with ⟨b', t', w1'⟩
  have : ∃ H2 H2' b2, b = b2 ∧ b' = b2 ∧ ∃ g2, t = ⟨n, g2, H2, normalizeCost so c⟩ ∧
      t' = ⟨n, g2, H2', normalizeCost so c⟩ ∧ (∀ i j, i ≤ j → H2 i j = H2' i j) ∧
      (b2 = true → so.useLdlt = true ∨ H2 = H2') ∧ w1 = w' ∧ w1' = w' := by
    unfold buildSystem gnAccumulate at hb hb'
    rw [show P.acc.full w x (GNState.mk n gs Hs cs).n _ _ = _ from e] at hb
    rw [show P'.acc.full w x (GNState.mk n gs' Hs' cs').n _ _ = _ from e'] at hb'
    simp only at hb hb'
    rw [← lowDiag_congr so.checkMinHDiag hu] at hb'
    split at hb
    next hv =>
      rw [if_pos hv] at hb'
      split at hb
      next hlow =>
        rw [if_pos hlow] at hb'
        simp only [Prod.mk.injEq] at hb hb'
        obtain ⟨rfl, rfl, rfl⟩ := hb
        obtain ⟨rfl, rfl, rfl⟩ := hb'
        exact ⟨H, H', false, rfl, rfl, _, rfl, rfl, hu, by simp, rfl, rfl⟩
      next hlow =>
        rw [if_neg hlow] at hb'
        simp only [Prod.mk.injEq] at hb hb'
        obtain ⟨rfl, rfl, rfl⟩ := hb
        obtain ⟨rfl, rfl, rfl⟩ := hb'
        by_cases hf : (!so.hIsFull && !so.useLdlt) = true
        · simp only [if_pos hf]
          refine ⟨symUpper H, symUpper H', true, rfl, rfl, _, rfl, rfl, ?_, fun _ => Or.inr (symUpper_congr hu), by simp⟩
          rw [symUpper_congr hu]; exact fun _ _ _ => rfl
        · simp only [if_neg hf]
          refine ⟨H, H', true, rfl, rfl, _, rfl, rfl, hu, fun _ => Or.inl ?_, by simp⟩
          rcases hl with hl | hl
          · exact hl
          · simpa [hl] using hf
    next hv =>
      rw [if_neg hv] at hb'
      simp only [Prod.mk.injEq] at hb hb'
      obtain ⟨rfl, rfl, rfl⟩ := hb
      obtain ⟨rfl, rfl, rfl⟩ := hb'
      exact ⟨H, H', false, rfl, rfl, _, rfl, rfl, hu, by simp, rfl, rfl⟩
  obtain ⟨H2, H2', b2, rfl, rfl, g2, rfl, rfl, hu2, hf, rfl, rfl⟩ := this
  refine ⟨_, _, _, _, rfl, rfl, ⟨_, _, _, _, _, rfl, rfl, hu2⟩, fun hb => (hf hb).imp id fun h => by rw [h]⟩

theorem gnSolve_upEq {one : Bool} {a b : GNState F R} (h : UpEq a b) (hl : so.useLdlt = true ∨ a = b) :
    gnSolve so L one a = gnSolve so L one b := by
  rcases hl with hl | rfl
  · obtain ⟨n, g, H, H', c, rfl, rfl, hu⟩ := h
    simp only [gnSolve, hl, if_true, solveLDLT, symUpper_congr hu]
  · rfl

theorem gnResize_upEq (h : SameUpper P P') (w : W) {a b : GNState F R} (hu : UpEq a b) (d : Int) :
    (∃ t t' w', gnResize P w a d = (.done t, w') ∧ gnResize P' w b d = (.done t', w') ∧ UpEq t t' ∧ (a = b → t = t')) ∨
    (∃ w', gnResize P w a d = (.badAlloc, w') ∧ gnResize P' w b d = (.badAlloc, w')) ∨
    (∃ w', gnResize P w a d = (.invalidArg, w') ∧ gnResize P' w b d = (.invalidArg, w')) := by
  obtain ⟨n, g, H, H', c, rfl, rfl, hij⟩ := hu
  unfold gnResize
  rw [h.dims, h.alloc]
  cases P.dims with
  | some d0 =>
    simp only
    split
    · exact Or.inl ⟨_, _, _, rfl, rfl, ⟨_, _, _, _, _, rfl, rfl, hij⟩, id⟩
    · exact Or.inr (Or.inr ⟨_, rfl, rfl⟩)
  | none =>
    simp only
    split
    · exact Or.inr (Or.inr ⟨_, rfl, rfl⟩)
    · split
      · exact Or.inl ⟨_, _, _, rfl, rfl, ⟨_, _, _, _, _, rfl, rfl, hij⟩, id⟩
      · rcases e : P.alloc w d.toNat with ⟨a, w1⟩
        cases a with
        | none => exact Or.inr (Or.inl ⟨_, rfl, rfl⟩)
        | some p => exact Or.inl ⟨_, _, _, rfl, rfl, UpEq.refl _, fun _ => rfl⟩

theorem UpEq.n_eq {a b : GNState F R} (h : UpEq a b) : a.n = b.n := by
  obtain ⟨n, g, H, H', c, rfl, rfl, hij⟩ := h; rfl

theorem UpEq.cost_eq {a b : GNState F R} (h : UpEq a b) : a.cost = b.cost := by
  obtain ⟨n, g, H, H', c, rfl, rfl, hij⟩ := h; rfl

theorem UpEq.grad_eq {a b : GNState F R} (h : UpEq a b) :
    (⟨a.n, a.g⟩ : DVec F) = ⟨b.n, b.g⟩ ∧ sqNorm a.g = sqNorm b.g := by
  obtain ⟨n, g, H, H', c, rfl, rfl, hij⟩ := h; exact ⟨rfl, rfl⟩

theorem gn_upper_sim (h : SameUpper P P') (hl : so.useLdlt = true ∨ so.hIsFull = false) :
    Sim (gnEnv so L P) (gnEnv so L P') UpEq UpEq (fun a b => UpEq a b ∧ (so.useLdlt = true ∨ a = b)) UpEq where
  dimsDynamic := by simp [gnEnv, envOf, h.dims]
  dynDims := by simp [gnEnv, envOf, h.dynDims]
  plusEq := by simp [gnEnv, envOf, h.plusEq]
  negV := rfl
  normSq := rfl
  clock := by simp [gnEnv, envOf, h.clock]
  ratio1 := by simp [gnEnv, envOf, h.ratio1]
  firstOrder := rfl
  resize w s s' x hr := by
    rcases gnResize_upEq h w hr ((gnEnv so L P).dynDims x) with ⟨t, t', w', e, e', hu, -⟩ | h | h
    · exact Or.inl ⟨t, t', w', e, e', hu⟩
    · exact Or.inr (Or.inl h)
    · exact Or.inr (Or.inr h)
  build w s s' x hr := by
    obtain ⟨b, t, t', w', e, e', hu, hf⟩ := buildSystem_upEq h hl w x hr.n_eq
    refine ⟨b, t, t', w', e, e', hu.cost_eq, ?_⟩
    cases b
    · exact hu
    · exact ⟨hu, hf rfl⟩
  solve s s' hr := by
    simp only [gnEnv, envOf, gnSolver, h.dims]
    exact gnSolve_upEq hr.1 hr.2
  gradSq s s' hr := hr.1.grad_eq.2
  gradient s s' hr := hr.1.grad_eq.1
  good s s' q hr := hr
  bad s s' hr := hr
  failedB s s' hr := hr.1
  failedF s s' hr := hr
  rebuild s s' b hr := hr.1

/-- LM states with the same damping and the same upper system -/
def LmUpEq (a b : LMState F R) : Prop :=
  UpEq a.gn b.gn ∧ a.lambda = b.lambda ∧ a.prev = b.prev ∧ a.badF = b.badF ∧ a.rebuild = b.rebuild

theorem UpEq.scale {a b : GNState F R} (h : UpEq a b) (k : F) :
    UpEq { a with H := scaleDiag k a.H } { b with H := scaleDiag k b.H } := by
  obtain ⟨n, g, H, H', c, rfl, rfl, hu⟩ := h
  refine ⟨_, _, _, _, _, rfl, rfl, fun i j hij => ?_⟩
  show (if i = j then mul (H i j) k else H i j) = if i = j then mul (H' i j) k else H' i j
  rw [hu i j hij]

theorem lmDamp_upEq {a b : LMState F R} (h : LmUpEq a b) :
    LmUpEq (lmDamp a) (lmDamp b) ∧ (a.gn = b.gn → (lmDamp a).gn = (lmDamp b).gn) := by
  obtain ⟨ga, la, pa, ba, ra⟩ := a
  obtain ⟨gb, lb, pb, bb, rb⟩ := b
  obtain ⟨h, h1, h2, h3, h4⟩ := h
  simp only at h h1 h2 h3 h4
  subst h1; subst h2; subst h3; subst h4
  unfold lmDamp
  simp only
  split
  · exact ⟨⟨h.scale _, rfl, rfl, rfl, rfl⟩, fun e => by simp only at e ⊢; rw [e]⟩
  · exact ⟨⟨h, rfl, rfl, rfl, rfl⟩, id⟩

theorem UpEq.setCost {a b : GNState F R} (h : UpEq a b) (c : Cost F R) :
    UpEq { a with cost := c } { b with cost := c } := by
  obtain ⟨n, g, H, H', c, rfl, rfl, hu⟩ := h
  exact ⟨_, _, _, _, _, rfl, rfl, hu⟩

theorem lm_upper_sim (h : SameUpper P P') (hl : so.useLdlt = true ∨ so.hIsFull = false) :
    Sim (lmEnv so L P) (lmEnv so L P')
      (fun a b => LmUpEq a b ∧ (a.rebuild = true ∨ so.useLdlt = true ∨ a.gn = b.gn))
      (fun a b => LmUpEq a b ∧ (a.rebuild = true ∨ so.useLdlt = true ∨ a.gn = b.gn))
      (fun a b => LmUpEq a b ∧ (so.useLdlt = true ∨ a.gn = b.gn))
      (fun a b => LmUpEq a b ∧ (a.rebuild = true ∨ so.useLdlt = true ∨ a.gn = b.gn)) where
  dimsDynamic := by simp [lmEnv, envOf, h.dims]
  dynDims := by simp [lmEnv, envOf, h.dynDims]
  plusEq := by simp [lmEnv, envOf, h.plusEq]
  negV := rfl
  normSq := rfl
  clock := by simp [lmEnv, envOf, h.clock]
  ratio1 := by simp [lmEnv, envOf, h.ratio1]
  firstOrder := rfl
  resize w s s' x hr := by
    simp only [lmEnv, envOf, lmSolver]
    rcases gnResize_upEq h w hr.1.1 (P.dynDims x) with ⟨t, t', w', e, e', hu, hf⟩ | ⟨w', e, e'⟩ | ⟨w', e, e'⟩
    · refine Or.inl ⟨{ s with gn := t }, { s' with gn := t' }, w', ?_, ?_, ⟨hu, hr.1.2⟩, hr.2.imp id (Or.imp id hf)⟩
      · rw [e]
      · rw [e']
    · exact Or.inr (Or.inl ⟨w', by rw [e], by rw [e']⟩)
    · exact Or.inr (Or.inr ⟨w', by rw [e], by rw [e']⟩)
  build w s s' x hr := by
    obtain ⟨gs, ls, ps, bs, rs⟩ := s
    obtain ⟨gs', ls', ps', bs', rs'⟩ := s'
    obtain ⟨⟨hu, h1, h2, h3, h4⟩, hf⟩ := hr
    simp only at hu h1 h2 h3 h4 hf
    subst h1; subst h2; subst h3; subst h4
    show ∃ b t t' w', lmBuild so P w _ x = (b, t, w') ∧ lmBuild so P' w _ x = (b, t', w') ∧ t.gn.cost = t'.gn.cost ∧ _
    unfold lmBuild
    simp only
    split
    next hrb =>
      obtain ⟨b, t, t', w', e, e', ht, hft⟩ := buildSystem_upEq h hl w x hu.n_eq
      rw [e, e']
      cases b
      · exact ⟨_, _, _, _, rfl, rfl, ht.cost_eq, ⟨ht, rfl, rfl, rfl, rfl⟩, Or.inl hrb⟩
      · have := lmDamp_upEq (a := ⟨t, ls, ps, bs, rs⟩) (b := ⟨t', ls, ps, bs, rs⟩) ⟨ht, rfl, rfl, rfl, rfl⟩
        exact ⟨_, _, _, _, rfl, rfl, this.1.1.cost_eq, this.1, (hft rfl).imp id this.2⟩
    next hrb =>
      have hf := hf.resolve_left hrb
      unfold lmEvaluate
      rw [h.eval]
      rcases P.acc.eval w x with ⟨c, w1⟩
      simp only
      have hu' := hu.setCost (normalizeCost so c)
      have hf' : so.useLdlt = true ∨ ({ gs with cost := normalizeCost so c } : GNState F R) = { gs' with cost := normalizeCost so c } :=
        hf.imp id (fun h => by rw [h])
      split
      · have := lmDamp_upEq (a := ⟨{ gs with cost := normalizeCost so c }, ls, ps, bs, rs⟩)
          (b := ⟨{ gs' with cost := normalizeCost so c }, ls, ps, bs, rs⟩) ⟨hu', rfl, rfl, rfl, rfl⟩
        exact ⟨_, _, _, _, rfl, rfl, this.1.1.cost_eq, this.1, hf'.imp id this.2⟩
      · exact ⟨_, _, _, _, rfl, rfl, rfl, ⟨hu', rfl, rfl, rfl, rfl⟩, Or.inr hf'⟩
  solve s s' hr := by
    simp only [lmEnv, envOf, lmSolver, h.dims]
    exact gnSolve_upEq hr.1.1 hr.2
  gradSq s s' hr := hr.1.1.grad_eq.2
  gradient s s' hr := hr.1.1.grad_eq.1
  good s s' q hr := by
    obtain ⟨⟨hu, h1, h2, h3, h4⟩, hf⟩ := hr
    show Res.Rel _ (lmGood so s q) (lmGood so s' q)
    unfold lmGood Res.map
    rw [h1, h3]
    cases stdClamp (mul s'.lambda (goodScale so q s'.badF)) so.dampLo so.dampHi with
    | ok l => exact ⟨⟨hu, rfl, rfl, rfl, h4⟩, hf⟩
    | ub => trivial
    | throw => trivial
    | fuel => trivial
  bad s s' hr := by
    obtain ⟨⟨hu, h1, h2, h3, h4⟩, hf⟩ := hr
    show Res.Rel _ (lmBad so s) (lmBad so s')
    unfold lmBad Res.map
    rw [h1, h3]
    cases stdClamp (mul s'.lambda s'.badF) so.dampLo so.dampHi with
    | ok l => exact ⟨⟨hu, rfl, rfl, rfl, h4⟩, hf⟩
    | ub => trivial
    | throw => trivial
    | fuel => trivial
  failedB s s' hr := by
    obtain ⟨⟨hu, h1, h2, h3, h4⟩, hf⟩ := hr
    show Res.Rel _ (lmBad so s) (lmBad so s')
    unfold lmBad Res.map
    rw [h1, h3]
    cases stdClamp (mul s'.lambda s'.badF) so.dampLo so.dampHi with
    | ok l => exact ⟨⟨hu, rfl, rfl, rfl, h4⟩, Or.inr hf⟩
    | ub => trivial
    | throw => trivial
    | fuel => trivial
  failedF s s' hr := by
    obtain ⟨⟨hu, h1, h2, h3, h4⟩, hf⟩ := hr
    show Res.Rel _ (lmBad so s) (lmBad so s')
    unfold lmBad Res.map
    rw [h1, h3]
    cases stdClamp (mul s'.lambda s'.badF) so.dampLo so.dampHi with
    | ok l => exact ⟨⟨hu, rfl, rfl, rfl, h4⟩, hf⟩
    | ub => trivial
    | throw => trivial
    | fuel => trivial
  rebuild s s' b hr := ⟨⟨hr.1.1, hr.1.2.1, hr.1.2.2.1, hr.1.2.2.2.1, rfl⟩, Or.inr hr.2⟩

/-- **C27**: if `use_ldlt` is set or `H_is_full` is not, two user functions that agree on the cost, the
gradient and the upper triangle of the Hessian give the same run: same outcome (also for undefined
behaviour and exceptions), final `x`, histories and world; only the exported Hessian may differ below
its diagonal. This holds for Gauss-Newton and for Levenberg-Marquardt, from any solver state. -/
theorem C27_upper_only (h : SameUpper P P') (hl : so.useLdlt = true ∨ so.hIsFull = false)
    (fuel : Nat) (mi : Int) (w : W) (x : X) :
    (∀ s : GNState F R, Res.Rel FinalRel (optimizeAcc (gnEnv so L P) o fuel mi w s x)
      (optimizeAcc (gnEnv so L P') o fuel mi w s x)) ∧
    (∀ s : LMState F R, Res.Rel FinalRel (optimizeAcc (lmEnv so L P) o fuel mi w s x)
      (optimizeAcc (lmEnv so L P') o fuel mi w s x)) :=
  ⟨fun s => run_sim (gn_upper_sim h hl) fuel mi w s s x (UpEq.refl s),
   fun s => run_sim (lm_upper_sim h hl) fuel mi w s s x
    ⟨⟨UpEq.refl _, rfl, rfl, rfl, rfl⟩, Or.inr (Or.inr rfl)⟩⟩

/-! ### C51: the test of the diagonal -/

/-- the test of the diagonal in any arithmetic, in terms of the model's absolute value -/
theorem buildSystem_lowDiag (ht : lt (ofInt 0) so.checkMinHDiag = true) (w : W) (s : GNState F R) (x : X)
    (c g H w') (e : P.acc.full w x s.n (fun _ => ofInt 0) (fun _ _ => ofInt 0) = ((c, g, H), w'))
    (hv : (normalizeCost so c).isValid = true) :
    (buildSystem so P w s x).1 = false ↔ ∃ i, lt (absF (H i i)) so.checkMinHDiag = true := by
  have hlow : lowDiag so.checkMinHDiag H = true ↔ ∃ i, lt (absF (H i i)) so.checkMinHDiag = true := by
    simp [lowDiag, List.any_eq_true]
  rw [← hlow]
  unfold buildSystem gnAccumulate
  rw [e]
  simp only [hv, if_true, ht, Bool.true_and]
  cases lowDiag so.checkMinHDiag H <;> simp
end

/-- the absolute value is below `t` exactly if the value is between `-t` and `t` (also for infinities; a NaN is not) -/
theorem absF_lt {f : Fmt} {a t : Fl f} (ht : lt (ofInt 0) t = true) : lt (absF a) t = true ↔ lt (neg t) a = true ∧ lt a t = true := by
  rw [Fl.ofInt_zero] at ht
  unfold absF
  rw [Fl.ofInt_zero]
  cases t with
  | nan => cases ht
  | ninf => cases ht
  | pinf =>
    cases a with
    | fin q hq =>
      by_cases h : q < 0
      · rw [if_pos (by simpa [FloatOps.lt, Fl.lt] using h)]; simp [FloatOps.lt, FloatOps.neg, Fl.lt, Fl.neg]
      · rw [if_neg (by simpa [FloatOps.lt, Fl.lt] using h)]; simp [FloatOps.lt, FloatOps.neg, Fl.lt, Fl.neg]
    | _ => simp [FloatOps.lt, FloatOps.neg, Fl.lt, Fl.neg]
  | fin t h =>
    have h0 : 0 < t := by simpa [FloatOps.lt, Fl.lt] using ht
    cases a with
    | fin q hq =>
      by_cases h : q < 0
      · rw [if_pos (by simpa [FloatOps.lt, Fl.lt] using h)]
        simp only [FloatOps.lt, FloatOps.neg, Fl.lt, Fl.neg, decide_eq_true_eq]
        constructor
        · intro h; constructor <;> linarith
        · intro h; linarith [h.1]
      · rw [if_neg (by simpa [FloatOps.lt, Fl.lt] using h)]
        simp only [FloatOps.lt, FloatOps.neg, Fl.lt, Fl.neg, decide_eq_true_eq]
        constructor
        · intro h; constructor <;> linarith
        · intro h; linarith [h.2]
    | _ => simp [FloatOps.lt, FloatOps.neg, Fl.lt, Fl.neg]

/-- **C51** (partial: what the code does), any floating-point format. With a valid cost and threshold `t > 0` the build is rejected exactly if *some* diagonal
coefficient is between `-t` and `t`. Missing: the documented behaviour, "all", is violated, see `C51_any_not_all`. -/
theorem C51_exact_partial {f : Fmt} {R W X : Type} {so : SolverOpts (Fl f)} {P : Problem (Fl f) R W X} (ht : lt (ofInt 0) so.checkMinHDiag = true) (w : W)
    (s : GNState (Fl f) R) (x : X) (c g H w') (e : P.acc.full w x s.n (fun _ => ofInt 0) (fun _ _ => ofInt 0) = ((c, g, H), w'))
    (hv : (normalizeCost so c).isValid = true) :
    (buildSystem so P w s x).1 = false ↔ ∃ i, lt (neg so.checkMinHDiag) (H i i) = true ∧ lt (H i i) so.checkMinHDiag = true := by
  rw [buildSystem_lowDiag ht w s x c g H w' e hv]
  simp only [absF_lt ht]

/-- diagonal Hessian `diag(1, 1/1000)` -/
def skew2 : Problem D D Nat D where
  acc :=
    { full := fun w _ _ g H =>
        (({ cost := ofInt 1, num := 2, inlier := ofInt 1 }, g,
          fun i j => if i = j then (if i.val = 0 then ofInt 1 else div (ofInt 1) (ofInt 1000)) else H i j), w + 1)
      eval := fun w _ => ({ cost := ofInt 1, num := 2, inlier := ofInt 1 }, w) }
  dims := some 2
  dynDims := fun _ => 2
  plusEq := fun x _ => x
  clock := fun w => (ofInt 1, w)
  alloc := fun w _ => (none, w)
  ratio1 := ofInt 1

def soptsMinDiag : SolverOpts D := { sopts1 with checkMinHDiag := div (ofInt 1) (ofInt 10) }

/-- **C51 is violated**: a Hessian with one large diagonal coefficient is rejected, and so the whole run
fails, because another coefficient is below the threshold. -/
theorem C51_any_not_all :
    (∃ i j : Fin 2, lt (absF ((skew2.acc.full 0 (ofInt 0) 2 (fun _ => ofInt 0) (fun _ _ => ofInt 0)).1.2.2 i i)) soptsMinDiag.checkMinHDiag = false ∧
      lt (absF ((skew2.acc.full 0 (ofInt 0) 2 (fun _ => ofInt 0) (fun _ _ => ofInt 0)).1.2.2 j j)) soptsMinDiag.checkMinHDiag = true) ∧
    (buildSystem soptsMinDiag skew2 0 ⟨2, fun _ => ofInt 0, fun _ _ => ofInt 0, { cost := ofInt 0, num := 0, inlier := ofInt 1 }⟩ (ofInt 0)).1 = false := by
  refine ⟨⟨0, 1, ?_, ?_⟩, ?_⟩ <;> decide +kernel

/-! ### C29: cost scaling -/

/-- **C29** (partial: exact arithmetic): for non-negative costs and the same number of residuals, all 8 option
combinations order two costs like the raw costs. With rounding two different costs may become equal, see
`C29_rounding_ties` and `C29_scaled_decrease_partial` (Props/CostScaling). -/
theorem C29_scaling_monotone_partial {R : Type} (so : SolverOpts ℝ) (c1 c2 : Cost ℝ R) (h1 : 0 ≤ c1.cost) (h2 : 0 ≤ c2.cost)
    (hn : c1.num = c2.num) :
    lt (normalizeCost so c1).cost (normalizeCost so c2).cost = lt c1.cost c2.cost := by
  rw [Bool.eq_iff_iff]
  obtain ⟨c1, n1, r1, l1⟩ := c1
  obtain ⟨c2, n2, r2, l2⟩ := c2
  simp only at h1 h2 hn
  subst hn
  have hsq : (Real.sqrt c1 < Real.sqrt c2) ↔ c1 < c2 := Real.sqrt_lt_sqrt_iff h1
  have hhalf : ∀ a b : ℝ, (a * (1 / 2) < b * (1 / 2)) ↔ a < b := fun a b => by constructor <;> intro h <;> linarith
  have hdiv : ∀ a b : ℝ, 0 < n1 → ((a / n1 < b / n1) ↔ a < b) := fun a b hn => by
    have : (0 : ℝ) < n1 := by exact_mod_cast hn
    exact div_lt_div_iff_of_pos_right this
  unfold normalizeCost
  simp only [RealOps.sqrt_eq, RealOps.mul_eq, RealOps.half_eq, RealOps.div_eq, RealOps.ofInt_eq, RealOps.lt_eq]
  by_cases hpos : 0 < n1
  · rcases so.useSquaredNorm <;> rcases so.downscaleBy2 <;> rcases so.normalize <;>
      simp [hpos, hdiv _ _ hpos, hsq]
  · rcases so.useSquaredNorm <;> rcases so.downscaleBy2 <;> rcases so.normalize <;>
      simp [hpos, hsq]

/-! ### Non-vacuity -/

/-- default options with clipping at 1 -/
def soptsClip : SolverOpts D := { sopts1 with gradClip := ofInt 1 }

/-- `C26_lm`: a run of 3 iterations on a new object whose first gradient (-3) is clipped -/
example : lt (ofInt 0) soptsClip.gradClip = true ∧ KeepsDims (lin3 none) ∧
    (lmFresh soptsClip (lin3 none) nofun nofun : LMState D D).rebuild = true ∧
    (optimizeAcc (lmEnv soptsClip lin1 (lin3 none)) (opts1 2) 10 (-1) 0 (lmFresh soptsClip (lin3 none) nofun nofun)
      (ofInt 0)).holds (fun st => decide (st.trace.length = 3) && st.trace.all (fun r => r.dx.isSome)) = true :=
  ⟨by decide +kernel, fun _ _ => rfl, rfl, by decide +kernel⟩

/-- `C26_gd`: the first step of gradient descent is 1 = lr * c instead of 3 -/
example : lt soptsClip.lr (ofInt 0) = false ∧
    (optimizeAcc (gdEnv soptsClip (lin3 none)) (opts1 0) 10 (-1) 0 gn0 (ofInt 0)).holds
      (fun st => decide (st.x = ofInt 1)) = true :=
  And.intro (by decide +kernel) (by decide +kernel)

/-- `C27`: user functions that differ below the diagonal -/
def skew2' : Problem D D Nat D := { skew2 with acc := { skew2.acc with
  full := fun w x n g H => (((skew2.acc.full w x n g H).1.1, (skew2.acc.full w x n g H).1.2.1,
    fun i j => if i ≤ j then (skew2.acc.full w x n g H).1.2.2 i j else ofInt 99), w + 1) } }

example : SameUpper skew2 skew2' ∧
    (skew2.acc.full 0 (ofInt 0) 2 (fun _ => ofInt 0) (fun _ _ => ofInt 0)).1.2.2 1 0 ≠
    (skew2'.acc.full 0 (ofInt 0) 2 (fun _ => ofInt 0) (fun _ _ => ofInt 0)).1.2.2 1 0 := by
  refine ⟨⟨rfl, rfl, rfl, rfl, rfl, rfl, rfl, fun w x n => ⟨_, _, _, _, _, rfl, rfl, fun i j hij => ?_⟩⟩, by decide +kernel⟩
  rw [if_pos hij]; rfl

/-- `C51_exact_partial` -/
example : lt (ofInt 0) soptsMinDiag.checkMinHDiag = true ∧
    (normalizeCost soptsMinDiag (skew2.acc.full 0 (ofInt 0) 2 (fun _ => ofInt 0) (fun _ _ => ofInt 0)).1.1).isValid = true := by
  constructor <;> decide +kernel

/-- `C29`: two costs ordered in the same way under square root, halving and normalisation -/
example : (normalizeCost { useSquaredNorm := false, downscaleBy2 := true, normalize := true, gradClip := 0, useLdlt := true, hIsFull := true, checkMinHDiag := 0, dampInit := 0, dampLo := 0, dampHi := 1, goodFactor := 1, badFactor := 2, lr := 1 : SolverOpts ℝ } (⟨4, 2, 1, ""⟩ : Cost ℝ ℝ)).cost = 1 / 2 := by
  have : Real.sqrt 4 = 2 := by rw [show (4 : ℝ) = 2 ^ 2 by norm_num]; exact Real.sqrt_sq (by norm_num)
  simp [normalizeCost, this]

end Verif
