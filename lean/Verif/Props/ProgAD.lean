import Verif.Model.Prog
import Verif.Props.AutoDiffTypes
/-!
# C73: automatic differentiation of programs with branches and loops
-/

namespace Verif
namespace Loss
open Classical Filter Topology

/-! ### Expressions on arbitrary jets -/

/-- the affine function with value `a` and gradient `v` at zero -/
def affine {n} (a : ℝ) (v : RVec n) : List (Fin n) → Expr n
  | [] => .const a
  | i :: l => .op2 .add (.op1 (.sMul (v i)) (.var i)) (affine a v l)

theorem affine_inDomain {n} (a : ℝ) (v x : RVec n) : ∀ l, (affine a v l).InDomain x
  | [] => trivial
  | _ :: l => ⟨⟨trivial, Or.inl trivial⟩, affine_inDomain a v x l, Or.inl trivial⟩

theorem affine_value {n} (a : ℝ) (v x : RVec n) : ∀ l, (affine a v l).value x = (l.map fun i => x i * v i).sum + a
  | [] => by simp [affine, Expr.value]
  | i :: l => by
    simp only [affine, Expr.value, fn2, fn1, affine_value a v x l, List.map_cons, List.sum_cons]
    ring

theorem affine_jet {n} (a : ℝ) (v : RVec n) : ∀ l, (affine a v l).jet 0 = .ok ⟨a, fun j => (l.map fun i => (Pi.single i 1 : RVec n) j * v i).sum⟩
  | [] => by simp only [affine, Expr.jet, List.map_nil, List.sum_nil]; rfl
  | i :: l => by
    have h1 : (Expr.op1 (n := n) (.sMul (v i)) (.var i)).jet 0 = .ok ⟨0, fun j => (Pi.single i 1 : RVec n) j * v i⟩ := by
      simp only [Expr.jet, Out.bind, SJet.op1, rule1]
      rw [if_neg (by rintro ⟨_, h⟩; exact h)]
      simp
    show ((Expr.op1 (n := n) (.sMul (v i)) (.var i)).jet 0).bind (fun f => ((affine a v l).jet 0).bind (SJet.op2 .add f)) = _
    rw [h1, affine_jet a v l]
    refine (add_sjet _ _).trans ?_
    simp

theorem affine_full {n} (a : ℝ) (v : RVec n) : (affine a v (List.finRange n)).jet 0 = .ok ⟨a, v⟩ := by
  rw [affine_jet]
  congr 2
  funext j
  rw [← List.ofFn_eq_map, List.sum_ofFn, Finset.sum_eq_single j]
  · simp
  · intro i _ h
    rw [Pi.single_eq_of_ne (Ne.symm h)]; simp
  · intro h; exact absurd (Finset.mem_univ j) h

theorem affine_full_value {n} (a : ℝ) (v x : RVec n) : (affine a v (List.finRange n)).value x = ∑ i, x i * v i + a := by
  rw [affine_value, ← List.ofFn_eq_map, List.sum_ofFn]

/-- an expression on jets is the jet of the expression of affine functions -/
theorem jetAt_affine {k n} (env : Fin k → SJet n) (e : Expr k) :
    e.jetAt (fun j => .ok (env j)) = (e.subst fun j => affine (env j).a (env j).v (List.finRange n)).jet 0 := by
  rw [← jetAt_subst]
  congr 1
  funext j
  exact (affine_full _ _).symm

theorem jetAt_value {k n} (env : Fin k → SJet n) (e : Expr k) (j : SJet n) (h : e.jetAt (fun j => .ok (env j)) = .ok j) :
    j.a = e.value fun i => (env i).a := by
  rw [jetAt_affine] at h
  rw [C36_value _ _ j h, value_subst]
  congr 1
  funext i
  rw [affine_full_value]
  simp

/-- the jets `env` are the values and gradients of the functions `G` at `x` -/
def IsJet {k n} (env : Fin k → SJet n) (G : RVec n → RVec k) (x : RVec n) : Prop := ∀ i, (env i).a = G x i ∧ HasGrad (fun y => G y i) (env i).v x

theorem jetAt_correct {k n} (env : Fin k → SJet n) (G : RVec n → RVec k) (x : RVec n) (hG : IsJet env G x) (e : Expr k) (he : e.InDomain (G x)) :
    ∃ j, e.jetAt (fun j => .ok (env j)) = .ok j ∧ j.a = e.value (G x) ∧ HasGrad (fun y => e.value (G y)) j.v x := by
  have ha : (fun i => (env i).a) = G x := funext fun i => (hG i).1
  let s : Fin k → Expr n := fun j => affine (env j).a (env j).v (List.finRange n)
  have hs : ∀ j (y : RVec n), (s j).value y = ∑ i, y i * (env j).v i + (env j).a := fun j y => affine_full_value _ _ _
  have h0 : (fun j => (s j).value 0) = G x := by
    rw [← ha]; funext j; rw [hs]; simp
  have hc : ContinuousAt (fun (y : RVec n) (j : Fin k) => (s j).value y) 0 := by
    refine Continuous.continuousAt (continuous_pi fun j => ?_)
    simp only [hs]
    fun_prop
  have hd := inDomain_subst s 0 (fun j => affine_inDomain _ _ _ _) hc e (by rw [h0]; exact he)
  obtain ⟨J', hj', hJ'⟩ := C36_gradient (e.subst s) 0 hd
  obtain ⟨J, -, hJ⟩ := C36_gradient e (G x) he
  have hsj : HasJac (fun (y : RVec n) (j : Fin k) => (s j).value y) (fun j => (env j).v) 0 := by
    intro j
    obtain ⟨v, hv, hv'⟩ := C36_gradient (s j) 0 (affine_inDomain _ _ _ _)
    rw [show (s j).jet 0 = .ok ⟨(env j).a, (env j).v⟩ from affine_full _ _] at hv
    injection hv with hv
    injection hv with _ hv
    show HasGrad _ (env j).v 0
    rw [hv]; exact hv'
  have hJ0 : HasGrad e.value J (fun j => (s j).value 0) := by rw [h0]; exact hJ
  have e1 : J' = Matrix.vecMul J (fun j => (env j).v) := HasGrad.unique (hJ'.congr_eq fun y => (value_subst s y e).symm) (hJ0.chain hsj)
  refine ⟨_, (jetAt_affine env e).trans hj', ?_, ?_⟩
  · show (e.subst s).value 0 = _
    rw [value_subst, h0]
  · show HasGrad _ J' x
    rw [e1]
    exact hJ.chain fun j => (hG j).2

/-! ### Programs -/

theorem Exec.bind_ok {α β : Type} {x : Exec α} {g : α → Exec β} {b : β} (h : x.bind g = .ok b) : ∃ a, x = .ok a ∧ g a = .ok b := by
  cases x <;> simp [Exec.bind] at h ⊢; exact h

theorem Out.exec_ok {α : Type} {x : Out α} {a : α} (h : x.exec = .ok a) : x = .ok a := by
  cases x <;> simp [Out.exec] at h ⊢; exact h

section
variable {S : Type} {k n : Nat}

/-- the program on real numbers -/
noncomputable def Stmt.execR (f : Nat) (s : Stmt S k) (st : S × RVec k) : Exec (S × RVec k) := s.exec (fun regs e => .ok (e.value regs)) id f st

/-- the condition on real numbers -/
noncomputable def Test.holds (a : RVec k) : Test k → Bool
  | .bool b => b
  | .cmp c e₁ e₂ => c.holds (e₁.value a) (e₂.value a)

theorem Test.eval_real (a : RVec k) (t : Test k) : t.eval (fun regs e => .ok (e.value regs)) id a = .ok (t.holds a) := by
  cases t <;> rfl

/-- the scalar parts -/
def scalars (st : S × (Fin k → SJet n)) : S × RVec k := (st.1, fun i => (st.2 i).a)

theorem Test.eval_jet (regs : Fin k → SJet n) (t : Test k) (b : Bool)
    (h : t.eval (fun regs e => e.jetAt fun i => .ok (regs i)) SJet.a regs = .ok b) : t.holds (fun i => (regs i).a) = b := by
  cases t with
  | bool c => injection h
  | cmp c e₁ e₂ =>
    obtain ⟨a, ha, h⟩ := Exec.bind_ok h
    obtain ⟨d, hd, h⟩ := Exec.bind_ok h
    injection h with h
    rw [← h, jetAt_value _ _ _ (Out.exec_ok ha), jetAt_value _ _ _ (Out.exec_ok hd)]
    rfl

/-- **C73**, values: a run on jets that ends follows the run on numbers, with the same state and the same values. -/
theorem C73_values (f : Nat) (s : Stmt S k) : ∀ (st st' : S × (Fin k → SJet n)), s.execJ f st = .ok st' → s.execR f (scalars st) = .ok (scalars st') := by
  induction s with
  | skip => intro st st' h; injection h with h; rw [← h]; rfl
  | assign i e =>
    intro st st' h
    obtain ⟨v, hv, h⟩ := Exec.bind_ok h
    injection h with h
    have hv' := jetAt_value _ _ _ (Out.exec_ok hv)
    rw [← h]
    show Exec.ok _ = Exec.ok _
    congr 1
    refine Prod.ext rfl ?_
    funext r
    by_cases hr : r = i st.1
    · subst hr
      simp [scalars, hv']
    · simp [scalars, hr]
  | set g => intro st st' h; injection h with h; rw [← h]; rfl
  | seq s₁ s₂ h1 h2 =>
    intro st st' h
    obtain ⟨m, hm, h⟩ := Exec.bind_ok h
    show (s₁.execR f (scalars st)).bind (s₂.execR f) = _
    rw [h1 _ _ hm]
    exact h2 _ _ h
  | ite c s₁ s₂ h1 h2 =>
    intro st st' h
    obtain ⟨b, hb, h⟩ := Exec.bind_ok h
    have hb' := Test.eval_jet _ _ _ hb
    show ((c st.1).eval (fun regs e => .ok (e.value regs)) id (scalars st).2).bind (fun b => if b then s₁.execR f (scalars st) else s₂.execR f (scalars st)) = _
    rw [Test.eval_real, show (c st.1).holds (scalars st).2 = b from hb']
    cases b
    · exact h2 _ _ h
    · exact h1 _ _ h
  | loop c s ih =>
    have key : ∀ (g : Nat) (st st' : S × (Fin k → SJet n)),
        loopN (fun st => (c st.1).eval (fun regs e => e.jetAt fun i => .ok (regs i)) SJet.a st.2) (s.execJ f) g st = .ok st' →
        loopN (fun st => (c st.1).eval (fun regs e => .ok (e.value regs)) id st.2) (s.execR f) g (scalars st) = .ok (scalars st') := by
      intro g
      induction g with
      | zero => intro st st' h; cases h
      | succ g ihg =>
        intro st st' h
        obtain ⟨b, hb, h⟩ := Exec.bind_ok h
        have hb' := Test.eval_jet _ _ _ hb
        show ((c st.1).eval (fun regs e => .ok (e.value regs)) id (scalars st).2).bind _ = _
        rw [Test.eval_real, show (c st.1).holds (scalars st).2 = b from hb']
        cases b
        · injection h with h; rw [← h]; rfl
        · obtain ⟨m, hm, h⟩ := Exec.bind_ok h
          show (s.execR f (scalars st)).bind _ = _
          rw [ih _ _ hm]
          exact ihg _ _ h
    exact fun st st' h => key f st st' h

/-- a condition away from its switching points: the compared values are inside the domain and differ -/
def Test.Strict (a : RVec k) : Test k → Prop
  | .bool _ => True
  | .cmp _ e₁ e₂ => e₁.InDomain a ∧ e₂.InDomain a ∧ e₁.value a ≠ e₂.value a

/-- a loop away from the switching points of its condition, for at most `f` tests -/
def LoopOk (c : S → Test k) (s : Stmt S k) (f : Nat) (P : S × RVec k → Prop) : Nat → S × RVec k → Prop
  | 0, _ => True
  | g + 1, st => (c st.1).Strict st.2 ∧ ((c st.1).holds st.2 = true → P st ∧ ∀ st', s.execR f st = .ok st' → LoopOk c s f P g st')

/-- the run on numbers evaluates expressions inside their domain and compares different values -/
def Stmt.Regular (f : Nat) : Stmt S k → S × RVec k → Prop
  | .skip, _ => True
  | .assign _ e, st => (e st.1).InDomain st.2
  | .set _, _ => True
  | .seq s₁ s₂, st => s₁.Regular f st ∧ ∀ st', s₁.execR f st = .ok st' → s₂.Regular f st'
  | .ite c s₁ s₂, st => (c st.1).Strict st.2 ∧ ((c st.1).holds st.2 = true → s₁.Regular f st) ∧ ((c st.1).holds st.2 = false → s₂.Regular f st)
  | .loop c s, st => LoopOk c s f (s.Regular f) f st

theorem Cmp.stable (c : Cmp) {X : Type} [TopologicalSpace X] (u v : X → ℝ) (x : X) (hu : ContinuousAt u x) (hv : ContinuousAt v x) (h : u x ≠ v x) :
    ∀ᶠ y in 𝓝 x, c.holds (u y) (v y) = c.holds (u x) (v x) := by
  rcases lt_or_gt_of_ne h with h | h
  · filter_upwards [hu.eventually_lt hv h] with y hy
    cases c <;> simp [Cmp.holds, hy, h, hy.le, h.le, hy.ne, h.ne, not_lt.2 hy.le, not_lt.2 h.le, not_le.2 hy, not_le.2 h]
  · filter_upwards [hv.eventually_lt hu h] with y hy
    cases c <;> simp [Cmp.holds, hy, h, hy.le, h.le, hy.ne', h.ne', not_lt.2 hy.le, not_lt.2 h.le, not_le.2 hy, not_le.2 h]

theorem Test.stable (env : Fin k → SJet n) (G : RVec n → RVec k) (x : RVec n) (hG : IsJet env G x) (t : Test k) (h : t.Strict (G x)) :
    t.eval (fun regs e => e.jetAt fun i => .ok (regs i)) SJet.a env = .ok (t.holds (G x)) ∧ ∀ᶠ y in 𝓝 x, t.holds (G y) = t.holds (G x) := by
  cases t with
  | bool b => exact ⟨rfl, Eventually.of_forall fun _ => rfl⟩
  | cmp c e₁ e₂ =>
    obtain ⟨h1, h2, h3⟩ := h
    obtain ⟨j1, hj1, ha1, hg1⟩ := jetAt_correct env G x hG e₁ h1
    obtain ⟨j2, hj2, ha2, hg2⟩ := jetAt_correct env G x hG e₂ h2
    refine ⟨?_, c.stable (fun y => e₁.value (G y)) (fun y => e₂.value (G y)) x hg1.continuousAt hg2.continuousAt h3⟩
    simp only [Test.eval, hj1, hj2, Out.exec, Exec.bind, ha1, ha2]
    rfl

/-- the run on jets computes values and gradients, and nearby runs on numbers take the same path -/
def Tracks (s : (S × (Fin k → SJet n)) → Exec (S × (Fin k → SJet n))) (r : S × RVec k → Exec (S × RVec k)) (σ σ' : S) (env : Fin k → SJet n)
    (G : RVec n → RVec k) (x : RVec n) : Prop :=
  ∃ env' G', s (σ, env) = .ok (σ', env') ∧ (∀ᶠ y in 𝓝 x, r (σ, G y) = .ok (σ', G' y)) ∧ IsJet env' G' x

theorem exec_correct (f : Nat) (s : Stmt S k) : ∀ (σ σ' : S) (a' : RVec k) (env : Fin k → SJet n) (G : RVec n → RVec k) (x : RVec n), IsJet env G x →
    s.Regular f (σ, G x) → s.execR f (σ, G x) = .ok (σ', a') → Tracks (s.execJ f) (s.execR f) σ σ' env G x := by
  induction s with
  | skip =>
    intro σ σ' a' env G x hG _ h
    injection h with h
    injection h with h _
    subst h
    exact ⟨env, G, rfl, Eventually.of_forall fun _ => rfl, hG⟩
  | assign i e =>
    intro σ σ' a' env G x hG hr h
    injection h with h
    injection h with h _
    subst h
    obtain ⟨j, hj, ha, hg⟩ := jetAt_correct env G x hG (e σ) hr
    refine ⟨Function.update env (i σ) j, fun y => Function.update (G y) (i σ) ((e σ).value (G y)), ?_, Eventually.of_forall fun _ => rfl, fun r => ?_⟩
    · show ((e σ).jetAt fun i => .ok (env i)).exec.bind _ = _
      rw [hj]; rfl
    · by_cases hr : r = i σ
      · subst hr
        simpa using ⟨ha, hg⟩
      · simpa [Function.update_of_ne hr] using hG r
  | set g =>
    intro σ σ' a' env G x hG _ h
    injection h with h
    injection h with h _
    subst h
    exact ⟨env, G, rfl, Eventually.of_forall fun _ => rfl, hG⟩
  | seq s₁ s₂ h1 h2 =>
    intro σ σ' a' env G x hG hr h
    obtain ⟨⟨σm, am⟩, hm, h⟩ := Exec.bind_ok h
    obtain ⟨envm, Gm, e1, e2, e3⟩ := h1 σ σm am env G x hG hr.1 hm
    have hx : am = Gm x := by
      have := e2.self_of_nhds
      rw [show s₁.execR f (σ, G x) = .ok (σm, am) from hm] at this
      injection this with this
      injection this
    subst hx
    obtain ⟨env', G', f1, f2, f3⟩ := h2 σm σ' a' envm Gm x e3 (hr.2 _ hm) h
    refine ⟨env', G', ?_, ?_, f3⟩
    · show (s₁.execJ f (σ, env)).bind (s₂.execJ f) = _
      rw [e1]; exact f1
    · filter_upwards [e2, f2] with y hy1 hy2
      show (s₁.execR f (σ, G y)).bind (s₂.execR f) = _
      rw [hy1]; exact hy2
  | ite c s₁ s₂ h1 h2 =>
    intro σ σ' a' env G x hG hr h
    obtain ⟨t1, t2⟩ := Test.stable env G x hG (c σ) hr.1
    have hR : ∀ y, (Stmt.ite c s₁ s₂).execR f (σ, G y) = if (c σ).holds (G y) then s₁.execR f (σ, G y) else s₂.execR f (σ, G y) := by
      intro y
      show ((c σ).eval (fun regs e => .ok (e.value regs)) id (G y)).bind _ = _
      rw [Test.eval_real]; rfl
    have hJ : (Stmt.ite c s₁ s₂).execJ f (σ, env) = if (c σ).holds (G x) then s₁.execJ f (σ, env) else s₂.execJ f (σ, env) := by
      show ((c σ).eval (fun regs e => e.jetAt fun i => .ok (regs i)) SJet.a env).bind _ = _
      rw [t1]; rfl
    rw [hR] at h
    cases hb : (c σ).holds (G x) with
    | true =>
      simp only [hb] at hJ t2 h
      obtain ⟨env', G', f1, f2, f3⟩ := h1 σ σ' a' env G x hG (hr.2.1 hb) h
      refine ⟨env', G', hJ.trans f1, ?_, f3⟩
      filter_upwards [t2, f2] with y hy1 hy2
      rw [hR, hy1]; exact hy2
    | false =>
      simp only [hb] at hJ t2 h
      obtain ⟨env', G', f1, f2, f3⟩ := h2 σ σ' a' env G x hG (hr.2.2 hb) h
      refine ⟨env', G', hJ.trans f1, ?_, f3⟩
      filter_upwards [t2, f2] with y hy1 hy2
      rw [hR, hy1]; exact hy2
  | loop c s ih =>
    let tR : S × RVec k → Exec Bool := fun st => (c st.1).eval (fun regs e => .ok (e.value regs)) id st.2
    let tJ : S × (Fin k → SJet n) → Exec Bool := fun st => (c st.1).eval (fun regs e => e.jetAt fun i => .ok (regs i)) SJet.a st.2
    have key : ∀ (g : Nat) (σ σ' : S) (a' : RVec k) (env : Fin k → SJet n) (G : RVec n → RVec k) (x : RVec n), IsJet env G x →
        LoopOk c s f (s.Regular f) g (σ, G x) → loopN tR (s.execR f) g (σ, G x) = .ok (σ', a') →
        Tracks (loopN tJ (s.execJ f) g) (loopN tR (s.execR f) g) σ σ' env G x := by
      intro g
      induction g with
      | zero => intro σ σ' a' env G x _ _ h; cases h
      | succ g ihg =>
        intro σ σ' a' env G x hG hr h
        obtain ⟨t1, t2⟩ := Test.stable env G x hG (c σ) hr.1
        have hR : ∀ y, loopN tR (s.execR f) (g + 1) (σ, G y) =
            if (c σ).holds (G y) then (s.execR f (σ, G y)).bind (loopN tR (s.execR f) g) else .ok (σ, G y) := by
          intro y
          show ((c σ).eval (fun regs e => .ok (e.value regs)) id (G y)).bind _ = _
          rw [Test.eval_real]; rfl
        have hJ : loopN tJ (s.execJ f) (g + 1) (σ, env) =
            if (c σ).holds (G x) then (s.execJ f (σ, env)).bind (loopN tJ (s.execJ f) g) else .ok (σ, env) := by
          show ((c σ).eval (fun regs e => e.jetAt fun i => .ok (regs i)) SJet.a env).bind _ = _
          rw [t1]; rfl
        rw [hR] at h
        cases hb : (c σ).holds (G x) with
        | true =>
          simp only [hb, if_true] at hJ t2 h
          obtain ⟨⟨σm, am⟩, hm, h⟩ := Exec.bind_ok h
          obtain ⟨hreg, hnext⟩ := hr.2 hb
          obtain ⟨envm, Gm, e1, e2, e3⟩ := ih σ σm am env G x hG hreg hm
          have hx : am = Gm x := by
            have := e2.self_of_nhds
            rw [hm] at this
            injection this with this
            injection this
          subst hx
          obtain ⟨env', G', f1, f2, f3⟩ := ihg σm σ' a' envm Gm x e3 (hnext _ hm) h
          refine ⟨env', G', ?_, ?_, f3⟩
          · rw [hJ, e1]; exact f1
          · filter_upwards [t2, e2, f2] with y hy1 hy2 hy3
            rw [hR, hy1, if_pos rfl, hy2]; exact hy3
        | false =>
          simp only [hb] at hJ t2 h
          injection h with h
          injection h with h _
          subst h
          refine ⟨env, G, hJ, ?_, hG⟩
          filter_upwards [t2] with y hy
          rw [hR, hy]; rfl
    exact fun σ σ' a' env G x hG hr h => key f σ σ' a' env G x hG hr h

end

/-! ### A user's function -/

section
variable {S : Type} {k n m : Nat}

/-- the registers at the start, for numbers -/
def UserProg.start (P : UserProg S k n m) (x : RVec n) : RVec k := fun r => match P.inp r with | some i => x i | none => 0

/-- the residuals of the program on numbers, if it ends -/
noncomputable def UserProg.residuals (P : UserProg S k n m) (f : Nat) (x : RVec n) : Option (RVec m) :=
  match P.body.execR f (P.state, P.start x) with
  | .ok st => some fun r => st.2 (P.out r)
  | _ => none

/-- **C73**, values: the residuals of automatic differentiation are those of the program on numbers. -/
theorem C73_residuals (P : UserProg S k n m) (f : Nat) (x : RVec n) (r : RVec m) (J : RMat m n) (h : P.evalAD f x = some (r, J)) :
    P.residuals f x = some r := by
  unfold UserProg.evalAD at h
  split at h
  · rename_i st hst
    have hs : scalars (P.state, P.seeds x) = (P.state, P.start x) := by
      refine Prod.ext rfl ?_
      funext r
      show (P.seeds x r).a = P.start x r
      unfold UserProg.start UserProg.seeds
      cases P.inp r <;> rfl
    have h1 := C73_values f P.body _ _ hst
    rw [hs] at h1
    unfold UserProg.residuals
    rw [h1]
    injection h with h
    injection h with h _
    rw [← h]; rfl
  · cases h

/-- **C73**, derivatives: where the program on numbers ends, evaluates its expressions inside their domain and compares only different values, automatic
differentiation ends, nearby runs end as well, and the matrix is the Jacobian of the residuals. -/
theorem C73_jacobian (P : UserProg S k n m) (f : Nat) (x : RVec n) (r : RVec m) (hx : P.residuals f x = some r)
    (hr : P.body.Regular f (P.state, P.start x)) :
    ∃ J F, P.evalAD f x = some (r, J) ∧ (∀ᶠ y in 𝓝 x, P.residuals f y = some (F y)) ∧ HasJac F J x := by
  unfold UserProg.residuals at hx
  split at hx
  · rename_i st hst
    obtain ⟨σ', a'⟩ := st
    have hG : IsJet (P.seeds x) P.start x := by
      intro r
      unfold UserProg.start UserProg.seeds
      cases P.inp r with
      | none => exact ⟨rfl, hasGrad_const 0 x⟩
      | some i => exact ⟨rfl, hasGrad_coord i x⟩
    obtain ⟨env', G', e1, e2, e3⟩ := exec_correct f P.body P.state σ' a' _ P.start x hG hr hst
    have ha : a' = G' x := by
      have := e2.self_of_nhds
      rw [hst] at this
      injection this with this
      injection this
    injection hx with hx
    refine ⟨fun q => (env' (P.out q)).v, fun y q => G' y (P.out q), ?_, ?_, fun q => (e3 (P.out q)).2⟩
    · unfold UserProg.evalAD
      rw [e1]
      show some (_, _) = some (_, _)
      rw [← hx]
      refine congrArg (fun v => some (v, _)) ?_
      funext q
      show (env' (P.out q)).a = a' (P.out q)
      rw [(e3 (P.out q)).1, ha]
    · filter_upwards [e2] with y hy
      unfold UserProg.residuals
      rw [hy]
  · cases hx

/-- halve the parameter until it is at most one -/
noncomputable def halving : UserProg Unit 1 1 1 :=
  ⟨(), fun _ => some 0, .loop (fun _ => .cmp .gt (.var 0) (.const 1)) (.assign (fun _ => 0) fun _ => .op1 (.sMul (1 / 2)) (.var 0)), fun _ => 0⟩

theorem halving_regular : halving.body.Regular 3 (halving.state, halving.start fun _ => 3) := by
  simp only [halving, Stmt.Regular, LoopOk, Test.Strict, Test.holds, Cmp.holds, Expr.value, UserProg.start, Expr.InDomain, Stmt.execR, Stmt.exec, Out.exec, Exec.bind,
    fn1, Exec.ok.injEq]
  norm_num [dom1]

theorem halving_residuals : halving.residuals 3 (fun _ => 3) = some fun _ => 3 / 4 := by
  simp only [halving, UserProg.residuals, Stmt.execR, Stmt.exec, loopN, Test.eval, UserProg.start, Out.exec, Exec.bind, Expr.value, Cmp.holds, fn1, id]
  norm_num

/-- a loop on the parameter -/
example : ∃ J F, halving.evalAD 3 (fun _ => 3) = some (fun _ => 3 / 4, J) ∧ (∀ᶠ y in 𝓝 (fun _ => (3 : ℝ)), halving.residuals 3 y = some (F y)) ∧
    HasJac F J (fun _ => 3) :=
  C73_jacobian halving 3 _ _ halving_residuals halving_regular

/-- a loop on a counter: `r = 1; for (i = 0; i < 3; ++i) r *= x` -/
example (x : RVec 1) : (Stmt.seq (.assign (fun _ => 1) fun _ => .const 1) (.loop (fun i => .bool (decide (i < 3)))
    (.seq (.assign (fun _ => 1) fun _ => .op2 .mul (.var 1) (.var 0)) (.set (· + 1)))) : Stmt Nat 2).Regular 4 (0, ![x 0, 0]) := by
  simp [Stmt.Regular, LoopOk, Test.Strict, Test.holds, Expr.InDomain, Stmt.execR, Stmt.exec, Out.exec, Exec.bind, dom2]

/-- The condition that the compared values differ is needed: `x == 1 ? 1 : x * x` is `x²`, and its derivative at one is computed as zero. -/
theorem C73_switch_wrong : ∃ P : UserProg Unit 2 1 1,
    (∀ f x, P.residuals f x = some fun _ => x 0 * x 0) ∧ ∀ f, P.evalAD f (fun _ => 1) = some (fun _ => 1, fun _ _ => 0) ∧
      ¬ HasJac (fun (x : RVec 1) (_ : Fin 1) => x 0 * x 0) (fun _ _ => 0) (fun _ => 1) := by
  refine ⟨⟨(), ![some 0, none], .ite (fun _ => .cmp .eq (.var 0) (.const 1)) (.assign (fun _ => 1) fun _ => .const 1)
    (.assign (fun _ => 1) fun _ => .op2 .mul (.var 0) (.var 0)), fun _ => 1⟩, fun f x => ?_, fun f => ⟨?_, fun h => ?_⟩⟩
  · by_cases hx : x 0 = 1 <;>
      simp [UserProg.residuals, Stmt.execR, Stmt.exec, Test.eval, UserProg.start, Out.exec, Exec.bind, Expr.value, Cmp.holds, fn2, hx]
  · simp [UserProg.evalAD, Stmt.execJ, Stmt.exec, Test.eval, UserProg.seeds, Out.exec, Exec.bind, Expr.jetAt, Cmp.holds]
    rfl
  · have h2 : HasGrad (fun x : RVec 1 => x 0 * x 0) _ (fun _ => 1) := (hasGrad_coord (0 : Fin 1) (fun _ => (1 : ℝ))).mul (hasGrad_coord 0 _)
    have := congrFun (HasGrad.unique (h 0) h2) 0
    norm_num at this

end

end Loss
end Verif
