import Verif.Model.Jet
import Verif.Props.ParamUpdate
/-!
# The parameters as jets, for every parameter type

`Eval` (diff/auto_diff.h:31-63) and `OptimizeWithAutoDiff` (diff/optimize_autodiff.h:46-90): a scalar or a matrix is cast and every coefficient gets its unit
vector; every other type is cast and updated with `PlusEq` and a vector of jets. The scalars are real numbers. Not modelled: user classes (their own `cast` and
`+=`) and the Lie groups.
-/

namespace Verif
namespace Loss

open Classical

/-- `Jet += Jet`, jet.h:251-254 with 320-328 -/
noncomputable def addSJ {n} (f g : Out (SJet n)) : Out (SJet n) := f.bind fun f => g.bind (SJet.op2 .add f)

/-- the same for the run-time dimension -/
noncomputable def addDJ (f g : Out DJet) : Out DJet := f.bind fun f => g.bind (DJet.op2 .add f)

/-- `PlusEq` on jets compiles: `params_trait<Jet>::PlusEq` is `v += delta` (jet_traits.h:65), which a segment of a vector of jets does not fit, so that the
components of pairs cannot be scalars; the elements of vectors and arrays can (traits.h:250-251, 298-299). -/
def PTy.jetPlus : PTy → Bool
  | .scalar => false
  | .mat _ _ => true
  | .vec t => t == .scalar || jetPlus t
  | .arr _ t => t == .scalar || jetPlus t
  | .pair a b => jetPlus a && jetPlus b

/-- `params_trait<T>::Scalar` (traits.h:152, 169, 221, 266, 314) is a floating-point type: the jets are `Jet<Scalar, Dims>` -/
def PTy.scalarFl : PTy → Bool
  | .scalar => true
  | .mat _ _ => true
  | .vec t => t == .scalar
  | .arr _ t => t == .scalar
  | .pair a _ => scalarFl a

/-- the types that can be differentiated automatically -/
def PTy.adOk (t : PTy) : Bool := t.compiles && PTy.scalarFl t && (t == .scalar || PTy.jetPlus t)

/-- `x_jet.v[i] = 1` -/
noncomputable def unitS {n} (i : Nat) : Out (SJet n) → Res (Out (SJet n))
  | .ok f => if h : i < n then .ok (.ok ⟨f.a, Function.update f.v ⟨i, h⟩ 1⟩) else .ub
  | _ => .ub

/-- `x_jet.v = Zero(dims); x_jet.v[i] = 1` -/
noncomputable def unitD (dims i : Nat) : Out DJet → Res (Out DJet)
  | .ok f => if i < dims then .ok (.ok ⟨f.a, (List.replicate dims 0).set i 1⟩) else .ub
  | _ => .ub

/-- the loops over the columns and the rows, auto_diff.h:55-62 and optimize_autodiff.h:71-79: the coefficient at position `k` of the column-major storage is in
row `k % rows` and column `k / rows`; `unit i` gives it the `i`-th unit vector -/
def seedMat {α : Type} (unit : Nat → α → Res α) (m : MatV α) : Res (MatV α) :=
  (updLoop (fun k f => let r := k % m.rows; let c := k / m.rows; unit (r + c * m.rows) f) 0 m.data).bind fun d => .ok ⟨m.rows, m.cols, d⟩

/-- the parameters as jets of compile-time dimension `n`: auto_diff.h:41-63, optimize_autodiff.h:56-81 (lines of the same text). `dx_jet[i]` has the scalar part
zero and the `i`-th unit vector. -/
noncomputable def seedS (t : PTy) (n : Nat) (x : t.Val ℝ) : Res (t.Val (Out (SJet n))) :=
  if PTy.adOk t then
    match t, x with
    | .scalar, (x : ℝ) => unitS 0 (.ok ⟨x, 0⟩)
    | .mat r c, (x : MatV ℝ) => seedMat unitS ((PTy.mat r c).cast (fun a => (.ok ⟨a, 0⟩ : Out (SJet n))) x)
    | t, x => t.plusEqBy addSJ (t.cast (fun a => (.ok ⟨a, 0⟩ : Out (SJet n))) x) (List.ofFn fun i : Fin n => .ok ⟨0, Function.update 0 i 1⟩)
  else .ub

/-- the same for the run-time dimension: casting leaves `v` empty -/
noncomputable def seedD (t : PTy) (x : t.Val ℝ) : Res (t.Val (Out DJet)) :=
  let dims := t.dynDims x
  if PTy.adOk t then
    match t, x with
    | .scalar, (x : ℝ) => unitD dims 0 (.ok ⟨x, []⟩)
    | .mat r c, (x : MatV ℝ) => seedMat (unitD dims) ((PTy.mat r c).cast (fun a => (.ok ⟨a, []⟩ : Out DJet)) x)
    | t, x => t.plusEqBy addDJ (t.cast (fun a => (.ok ⟨a, []⟩ : Out DJet)) x)
        (List.ofFn fun i : Fin dims => .ok ⟨0, (List.replicate dims 0).set i 1⟩)
  else .ub

/-- the user's function with the jets `env` for the coordinates of the parameters -/
noncomputable def Expr.jetAt {k n} (env : Fin k → Out (SJet n)) : Expr k → Out (SJet n)
  | .var i => env i
  | .const c => .ok ⟨c, 0⟩
  | .op1 o e => (e.jetAt env).bind (SJet.op1 o)
  | .op2 o e₁ e₂ => (e₁.jetAt env).bind fun f => (e₂.jetAt env).bind (SJet.op2 o f)
  | .op3 o e₁ e₂ e₃ => (e₁.jetAt env).bind fun f => (e₂.jetAt env).bind fun g => (e₃.jetAt env).bind (SJet.op3 o f g)

/-- the same for the run-time dimension -/
noncomputable def Expr.djetAt {k} (env : Fin k → Out DJet) : Expr k → Out DJet
  | .var i => env i
  | .const c => .ok ⟨c, []⟩
  | .op1 o e => (e.djetAt env).bind (DJet.op1 o)
  | .op2 o e₁ e₂ => (e₁.djetAt env).bind fun f => (e₂.djetAt env).bind (DJet.op2 o f)
  | .op3 o e₁ e₂ e₃ => (e₁.djetAt env).bind fun f => (e₂.djetAt env).bind fun g => (e₃.djetAt env).bind (DJet.op3 o f g)

/-- residuals and Jacobian from the jets of the residuals, auto_diff.h:85-119 -/
noncomputable def jacOf {n m} (f : Fin m → Out (SJet n)) : Option (RVec m × RMat m n) :=
  if ∀ i, ∃ j, f i = .ok j then
    some (fun i => match f i with | .ok j => j.a | _ => 0, fun i => match f i with | .ok j => j.v | _ => 0)
  else none

/-- the same for the run-time dimension -/
noncomputable def jacOfD {n m} (check : Bool) (f : Fin m → Out DJet) : Option (RVec m × RMat m n) :=
  if ∀ i, ∃ d j, f i = .ok d ∧ (rowD check d : Out (RVec n)) = .ok j then
    some (fun i => match f i with | .ok d => d.a | _ => 0, fun i => match (f i).bind (rowD check) with | .ok j => j | _ => 0)
  else none

/-- `Eval` for a parameter type of compile-time dimension `n`; the residuals are expressions of the `k` coordinates of the parameters -/
noncomputable def evalTy {k m} (t : PTy) (n : Nat) (x : t.Val ℝ) (e : Fin m → Expr k) : Option (RVec m × RMat m n) :=
  match seedS t n x with
  | .ok y => jacOf fun i => (e i).jetAt fun j => (t.flat y).getD j.val .ub
  | _ => none

/-- `Eval` for a parameter type of run-time dimension -/
noncomputable def evalTyD {k m} (check : Bool) (t : PTy) (n : Nat) (x : t.Val ℝ) (e : Fin m → Expr k) : Option (RVec m × RMat m n) :=
  match seedD t x with
  | .ok y => jacOfD check fun i => (e i).djetAt fun j => (t.flat y).getD j.val .ub
  | _ => none

end Loss
end Verif
