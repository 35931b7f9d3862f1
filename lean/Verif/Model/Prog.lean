import Verif.Model.Seed
/-!
# Programs on jets

A user's residual function is a template: the same program runs on numbers and on jets. Its control flow compares jets, `operator<` etc. of jet.h:432-448 and
`isless` etc. (jet.h:1059-1120), which compare the scalar parts. A program has `k` registers of the scalar type and a state of any other type `S` (counters, flags,
indices) that does not depend on the scalars; it has assignments, branches and loops. Conversions of a scalar to an integer are not modelled. A computation with a
NaN or an infinite part is given up (`nonfinite`), although the C++ program would go on.
-/

namespace Verif
namespace Loss

open Classical

/-- the comparisons of jets, jet.h:442-447 -/
inductive Cmp
  | lt | le | gt | ge | eq | ne

/-- the comparisons of scalars -/
noncomputable def Cmp.holds : Cmp → ℝ → ℝ → Bool
  | .lt, a, b => decide (a < b)
  | .le, a, b => decide (a ≤ b)
  | .gt, a, b => decide (a > b)
  | .ge, a, b => decide (a ≥ b)
  | .eq, a, b => decide (a = b)
  | .ne, a, b => decide (a ≠ b)

/-- a condition -/
inductive Test (k : Nat)
  /-- of the state -/
  | bool (b : Bool)
  /-- a comparison of scalars -/
  | cmp (c : Cmp) (e₁ e₂ : Expr k)

/-- a program -/
inductive Stmt (S : Type) (k : Nat)
  | skip
  /-- `r[i] = e` -/
  | assign (i : S → Fin k) (e : S → Expr k)
  /-- a change of the state -/
  | set (f : S → S)
  | seq (s₁ s₂ : Stmt S k)
  | ite (c : S → Test k) (s₁ s₂ : Stmt S k)
  | loop (c : S → Test k) (s : Stmt S k)

/-- the outcome of a program -/
inductive Exec (α : Type)
  | ok (a : α)
  | nonfinite
  | ub
  /-- a loop has not ended -/
  | fuel

/-- the rest of a program -/
def Exec.bind {α β : Type} (x : Exec α) (g : α → Exec β) : Exec β :=
  match x with
  | .ok a => g a
  | .nonfinite => .nonfinite
  | .ub => .ub
  | .fuel => .fuel

/-- an operation in a program -/
def Out.exec {α : Type} : Out α → Exec α
  | .ok a => .ok a
  | .nonfinite => .nonfinite
  | .ub => .ub

/-- `while (test) body`, at most `f` tests -/
def loopN {α : Type} (test : α → Exec Bool) (body : α → Exec α) : Nat → α → Exec α
  | 0, _ => .fuel
  | f + 1, st => (test st).bind fun b => if b then (body st).bind (loopN test body f) else .ok st

section
variable {V S : Type} {k : Nat}

/-- a condition, with the value `ev` of an expression and the scalar part `sc` of a value: `AsScalar(f) op AsScalar(g)`, jet.h:436-440 -/
noncomputable def Test.eval (ev : (Fin k → V) → Expr k → Out V) (sc : V → ℝ) (regs : Fin k → V) : Test k → Exec Bool
  | .bool b => .ok b
  | .cmp c e₁ e₂ => (ev regs e₁).exec.bind fun a => (ev regs e₂).exec.bind fun b => .ok (c.holds (sc a) (sc b))

/-- a program -/
noncomputable def Stmt.exec (ev : (Fin k → V) → Expr k → Out V) (sc : V → ℝ) (f : Nat) : Stmt S k → S × (Fin k → V) → Exec (S × (Fin k → V))
  | .skip, st => .ok st
  | .assign i e, st => (ev st.2 (e st.1)).exec.bind fun v => .ok (st.1, Function.update st.2 (i st.1) v)
  | .set g, st => .ok (g st.1, st.2)
  | .seq s₁ s₂, st => (s₁.exec ev sc f st).bind (s₂.exec ev sc f)
  | .ite c s₁ s₂, st => ((c st.1).eval ev sc st.2).bind fun b => if b then s₁.exec ev sc f st else s₂.exec ev sc f st
  | .loop c s, st => loopN (fun st => (c st.1).eval ev sc st.2) (s.exec ev sc f) f st

/-- the program on jets of compile-time dimension -/
noncomputable def Stmt.execJ {n} (f : Nat) (s : Stmt S k) (st : S × (Fin k → SJet n)) : Exec (S × (Fin k → SJet n)) :=
  s.exec (fun regs e => e.jetAt fun i => .ok (regs i)) SJet.a f st

end

/-- a user's function: the registers that hold the parameters at the start (the others are zero), and those that hold the residuals at the end -/
structure UserProg (S : Type) (k n m : Nat) where
  state : S
  inp : Fin k → Option (Fin n)
  body : Stmt S k
  out : Fin m → Fin k

/-- the registers at the start: the parameters with unit infinitesimal parts, auto_diff.h:28-52 -/
noncomputable def UserProg.seeds {S : Type} {k n m} (P : UserProg S k n m) (x : RVec n) (r : Fin k) : SJet n :=
  match P.inp r with
  | some i => ⟨x i, Pi.single i 1⟩
  | none => ⟨0, 0⟩

/-- `Eval`, auto_diff.h:17-119, of a user's function on a vector of compile-time dimension -/
noncomputable def UserProg.evalAD {S : Type} {k n m} (P : UserProg S k n m) (f : Nat) (x : RVec n) : Option (RVec m × RMat m n) :=
  match P.body.execJ f (P.state, P.seeds x) with
  | .ok st => some (fun r => (st.2 (P.out r)).a, fun r => (st.2 (P.out r)).v)
  | _ => none

end Loss
end Verif
